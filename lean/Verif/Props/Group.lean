import Verif.Spec.Group
/-! Which processes a termination signal reaches: C82. -/
namespace CM.Props
open CM CM.Spec

/-- The child has been started and not waited for. -/
def Unreaped : Proc.Child → Prop
  | .running | .exited _ => True
  | _ => False

/-- Where `Process::run` is, fits the child. -/
def PcOk (q : Proc.State) : Prop :=
  match q.pc with
  | .spawn => q.child = .absent
  | .log _ | .done _ => True
  | _ => Unreaped q.child

theorem proc_step_ok {q q' : Proc.State} {e : Proc.Event} (hq : PcOk q) (h : Proc.step q e = some q') :
    PcOk q' ∧ (q'.child = q.child ∨ (∃ st, q.child = .exited st ∧ q'.child = .reaped st) ∨
      (e = .spawn true ∧ q.child = .absent ∧ q'.child = .running) ∨
      ∃ st, e = .childExits st ∧ q.child = .running ∧ q'.child = .exited st) := by
  cases e with
  | tick n => cases h; exact ⟨hq, .inl rfl⟩
  | ctrlC => cases h; exact ⟨hq, .inl rfl⟩
  | childExits st =>
    unfold Proc.step at h
    by_cases hc : q.child = .running
    · simp only [hc, if_true] at h
      cases h
      refine ⟨?_, .inr (.inr (.inr ⟨st, rfl, hc, rfl⟩))⟩
      unfold PcOk at hq ⊢
      cases hp : q.pc <;> simp only [hp] at hq ⊢ <;> first | trivial | (rw [hc] at hq; cases hq)
    · simp only [hc, if_false] at h
      cases h
  | spawn ok =>
    unfold Proc.step at h
    by_cases hc : q.pc = .spawn
    · simp only [hc, if_true] at h
      unfold PcOk at hq
      simp only [hc] at hq
      cases ok with
      | true => cases h; exact ⟨trivial, .inr (.inr (.inl ⟨rfl, hq, rfl⟩))⟩
      | false => cases h; exact ⟨trivial, .inl rfl⟩
    · simp only [hc, if_false] at h
      cases h
  | checkTime =>
    unfold Proc.step at h
    by_cases hc : q.pc = .checkTime
    · simp only [hc, if_true] at h
      unfold PcOk at hq
      simp only [hc] at hq
      split at h <;> cases h <;> exact ⟨hq, .inl rfl⟩
    · simp only [hc, if_false] at h
      cases h
  | checkInterrupt =>
    unfold Proc.step at h
    by_cases hc : q.pc = .checkInterrupt
    · simp only [hc, if_true] at h
      unfold PcOk at hq
      simp only [hc] at hq
      split at h <;> cases h <;> exact ⟨hq, .inl rfl⟩
    · simp only [hc, if_false] at h
      cases h
  | tryWait ok =>
    unfold Proc.step at h
    by_cases hc : q.pc = .tryWait
    · simp only [hc, if_true] at h
      unfold PcOk at hq
      simp only [hc] at hq
      cases ok with
      | false => cases h; exact ⟨trivial, .inl rfl⟩
      | true =>
        cases hch : q.child with
        | exited st => simp [hch] at h; cases h; exact ⟨trivial, .inr (.inl ⟨st, rfl, rfl⟩)⟩
        | running => simp [hch] at h; cases h; exact ⟨trivial, .inl rfl⟩
        | absent => simp [hch] at h
        | reaped st => simp [hch] at h
    · simp only [hc, if_false] at h
      cases h
  | wake =>
    unfold Proc.step at h
    cases hc : q.pc with
    | asleep u =>
      simp only [hc] at h
      unfold PcOk at hq
      simp only [hc] at hq
      split at h
      · cases h; exact ⟨hq, .inl rfl⟩
      · cases h
    | _ => simp only [hc] at h; cases h
  | kill r =>
    unfold Proc.step at h
    cases hc : q.pc with
    | kill why =>
      simp only [hc] at h
      unfold PcOk at hq
      simp only [hc] at hq
      cases r with
      | ok => cases h; exact ⟨hq, .inl rfl⟩
      | noSuchProcess =>
        simp only at h
        split at h
        · cases h
        · cases h; exact ⟨hq, .inl rfl⟩
      | error => cases h; exact ⟨trivial, .inl rfl⟩
    | _ => simp only [hc] at h; cases h
  | wait ok =>
    unfold Proc.step at h
    cases hc : q.pc with
    | wait why =>
      simp only [hc] at h
      cases ok with
      | true =>
        simp only [if_true] at h
        cases hch : q.child with
        | exited st => simp only [hch] at h; cases h; exact ⟨by cases why <;> trivial, .inr (.inl ⟨st, rfl, rfl⟩)⟩
        | running => simp only [hch] at h; cases h
        | absent => simp only [hch] at h; cases h
        | reaped st => simp only [hch] at h; cases h
      | false =>
        simp only [Bool.false_eq_true, if_false] at h
        cases h
        exact ⟨by cases why <;> trivial, .inl rfl⟩
    | _ => simp only [hc] at h; cases h
  | log ok =>
    unfold Proc.step at h
    cases hc : q.pc with
    | log e =>
      simp only [hc] at h
      cases h
      exact ⟨trivial, .inl rfl⟩
    | _ => simp only [hc] at h; cases h

structure GroupInv (s : Group.State) : Prop where
  pids : (s.table.map Group.Entry.pid).Nodup
  pc : PcOk s.proc
  before : s.proc.child = .absent → ∀ e ∈ s.table, e.own = false
  child : Unreaped s.proc.child → ∃ e ∈ s.table, e.pid = s.pid ∧ e.own = true
  group : Unreaped s.proc.child → ∀ e ∈ s.table, e.group = s.pid → e.own = true ∨ e.joined = true
  stays : ∀ e ∈ s.table, e.own = true → e.moved = false → e.group = s.pid
  termed : ∀ e ∈ s.table, e.termed = true → e.own = true ∨ e.joined = true

/-- What the invariant says of a table. -/
theorem GroupInv.change {s s' : Group.State} (h : GroupInv s) (hpid : s'.pid = s.pid) (hpc : PcOk s'.proc)
    (habs : s'.proc.child = .absent → s.proc.child = .absent) (hun : Unreaped s'.proc.child → Unreaped s.proc.child)
    (hn : (s'.table.map Group.Entry.pid).Nodup)
    (hc : Unreaped s'.proc.child → ∀ e ∈ s.table, e.pid = s.pid → e.own = true → ∃ e' ∈ s'.table, e'.pid = s.pid ∧ e'.own = true)
    (he : ∀ e' ∈ s'.table, ∃ e ∈ s.table, e'.own = e.own ∧ (e.joined = true → e'.joined = true) ∧
      ((e'.group = e.group ∧ e'.moved = e.moved) ∨
        (e'.moved = true ∧ (Unreaped s.proc.child → e'.group = s.pid → e.own = true ∨ e'.joined = true))) ∧
      (e'.termed = true → e.termed = true ∨ e.own = true ∨ e.joined = true)) : GroupInv s' := by
  refine ⟨hn, hpc, ?_, ?_, ?_, ?_, ?_⟩
  · intro ha e' he'
    obtain ⟨e, hm, h1, _⟩ := he e' he'
    rw [h1]
    exact h.before (habs ha) e hm
  · intro hu
    obtain ⟨e, hm, h1, h2⟩ := h.child (hun hu)
    obtain ⟨e', h'⟩ := hc hu e hm h1 h2
    exact ⟨e', by rw [hpid]; exact h'⟩
  · intro hu e' he' hg
    obtain ⟨e, hm, h1, h2, h3, _⟩ := he e' he'
    rw [hpid] at hg
    rw [h1]
    rcases h3 with ⟨h3, _⟩ | ⟨_, h3⟩
    · rw [h3] at hg
      rcases h.group (hun hu) e hm hg with h4 | h4
      · exact .inl h4
      · exact .inr (h2 h4)
    · exact h3 (hun hu) hg
  · intro e' he' ho hmv
    obtain ⟨e, hm, h1, _, h3, _⟩ := he e' he'
    rcases h3 with ⟨h3, h4⟩ | ⟨h3, _⟩
    · rw [hpid, h3]
      exact h.stays e hm (h1 ▸ ho) (h4 ▸ hmv)
    · rw [h3] at hmv; cases hmv
  · intro e' he' ht
    obtain ⟨e, hm, h1, h2, _, h4⟩ := he e' he'
    rw [h1]
    have : e.own = true ∨ e.joined = true := by
      rcases h4 ht with h5 | h5
      · exact h.termed e hm h5
      · exact h5
    rcases this with h5 | h5
    · exact .inl h5
    · exact .inr (h2 h5)

theorem map_pids {l : List Group.Entry} {f : Group.Entry → Group.Entry} (hf : ∀ e, (f e).pid = e.pid) :
    (l.map f).map Group.Entry.pid = l.map Group.Entry.pid := by
  rw [List.map_map]
  exact List.map_congr_left fun e _ => hf e

theorem filter_pids {l : List Group.Entry} {f : Group.Entry → Bool} (h : (l.map Group.Entry.pid).Nodup) :
    ((l.filter f).map Group.Entry.pid).Nodup :=
  h.sublist (List.filter_sublist.map _)

theorem nodup_map_inj {α β} {f : α → β} {l : List α} (h : (l.map f).Nodup) {a b : α} (ha : a ∈ l) (hb : b ∈ l) (e : f a = f b) : a = b := by
  induction l with
  | nil => cases ha
  | cons x l ih =>
    rw [List.map_cons, List.nodup_cons] at h
    cases ha with
    | head =>
      cases hb with
      | head => rfl
      | tail _ hb => exact absurd (List.mem_map.2 ⟨b, hb, e.symm⟩) h.1
    | tail _ ha =>
      cases hb with
      | head => exact absurd (List.mem_map.2 ⟨a, ha, e⟩) h.1
      | tail _ hb => exact ih h.2 ha hb

/-- A step of the program that changes nothing in the table. -/
theorem GroupInv.quiet {s : Group.State} (h : GroupInv s) {q : Proc.State} (hpc : PcOk q)
    (habs : q.child = .absent → s.proc.child = .absent) (hun : Unreaped q.child → Unreaped s.proc.child) :
    GroupInv { s with proc := q } :=
  h.change rfl hpc habs hun h.pids (fun _ e hm h1 h2 => ⟨e, hm, h1, h2⟩)
    fun e he => ⟨e, he, rfl, id, .inl ⟨rfl, rfl⟩, .inl⟩

theorem isChild_iff {s : Group.State} {p : Nat} : Group.isChild s p = true ↔ p = s.pid ∧ Unreaped s.proc.child := by
  unfold Group.isChild Unreaped
  cases s.proc.child <;> simp

theorem GroupInv.step {s s' : Group.State} {e : Group.Event} (h : GroupInv s) (hs : Group.step s e = some s') : GroupInv s' := by
  cases e with
  | spawn n =>
    unfold Group.step at hs
    simp only at hs
    split at hs
    · rename_i hfree
      obtain ⟨q, hq, rfl⟩ := Option.map_eq_some_iff.1 hs
      obtain ⟨hpc, hcase⟩ := proc_step_ok h.pc hq
      have habs : s.proc.child = .absent ∧ q.child = .running := by
        have hp : s.proc.pc = .spawn := by
          unfold Proc.step at hq
          by_cases hc : s.proc.pc = .spawn
          · exact hc
          · simp only [hc, if_false] at hq; cases hq
        have h1 := h.pc
        unfold PcOk at h1
        rw [hp] at h1
        have h1 : s.proc.child = .absent := h1
        refine ⟨h1, ?_⟩
        unfold Proc.step at hq
        simp only [hp, if_true] at hq
        cases hq
        rfl
      refine ⟨?_, hpc, ?_, ?_, ?_, ?_, ?_⟩
      · rw [List.map_cons, List.nodup_cons]
        refine ⟨?_, h.pids⟩
        intro hm
        obtain ⟨e, he, hp⟩ := List.mem_map.1 hm
        exact (hfree e he).1 hp
      · intro ha
        rw [show q.child = _ from habs.2] at ha
        cases ha
      · exact fun _ => ⟨_, List.mem_cons_self .., rfl, rfl⟩
      · intro _ e he hg
        cases he with
        | head => exact .inl rfl
        | tail _ he => exact absurd hg (hfree e he).2
      · intro e he ho _
        cases he with
        | head => rfl
        | tail _ he => rw [h.before habs.1 e he] at ho; cases ho
      · intro e he ht
        cases he with
        | head => cases ht
        | tail _ he => exact h.termed e he ht
    · cases hs
  | run e =>
    have general : ∀ {q : Proc.State}, Proc.step s.proc e = some q → e ≠ .spawn true → (∀ st, e ≠ .childExits st) →
        GroupInv (match s.proc.child, q.child with
          | .exited _, .reaped _ => { s with proc := q, table := s.table.filter fun x => x.pid != s.pid }
          | _, _ => { s with proc := q }) ∧
        (q.child = s.proc.child ∨ ∃ st, s.proc.child = .exited st ∧ q.child = .reaped st) := by
      intro q hq hn1 hn2
      obtain ⟨hpc, hcase⟩ := proc_step_ok h.pc hq
      rcases hcase with hc | ⟨st, hc1, hc2⟩ | ⟨he, _⟩ | ⟨st, he, _⟩
      · refine ⟨?_, .inl hc⟩
        have hquiet : GroupInv { s with proc := q } := h.quiet hpc (fun ha => hc ▸ ha) (fun hu => hc ▸ hu)
        split
        · rename_i h1 h2
          rw [hc, h1] at h2
          cases h2
        · exact hquiet
      · refine ⟨?_, .inr ⟨st, hc1, hc2⟩⟩
        rw [hc1, hc2]
        refine h.change rfl hpc ?_ ?_ (filter_pids h.pids) ?_ ?_
        · intro ha
          rw [show q.child = _ from hc2] at ha
          cases ha
        · intro hu
          rw [show q.child = _ from hc2] at hu
          cases hu
        · intro hu
          rw [show q.child = _ from hc2] at hu
          cases hu
        · intro e he
          exact ⟨e, (List.mem_filter.1 he).1, rfl, id, .inl ⟨rfl, rfl⟩, .inl⟩
      · exact absurd he hn1
      · exact absurd he (hn2 st)
    cases e with
    | spawn ok =>
      cases ok with
      | true => cases hs
      | false =>
        obtain ⟨q, hq, rfl⟩ := Option.map_eq_some_iff.1 hs
        exact (general hq nofun nofun).1
    | childExits st => cases hs
    | kill r =>
      cases r with
      | ok =>
        change (if s.table.any (fun e => e.group == s.pid) then
          (Proc.step s.proc (.kill .ok)).map fun p => { s with proc := p, table := Group.killGroup s.table s.pid } else none) = some s' at hs
        split at hs
        · obtain ⟨q, hq, rfl⟩ := Option.map_eq_some_iff.1 hs
          obtain ⟨hpc, hcase⟩ := proc_step_ok h.pc hq
          have hkill : Unreaped s.proc.child := by
            have h1 := h.pc
            unfold Proc.step at hq
            cases hp : s.proc.pc with
            | kill why => unfold PcOk at h1; rw [hp] at h1; exact h1
            | _ => simp only [hp] at hq; cases hq
          have hsame : q.child = s.proc.child := by
            unfold Proc.step at hq
            cases hp : s.proc.pc with
            | kill why => simp only [hp] at hq; cases hq; rfl
            | _ => simp only [hp] at hq; cases hq
          have hmem : ∀ e' ∈ Group.killGroup s.table s.pid, ∃ e ∈ s.table,
              e' = (if e.group = s.pid ∧ e.zombie = false then { e with termed := true } else e) := by
            intro e' he'
            obtain ⟨e, he, rfl⟩ := List.mem_map.1 he'
            exact ⟨e, he, rfl⟩
          refine h.change rfl hpc (fun ha => hsame ▸ ha) (fun hu => hsame ▸ hu) ?_ ?_ ?_
          · show ((Group.killGroup s.table s.pid).map _).Nodup
            unfold Group.killGroup
            rw [map_pids (fun e => by split <;> rfl)]
            exact h.pids
          · intro _ e he h1 h2
            refine ⟨_, List.mem_map.2 ⟨e, he, rfl⟩, ?_⟩
            split <;> exact ⟨h1, h2⟩
          · intro e' he'
            obtain ⟨e, he, rfl⟩ := hmem e' he'
            refine ⟨e, he, ?_⟩
            by_cases hg : e.group = s.pid ∧ e.zombie = false
            · rw [if_pos hg]
              exact ⟨rfl, id, .inl ⟨rfl, rfl⟩, fun _ => .inr (h.group hkill e he hg.1)⟩
            · rw [if_neg hg]
              exact ⟨rfl, id, .inl ⟨rfl, rfl⟩, .inl⟩
        · cases hs
      | noSuchProcess =>
        change (if s.table.any (fun e => e.group == s.pid) then none else
          (Proc.step s.proc (.kill .noSuchProcess)).map fun p => { s with proc := p }) = some s' at hs
        split at hs
        · cases hs
        · obtain ⟨q, hq, rfl⟩ := Option.map_eq_some_iff.1 hs
          obtain ⟨hpc, hcase⟩ := proc_step_ok h.pc hq
          have hsame : q.child = s.proc.child := by
            unfold Proc.step at hq
            cases hp : s.proc.pc with
            | kill why =>
              simp only [hp] at hq
              split at hq
              · cases hq
              · cases hq; rfl
            | _ => simp only [hp] at hq; cases hq
          exact h.quiet hpc (fun ha => hsame ▸ ha) (fun hu => hsame ▸ hu)
      | error =>
        obtain ⟨q, hq, rfl⟩ := Option.map_eq_some_iff.1 hs
        exact (general hq nofun nofun).1
    | tick n =>
      cases Option.some.inj hs
      exact (general rfl nofun nofun).1
    | ctrlC =>
      cases Option.some.inj hs
      exact (general rfl nofun nofun).1
    | _ =>
      obtain ⟨q, hq, rfl⟩ := Option.map_eq_some_iff.1 hs
      exact (general hq nofun nofun).1
  | fork parent n =>
    unfold Group.step at hs
    simp only at hs
    split at hs
    · rename_i hfree
      obtain ⟨e0, he0, rfl⟩ := Option.map_eq_some_iff.1 hs
      have hm0 := List.mem_of_find?_eq_some he0
      refine h.change rfl h.pc id id ?_ ?_ ?_
      · rw [List.map_cons, List.nodup_cons]
        refine ⟨?_, h.pids⟩
        intro hm
        obtain ⟨e, he, hp⟩ := List.mem_map.1 hm
        exact (hfree e he).1 hp
      · exact fun _ e he h1 h2 => ⟨e, List.mem_cons_of_mem _ he, h1, h2⟩
      · intro e' he'
        cases he' with
        | head => exact ⟨e0, hm0, rfl, id, .inl ⟨rfl, rfl⟩, nofun⟩
        | tail _ he' => exact ⟨e', he', rfl, id, .inl ⟨rfl, rfl⟩, .inl⟩
    · cases hs
  | exit p st =>
    unfold Group.step at hs
    simp only at hs
    split at hs
    · have hn : ((s.table.map fun e => if e.pid = p then { e with zombie := true } else e).map Group.Entry.pid).Nodup := by
        rw [map_pids (fun e => by split <;> rfl)]
        exact h.pids
      have hchild : ∀ e ∈ s.table, e.pid = s.pid → e.own = true → ∃ e' ∈ s.table.map fun e => if e.pid = p then { e with zombie := true } else e,
          e'.pid = s.pid ∧ e'.own = true := by
        intro e he h1 h2
        refine ⟨_, List.mem_map.2 ⟨e, he, rfl⟩, ?_⟩
        split <;> exact ⟨h1, h2⟩
      have hall : ∀ e' ∈ s.table.map fun e => if e.pid = p then { e with zombie := true } else e, ∃ e ∈ s.table,
          e'.own = e.own ∧ (e.joined = true → e'.joined = true) ∧
          ((e'.group = e.group ∧ e'.moved = e.moved) ∨
            (e'.moved = true ∧ (Unreaped s.proc.child → e'.group = s.pid → e.own = true ∨ e'.joined = true))) ∧
          (e'.termed = true → e.termed = true ∨ e.own = true ∨ e.joined = true) := by
        intro e' he'
        obtain ⟨e, he, rfl⟩ := List.mem_map.1 he'
        refine ⟨e, he, ?_⟩
        split <;> exact ⟨rfl, id, .inl ⟨rfl, rfl⟩, .inl⟩
      split at hs
      · rename_i hch
        obtain ⟨q, hq, rfl⟩ := Option.map_eq_some_iff.1 hs
        obtain ⟨hpc, _⟩ := proc_step_ok h.pc hq
        have hu := (isChild_iff.1 hch).2
        have hex : q.child = .exited st := by
          unfold Proc.step at hq
          simp only at hq
          split at hq
          · cases hq; rfl
          · cases hq
        refine h.change rfl hpc ?_ (fun _ => hu) hn (fun _ => hchild) hall
        intro ha
        rw [show q.child = _ from hex] at ha
        cases ha
      · cases hs
        exact h.change rfl h.pc id id hn (fun _ => hchild) hall
    · cases hs
  | reap p =>
    unfold Group.step at hs
    simp only at hs
    split at hs
    · cases hs
    · rename_i hch
      split at hs
      · cases hs
        refine h.change rfl h.pc id id (filter_pids h.pids) ?_ ?_
        · intro hu e he h1 h2
          refine ⟨e, List.mem_filter.2 ⟨he, ?_⟩, h1, h2⟩
          rw [bne_iff_ne]
          intro hp
          exact hch (isChild_iff.2 ⟨hp ▸ h1, hu⟩)
        · intro e he
          exact ⟨e, (List.mem_filter.1 he).1, rfl, id, .inl ⟨rfl, rfl⟩, .inl⟩
      · cases hs
  | setGroup p g =>
    unfold Group.step at hs
    simp only at hs
    split at hs
    · cases hs
      refine h.change rfl h.pc id id ?_ ?_ ?_
      · show (List.map _ (List.map _ _)).Nodup
        rw [map_pids (fun e => by split <;> rfl)]
        exact h.pids
      · intro _ e he h1 h2
        refine ⟨_, List.mem_map.2 ⟨e, he, rfl⟩, ?_⟩
        split <;> exact ⟨h1, h2⟩
      · intro e' he'
        obtain ⟨e, he, rfl⟩ := List.mem_map.1 he'
        refine ⟨e, he, ?_⟩
        by_cases hp : e.pid = p
        · rw [if_pos hp]
          refine ⟨rfl, fun hj => by simp [hj], .inr ⟨rfl, ?_⟩, .inl⟩
          intro hu hg
          have hg : g = s.pid := hg
          by_cases hgp : g = p
          · -- it is the child
            obtain ⟨e1, he1, h1, h2⟩ := h.child hu
            have : e = e1 := by
              have hnd := h.pids
              have hpe : e.pid = e1.pid := by rw [hp, h1, ← hgp, hg]
              exact nodup_map_inj hnd he he1 hpe
            exact .inl (this ▸ h2)
          · right
            simp [hgp]
        · rw [if_neg hp]
          exact ⟨rfl, id, .inl ⟨rfl, rfl⟩, .inl⟩
    · cases hs

theorem group_exec {es : List Group.Event} : ∀ {s s' : Group.State}, GroupInv s → Group.exec s es = some s' → GroupInv s' := by
  induction es with
  | nil => intro s s' h he; cases he; exact h
  | cons e es ih =>
    intro s s' h he
    obtain ⟨s1, h1, he⟩ := Option.bind_eq_some_iff.1 he
    exact ih (h.step h1) he

theorem happens_inv {limit : Option Nat} {s : Group.State} (h : Happens limit s) : GroupInv s := by
  obtain ⟨table, es, ⟨h1, h2⟩, he⟩ := h
  refine group_exec (s := { proc := Proc.init limit, table := table })
    ⟨h1, rfl, fun _ e he => (h2 e he).1, False.elim, False.elim, ?_, ?_⟩ he
  · intro e he ho
    rw [(h2 e he).1] at ho
    cases ho
  · intro e he ht
    rw [(h2 e he).2.2] at ht
    cases ht

/-- **C82**: no process is sent the signal but the child, those descended from it, and those that have entered the group of
another process. So never cargo-mutants itself, other commands, or a process that has got the number of the child since. -/
theorem C82_only_own (limit : Option Nat) (s : Group.State) (h : Happens limit s) :
    ∀ e ∈ s.table, e.termed = true → e.own = true ∨ e.joined = true := (happens_inv h).termed

/-- **C82**: when the group is signalled, this reaches the child and everything descended from it that is running and has not
changed its group. -/
theorem C82_all_own (limit : Option Nat) (s s' : Group.State) (h : Happens limit s)
    (hk : Group.step s (.run (.kill .ok)) = some s') :
    ∀ e ∈ s'.table, e.own = true → e.moved = false → e.zombie = false → e.termed = true := by
  have hi := happens_inv h
  change (if s.table.any (fun e => e.group == s.pid) then
    (Proc.step s.proc (.kill .ok)).map fun p => { s with proc := p, table := Group.killGroup s.table s.pid } else none) = some s' at hk
  split at hk
  · obtain ⟨q, hq, rfl⟩ := Option.map_eq_some_iff.1 hk
    intro e' he' ho hm hz
    obtain ⟨e, he, rfl⟩ := List.mem_map.1 he'
    by_cases hg : e.group = s.pid ∧ e.zombie = false
    · rw [if_pos hg]
    · rw [if_neg hg] at ho hm hz
      exact absurd ⟨hi.stays e he ho hm, hz⟩ hg
  · cases hk

/-- **C82**: while a signal is about to be sent, its number is that of the child and of no other process. -/
theorem C82_number_is_of_child (limit : Option Nat) (s : Group.State) (h : Happens limit s) (why : Proc.Reason)
    (hp : s.proc.pc = .kill why) : ∃ e ∈ s.table, e.pid = s.pid ∧ e.own = true ∧ ∀ e' ∈ s.table, e'.pid = s.pid → e' = e := by
  have hi := happens_inv h
  have h1 := hi.pc
  unfold PcOk at h1
  rw [hp] at h1
  obtain ⟨e, he, h2, h3⟩ := hi.child h1
  exact ⟨e, he, h2, h3, fun e' he' h4 => nodup_map_inj hi.pids he' he (h4.trans h2.symm)⟩

/-- **C82**: what a command starts stays out of every other group unless it goes there: so ctrl-C in the terminal, which goes to
the group of cargo-mutants, does not reach it. -/
theorem C82_own_group (limit : Option Nat) (s : Group.State) (h : Happens limit s) :
    ∀ e ∈ s.table, e.own = true → e.moved = false → e.group = s.pid := (happens_inv h).stays

namespace GroupSample

/-- cargo-mutants is 7, and 9 is the child of another thread. -/
def table : List Group.Entry := [{ pid := 7, group := 7 }, { pid := 9, group := 9 }]

/-- A command times out while a test is running. The test has started a server in its own group. -/
def events : List Group.Event :=
  [.spawn 10, .fork 10 11, .fork 11 12, .setGroup 12 12, .run (.tick 2000000000), .run .checkTime, .run (.kill .ok)]

end GroupSample

example : Before GroupSample.table := by unfold Before; decide
example : (Group.exec { proc := Proc.init (some 1000000000), table := GroupSample.table } GroupSample.events).map
    (fun s => (s.proc.pc, s.table.map fun e => (e.pid, e.own, e.moved, e.termed))) =
    some (.wait .timeout, [(12, true, true, false), (11, true, false, true), (10, true, false, true), (7, false, false, false),
      (9, false, false, false)]) := by decide +kernel

end CM.Props
