import Verif.Proofs.Temp
import Verif.Proofs.Run
import Verif.Spec.Temp
import Verif.Props.Run
/-! Temporary directories: C85. -/
namespace CM.Props
open CM CM.Spec CM.Lab

/-! ### How many directories -/

/-- Whether a thread may still make a directory. -/
def mayMake : Pc → Nat
  | .new | .mustCopy _ => 1
  | _ => 0

/-- Whether a thread may have failed to make one. -/
def madeNone : Pc → Nat
  | .new | .mustCopy _ | .failed none => 1
  | _ => 0

structure Counted (cfg : Lab.Config) (s : Lab.State) : Prop where
  atMost : s.sh.nextDir + (s.workers.map mayMake).sum ≤ cfg.nThreads + 1 + s.sh.dir0.toList.length
  inPlace : cfg.inPlace = true → s.sh.nextDir = 1
  early : s.main = .setup → s.sh.nextDir = 1
  prepared : s.main = .preparing ∨ s.main = .baseline → s.sh.nextDir + (s.workers.map mayMake).sum ≤ 2 ∧
    (cfg.inPlace = false → ∀ pc ∈ s.workers, (pc.dir).isSome → s.sh.nextDir = 2)
  testing : s.main = .testing → cfg.inPlace = false →
    cfg.nThreads + 1 + s.sh.dir0.toList.length ≤ s.sh.nextDir + (s.workers.map madeNone).sum

theorem sum_replicate_one (n : Nat) : ((List.replicate n Pc.new).map mayMake).sum = n ∧
    ((List.replicate n Pc.new).map madeNone).sum = n := by
  induction n with
  | zero => exact ⟨rfl, rfl⟩
  | succ n ih =>
    simp only [List.replicate_succ, List.map_cons, List.sum_cons]
    rw [ih.1, ih.2]
    simp [mayMake, madeNone, Nat.add_comm]

theorem counted_thread {cfg sh c pc sh' pc'} (h : WStep cfg sh c pc sh' pc') :
    (sh'.nextDir + mayMake pc' ≤ sh.nextDir + mayMake pc ∧ sh'.dir0 = sh.dir0 ∨
      sh'.nextDir + mayMake pc' + 1 = sh.nextDir + mayMake pc ∧ sh.dir0.toList.length = 1 ∧ sh'.dir0 = none) ∧
    (sh.nextDir + madeNone pc ≤ sh'.nextDir + madeNone pc' ∧ sh'.dir0 = sh.dir0 ∨
      sh'.nextDir + madeNone pc' + 1 = sh.nextDir + madeNone pc ∧ sh.dir0.toList.length = 1 ∧ sh'.dir0 = none) := by
  cases h
  case takeDir0 d h => simp [mayMake, madeNone, h]
  case copied b d con h => cases b <;> simp [mayMake, madeNone]
  case tell d sc => cases sc <;> simp [mayMake, madeNone, Scenario.isMutant]
  case tellFinished d sc rs text hm => cases sc <;> simp [mayMake, madeNone, Scenario.isMutant]
  case apply h => obtain ⟨_, rfl, _⟩ := h.frame; rcases h.pc with rfl | rfl <;> simp [mayMake, madeNone]
  case revert h => obtain ⟨_, rfl, _⟩ := h.frame; rcases h.pc with rfl | rfl <;> simp [mayMake, madeNone]
  case failRevert h => obtain ⟨_, rfl, _⟩ := h.frame; rcases h.pc with rfl | rfl <;> simp [mayMake, madeNone]
  all_goals simp [mayMake, madeNone]

theorem Counted.step {cfg s e s'} (hd : Dirs cfg s) (hsh : Shape cfg s) (hs : Counted cfg s) (hst : Lab.step cfg s e = some s') :
    Counted cfg s' := by
  have hpos := nThreads_pos cfg
  rcases step_cases hst with ⟨_, _, rfl⟩ | ⟨ok, _, hm⟩ | ⟨i, c, pc, sh', pc', _, hpc, hw, rfl⟩
  · exact ⟨hs.atMost, hs.inPlace, hs.early, hs.prepared, hs.testing⟩
  · have hspawn : ∀ d pc, s.workers = [pc] → pc.dir = some d → (s.main = .preparing ∨ s.main = .baseline) →
        Counted cfg (spawn cfg s d) := by
      intro d pc hw hdir hmain
      obtain ⟨h1, h2⟩ := hs.prepared hmain
      refine ⟨?_, hs.inPlace, (fun h => by cases h), (fun h => by rcases h with h | h <;> cases h), ?_⟩
      · show s.sh.nextDir + ((List.replicate cfg.nThreads Pc.new).map mayMake).sum ≤ cfg.nThreads + 1 + 1
        rw [(sum_replicate_one _).1]
        omega
      · intro _ hip
        show cfg.nThreads + 1 + 1 ≤ s.sh.nextDir + ((List.replicate cfg.nThreads Pc.new).map madeNone).sum
        rw [(sum_replicate_one _).2, h2 hip pc (by rw [hw]; exact List.mem_singleton.2 rfl) (by rw [hdir]; rfl)]
        omega
    cases mstep_rel hm
    case prepare h he =>
      have hn : s.sh.nextDir = 1 := hs.early h
      have h0 : s.sh.dir0 = none := hd.early (.inl h)
      have hmm : (([if cfg.inPlace then Pc.prepared 0 else .mustCopy true] : List Pc).map mayMake).sum ≤ 1 := by
        cases cfg.inPlace <;> simp [mayMake]
      refine ⟨?_, fun _ => hn, (fun h => by cases h), ?_, (fun h => by cases h)⟩
      · show s.sh.nextDir + (([if cfg.inPlace then Pc.prepared 0 else .mustCopy true] : List Pc).map mayMake).sum ≤
          cfg.nThreads + 1 + s.sh.dir0.toList.length
        rw [hn, h0]
        simp only [Option.toList_none, List.length_nil]
        omega
      · intro _
        refine ⟨?_, ?_⟩
        · show s.sh.nextDir + (([if cfg.inPlace then Pc.prepared 0 else .mustCopy true] : List Pc).map mayMake).sum ≤ 2
          rw [hn]
          omega
        · intro hip q hq hsome
          rw [List.mem_singleton.1 hq, hip] at hsome
          cases hsome
    case baseline h d hw hb =>
      obtain ⟨h1, h2⟩ := hs.prepared (.inl h)
      refine ⟨?_, hs.inPlace, (fun h => by cases h), fun _ => ⟨?_, ?_⟩, (fun h => by cases h)⟩
      · have := hs.atMost; rw [hw] at this; exact this
      · rw [hw] at h1; exact h1
      · intro hip q hq _
        exact h2 hip (.prepared d) (by rw [hw]; exact List.mem_singleton.2 rfl) rfl
    case skipBaseline h d hw hb => exact hspawn d _ hw rfl (.inl h)
    case passed h d o hw ho => exact hspawn d _ hw rfl (.inr h)
    all_goals exact ⟨hs.atMost, hs.inPlace, (fun h => by cases h), (fun h => by rcases h with h | h <;> cases h), (fun h => by cases h)⟩
  · have h1 := sum_set mayMake pc' hpc
    have h2 := sum_set madeNone pc' hpc
    have hc := counted_thread hw
    have hip : cfg.inPlace = true → sh'.nextDir = s.sh.nextDir := by
      intro hip
      rcases hw.dir_cases with ⟨_, _, h⟩ | ⟨_, _, h, _⟩ | ⟨_, _, _, _, _, h⟩ | ⟨b, rfl, _⟩
      · exact h
      · exact h
      · exact h
      · exact (((hd.inPlace hip i _ hpc).2 b).1 rfl).elim
    refine ⟨?_, fun h => by rw [← hs.inPlace h]; exact hip h, ?_, ?_, ?_⟩
    · show sh'.nextDir + ((s.workers.set i pc').map mayMake).sum ≤ cfg.nThreads + 1 + sh'.dir0.toList.length
      have := hs.atMost
      rcases hc.1 with ⟨a, b⟩ | ⟨a, b, b'⟩
      · rw [b]; omega
      · rw [b']; simp only [Option.toList_none, List.length_nil]; omega
    · intro h
      have h' : s.main = .setup := h
      have hz := hsh.count
      rw [h'] at hz
      rw [hz] at hpc
      cases hpc
    · intro h
      have h' : s.main = .preparing ∨ s.main = .baseline := h
      obtain ⟨p1, p2⟩ := hs.prepared h'
      have h0 := hd.early (.inr h')
      refine ⟨?_, ?_⟩
      · show sh'.nextDir + ((s.workers.set i pc').map mayMake).sum ≤ 2
        rcases hc.1 with ⟨a, b⟩ | ⟨a, b, b'⟩
        · omega
        · rw [h0] at b; cases b
      · intro hnp q hq hsome
        show sh'.nextDir = 2
        have hlen : s.workers.length = 1 := by
          have := hsh.count
          rcases h' with h' | h' <;> rw [h'] at this <;> exact this
        obtain ⟨x, hx⟩ := List.length_eq_one_iff.1 hlen
        have hi0 : i = 0 := by
          have := (List.getElem?_eq_some_iff.1 hpc).1
          omega
        subst hi0
        rw [hx] at hpc
        cases hpc
        have hq : q = pc' := by
          have hq : q ∈ s.workers.set 0 pc' := hq
          rw [hx] at hq
          exact List.mem_singleton.1 hq
        subst hq
        rcases hw.dir_cases with ⟨hdir, _, h⟩ | ⟨hdir, _, h, _⟩ | ⟨_, _, _, h, _⟩ | ⟨b, rfl, _, _, h⟩
        · rw [h]
          exact p2 hnp pc (by rw [hx]; exact List.mem_singleton.2 rfl) (by rw [← hdir]; exact hsome)
        · rw [hdir] at hsome; cases hsome
        · rw [h0] at h; cases h
        · have := hd.next
          rw [hx] at p1
          simp only [List.map_cons, List.map_nil, mayMake, List.sum_cons, List.sum_nil] at p1
          omega
    · intro h hnp
      show cfg.nThreads + 1 + sh'.dir0.toList.length ≤ sh'.nextDir + ((s.workers.set i pc').map madeNone).sum
      have := hs.testing h hnp
      rcases hc.2 with ⟨a, b⟩ | ⟨a, b, b'⟩
      · rw [b]; omega
      · rw [b']; simp only [Option.toList_none, List.length_nil]; omega

theorem reachable_counted {cfg s} (hj : cfg.JobsOk) (h : Lab.Reachable cfg s) : Counted cfg s := by
  have key : Counted cfg s ∧ Lab.Reachable cfg s := by
    refine reachable_invariant (P := fun s => Counted cfg s ∧ Lab.Reachable cfg s) ?_ ?_ h
    · refine ⟨⟨?_, fun _ => rfl, fun _ => rfl, (fun h => by rcases h with h | h <;> cases h), (fun h => by cases h)⟩, ⟨[], rfl⟩⟩
      show 1 + 0 ≤ cfg.nThreads + 1 + 0
      omega
    · intro s e s' ⟨h1, h2⟩ hst
      exact ⟨h1.step (reachable_dirs hj h2) (reachable_shape h2) hst, h2.step hst⟩
  exact key.1

/-- As long as nobody took the first directory, no thread has begun, and there is no other. -/
theorem reachable_fresh {cfg s} (hj : cfg.JobsOk) (h : Lab.Reachable cfg s) :
    s.sh.dir0 ≠ none → (∀ pc ∈ s.workers, pc = .new) ∧ s.sh.nextDir ≤ 2 := by
  have key : (s.sh.dir0 ≠ none → (∀ pc ∈ s.workers, pc = .new) ∧ s.sh.nextDir ≤ 2) ∧ Lab.Reachable cfg s := by
    refine reachable_invariant
      (P := fun s => (s.sh.dir0 ≠ none → (∀ pc ∈ s.workers, pc = .new) ∧ s.sh.nextDir ≤ 2) ∧ Lab.Reachable cfg s) ?_ ?_ h
    · exact ⟨fun h => (h rfl).elim, ⟨[], rfl⟩⟩
    · intro s e s' ⟨h1, h2⟩ hst
      refine ⟨fun hd' => ?_, h2.step hst⟩
      have hc := reachable_counted hj h2
      have hd := reachable_dirs hj h2
      rcases step_cases hst with ⟨_, _, rfl⟩ | ⟨ok, _, hm⟩ | ⟨i, c, pc, sh', pc', _, hpc, hw, rfl⟩
      · exact h1 hd'
      · have hspawn : ∀ d, (s.main = .preparing ∨ s.main = .baseline) →
            (∀ pc ∈ (spawn cfg s d).workers, pc = .new) ∧ (spawn cfg s d).sh.nextDir ≤ 2 := by
          intro d hmain
          refine ⟨fun pc hpc => (List.mem_replicate.1 hpc).2, ?_⟩
          show s.sh.nextDir ≤ 2
          have := (hc.prepared hmain).1
          omega
        cases mstep_rel hm
        case prepare h he => exact (hd' (hd.early (.inl h))).elim
        case baseline h d hw hb => exact (hd' (hd.early (.inr (.inl h)))).elim
        case skipBaseline h d hw hb => exact hspawn d (.inl h)
        case passed h d o hw ho => exact hspawn d (.inr h)
        all_goals exact h1 hd'
      · have hd' : sh'.dir0 ≠ none := hd'
        have hsome : s.sh.dir0 ≠ none := by
          intro hn
          rcases hw.dir_cases with ⟨_, h, _⟩ | ⟨_, h, _⟩ | ⟨d, _, _, h, h', _⟩ | ⟨b, _, _, h, _⟩
          · exact hd' (h.trans hn)
          · exact hd' (h.trans hn)
          · exact hd' h'
          · exact hd' (h.trans hn)
        have := (h1 hsome).1 pc (List.mem_of_getElem? hpc)
        subst this
        cases hw
        case takeDir0 d h => exact (hd' rfl).elim
        all_goals exact (hsome (by assumption)).elim
  exact key.1

/-- As many directories have been made as numbers have been given out. -/
theorem created_length {cfg leak s} (h : Temp.Reachable cfg leak s) :
    s.created.length + 1 = s.lab.sh.nextDir := by
  obtain ⟨es, h⟩ := h
  have key : ∀ (es : List (Lab.Event × Bool)) (s s' : Temp.State), Lab.Reachable cfg s.lab →
      s.created.length + 1 = s.lab.sh.nextDir → Temp.exec cfg leak s es = some s' →
      s'.created.length + 1 = s'.lab.sh.nextDir := by
    intro es
    induction es with
    | nil => intro s s' _ h he; cases he; exact h
    | cons e es ih =>
      intro s s' hr h he
      obtain ⟨s1, hs1, he⟩ := Option.bind_eq_some_iff.1 he
      refine ih s1 s' (hr.step (Temp.step_lab hs1)) ?_ he
      unfold Temp.step at hs1
      obtain ⟨l, hl, hs1⟩ := Option.map_eq_some_iff.1 hs1
      have hgo : ∀ r i, (s.letGo r i).created = s.created := fun r i => (Temp.drop_slot s r (s.held i)).2.1
      rcases step_cases hl with ⟨hev, _, rfl⟩ | ⟨ok, hev, hm⟩ | ⟨i, c, pc, sh', pc', hev, hpc, hw, rfl⟩
      · rw [hev] at hs1
        subst hs1
        exact h
      · rw [hev] at hs1
        subst hs1
        have hn : l.sh.nextDir = s.lab.sh.nextDir := by cases mstep_rel hm <;> rfl
        have hc : (s.mainStep cfg e.2 s.lab.main l.main).created = s.created := by
          unfold Temp.State.mainStep
          split
          · split <;> rfl
          · rfl
          · rfl
          · exact hgo _ _
          · exact hgo _ _
          · exact (Temp.drop_slot s e.2 s.slot).2.1
          · rfl
        show (s.mainStep cfg e.2 s.lab.main l.main).created.length + 1 = l.sh.nextDir
        rw [hc, hn, h]
      · rw [hev] at hs1
        have hlt : i < s.lab.workers.length := (List.getElem?_eq_some_iff.1 hpc).1
        have h2 : (s.lab.workers.set i pc')[i]? = some pc' := by simp [hlt]
        simp only [hpc, h2] at hs1
        subst hs1
        have hsh := reachable_shape hr
        have hf := hsh.fits i pc hpc
        have hm : s.lab.main = .preparing ∨ s.lab.main = .baseline ∨ s.lab.main = .testing := by
          cases h : s.lab.main with
          | setup => rw [h] at hf; exact hf.elim
          | preparing => exact .inl rfl
          | baseline => exact .inr (.inl rfl)
          | testing => exact .inr (.inr rfl)
          | returned r => rw [h] at hf; cases hw <;> exact hf.elim
        show (s.threadStep leak e.2 s.lab.main i pc pc').created.length + 1 = sh'.nextDir
        rcases Temp.thread_cases hw leak e.2 s.lab.main hm hf s i with ⟨e, _, _, _, h4⟩ | ⟨e, _, _, _, h4⟩ |
          ⟨b, _, _, _, h4, e⟩ | ⟨b, d, _, _, _, _, h4, e⟩ | ⟨d, _, _, _, _, h4, e⟩
        · rw [e, h4, h]
        · rw [e, h4, hgo, h]
        · rw [e, h4, ← h]; rfl
        · rw [e, h4, ← h]
        · rw [e, h4, ← h]
  exact key es _ s ⟨[], rfl⟩ rfl h

/-! ### C85 -/

/-- **C85**: when a run is over, every temporary directory that it made has been removed, however it ended, unless it
was asked to leave them or removing one failed. -/
theorem C85_nothing_left (cfg : Lab.Config) (hj : cfg.JobsOk) (s : Temp.State) (h : Temp.Reachable cfg false s)
    (ho : Over s.lab) (d : Nat) : Present s d → d ∈ s.stuck := by
  rintro ⟨h1, h2⟩
  obtain ⟨_, hi⟩ := Temp.reachable_inv hj h
  obtain ⟨r, hr⟩ := ho
  rcases hi.core.accounted d h1 with x | x | ⟨i, y, x, _⟩ | ⟨y, x, _⟩ | x
  · exact (h2 x).elim
  · exact x
  · rw [hi.held i, hr] at x
    cases hw : s.lab.workers[i]? with
    | none => rw [hw] at x; cases x
    | some pc => rw [hw] at x; cases x
  · rw [hi.slot, hr] at x; cases x
  · cases x

theorem stuck_of_exec {cfg leak} : ∀ (es : List (Lab.Event × Bool)) (s s' : Temp.State), (∀ e ∈ es, e.2 = true) →
    Temp.exec cfg leak s es = some s' → s'.stuck = s.stuck := by
  intro es
  induction es with
  | nil => intro s s' _ h; cases h; rfl
  | cons e es ih =>
    intro s s' he h
    obtain ⟨s1, hs1, h⟩ := Option.bind_eq_some_iff.1 h
    rw [ih s1 s' (fun x hx => he x (List.mem_cons_of_mem _ hx)) h]
    have ht : e.2 = true := he e (List.mem_cons_self ..)
    have hdrop : ∀ o, (s.drop true o).stuck = s.stuck := by
      intro o
      cases o with
      | none => rfl
      | some x => unfold Temp.State.drop; simp only; split <;> rfl
    have hgo : ∀ i, (s.letGo true i).stuck = s.stuck := fun i => hdrop _
    unfold Temp.step at hs1
    rw [ht] at hs1
    obtain ⟨l, _, rfl⟩ := Option.map_eq_some_iff.1 hs1
    split
    · rfl
    · show (s.mainStep cfg true s.lab.main l.main).stuck = s.stuck
      unfold Temp.State.mainStep
      split
      · split <;> rfl
      · rfl
      · rfl
      · exact hgo _
      · exact hgo _
      · exact hdrop _
      · rfl
    · split
      · show (Temp.State.threadStep _ _ _ _ _ _ _).stuck = s.stuck
        unfold Temp.State.threadStep
        split
        · rfl
        · exact hgo _
        · rfl
        · rfl
        · split
          · exact hgo _
          · rfl
        · split
          · exact hgo _
          · rfl
        · rfl
      · rfl

/-- **C85**: so if directories can be removed, nothing is left. -/
theorem C85_all_removed (cfg : Lab.Config) (hj : cfg.JobsOk) (es : List (Lab.Event × Bool)) (s : Temp.State)
    (h : Temp.exec cfg false (Temp.init cfg) es = some s) (hes : ∀ e ∈ es, e.2 = true) (ho : Over s.lab) (d : Nat) :
    ¬ Present s d := by
  intro hp
  have := C85_nothing_left cfg hj s ⟨es, h⟩ ho d hp
  rw [stuck_of_exec es _ s hes h] at this
  cases this

/-- **C85**: a directory is not removed while a thread works in it. -/
theorem C85_in_use (cfg : Lab.Config) (hj : cfg.JobsOk) (leak : Bool) (s : Temp.State) (h : Temp.Reachable cfg leak s)
    (d : Nat) (hw : WorksIn s.lab d) : Present s d ∨ cfg.inPlace = true ∧ d = 0 := by
  obtain ⟨hr, hi⟩ := Temp.reachable_inv hj h
  obtain ⟨hm, pc, hpc, hdir, h1, h2⟩ := hw
  obtain ⟨i, hpc⟩ := List.getElem?_of_mem hpc
  have hok := (reachable_dirs hj hr).ok i pc d hpc hdir
  unfold DirOk at hok
  split at hok
  · exact .inr ⟨‹_›, hok⟩
  · refine .inl ⟨(hi.created d).2 hok, fun hx => ?_⟩
    have hheld : ∃ x, s.held i = some x ∧ x.dir = d := by
      rw [hi.held i, hpc]
      show ∃ x, Temp.holds leak s.lab.main pc = some x ∧ x.dir = d
      cases hmm : s.lab.main with
      | returned r => exact (hm r hmm).elim
      | _ => cases pc <;> first | (cases hdir; done) | (cases hdir; exact ⟨_, rfl, rfl⟩) | (cases h1; done) | (cases h2; done)
    obtain ⟨x, hx1, hx2⟩ := hheld
    exact (hi.core.gone d (.inl hx)).2.1 i x hx1 hx2

/-- **C85**: only directories that this run made are removed, each once, and never the source tree (number 0). -/
theorem C85_only_own (cfg : Lab.Config) (hj : cfg.JobsOk) (leak : Bool) (s : Temp.State) (h : Temp.Reachable cfg leak s) :
    (∀ d ∈ s.removed, d ∈ s.created) ∧ s.removed.Nodup ∧ 0 ∉ s.removed := by
  obtain ⟨_, hi⟩ := Temp.reachable_inv hj h
  refine ⟨fun d hd => (hi.core.gone d (.inl hd)).1, (List.nodup_append.1 hi.core.once).1, fun hx => ?_⟩
  have := ((hi.created 0).1 (hi.core.gone 0 (.inl hx)).1).1
  omega

/-- **C85**: no run makes more directories than it has jobs, and a run that tests in place makes none. -/
theorem C85_one_per_job (cfg : Lab.Config) (hj : cfg.JobsOk) (leak : Bool) (s : Temp.State) (h : Temp.Reachable cfg leak s) :
    s.created.length ≤ max 1 (min (cfg.jobs.getD 1) cfg.mutants.length) ∧
    (cfg.inPlace = true → s.created = []) ∧
    (cfg.inPlace = false → s.lab.main = .testing → (∀ pc ∈ s.lab.workers, pc.isFinished = true) →
      s.created.length = max 1 (min (cfg.jobs.getD 1) cfg.mutants.length)) := by
  obtain ⟨hr, hi⟩ := Temp.reachable_inv hj h
  have hlen := created_length h
  have hc := reachable_counted hj hr
  have hle : s.created.length ≤ cfg.nThreads := by
    have h1 := hc.atMost
    cases hd0 : s.lab.sh.dir0 with
    | none => rw [hd0] at h1; simp only [Option.toList_none, List.length_nil] at h1; omega
    | some d =>
      have := (reachable_fresh hj hr (by rw [hd0]; exact fun h => by cases h)).2
      have := nThreads_pos cfg
      omega
  refine ⟨hle, fun hip => ?_, fun hip hm hf => ?_⟩
  · have := hc.inPlace hip
    exact List.length_eq_zero_iff.1 (by omega)
  · have h1 := hc.testing hm hip
    have h2 : (s.lab.workers.map madeNone).sum = 0 := by
      have key : ∀ ws : List Pc, (∀ pc ∈ ws, pc.isFinished = true) → (ws.map madeNone).sum = 0 := by
        intro ws
        induction ws with
        | nil => intro _; rfl
        | cons pc ws ih =>
          intro hws
          rw [List.map_cons, List.sum_cons, ih fun x hx => hws x (List.mem_cons_of_mem _ hx)]
          have := hws pc (List.mem_cons_self ..)
          cases pc <;> first | (cases this; done) | rfl
      exact key _ hf
    have : cfg.nThreads = max 1 (min (cfg.jobs.getD 1) cfg.mutants.length) := rfl
    omega

/-- **C85**: with `--leak-dirs` the directory of every thread is still there at the end, and of those where copying failed
nothing is left, unless removing it failed. -/
theorem C85_leaked (cfg : Lab.Config) (hj : cfg.JobsOk) (s : Temp.State) (h : Temp.Reachable cfg true s)
    (pc : Pc) (hpc : pc ∈ s.lab.workers) (d : Nat) (hd : pc.dir = some d) : Present s d ∨ cfg.inPlace = true ∧ d = 0 := by
  obtain ⟨hr, hi⟩ := Temp.reachable_inv hj h
  obtain ⟨i, hpc⟩ := List.getElem?_of_mem hpc
  have hok := (reachable_dirs hj hr).ok i pc d hpc hd
  unfold DirOk at hok
  split at hok
  · exact .inr ⟨‹_›, hok⟩
  · exact .inl ⟨(hi.created d).2 hok, (hi.leaked rfl i pc d hpc hd).1⟩

/-- **C85**: while a process that a thread started is there, so is the directory that it was started in. -/
theorem C85_commands (cfg : Run.Config) (hj : cfg.lab.JobsOk) (leak : Bool) (r : Run.State) (hr : Run.Reachable cfg r)
    (s : Temp.State) (h : Temp.Reachable cfg.lab leak s) (hs : s.lab = r.lab) (i : Nat) (hq : r.procs i ≠ none) :
    ∃ d sc p todo rs, r.lab.workers[i]? = some (.command d sc p todo rs) ∧
      (Present s d ∨ cfg.lab.inPlace = true ∧ d = 0) := by
  have hi := Run.reachable_inv hr
  obtain ⟨q, hq⟩ := Option.ne_none_iff_exists'.1 hq
  have hp := hi.procs i
  rw [hq] at hp
  obtain ⟨d, sc, p, todo, rs, hpc, _⟩ := hp.some
  refine ⟨d, sc, p, todo, rs, hpc, C85_in_use cfg.lab hj leak s h d ?_⟩
  rw [hs]
  refine ⟨fun x hx => ?_, _, List.mem_of_getElem? hpc, rfl, rfl, rfl⟩
  have := (reachable_shape hi.lab).fits i _ hpc
  rw [hx] at this
  exact this

/-- **C85**: keeping account of the directories changes nothing: every execution of the system of C30 is one of this, for
any way in which removing directories goes. -/
theorem C85_adds_nothing (cfg : Lab.Config) (leak : Bool) (es : List (Lab.Event × Bool)) :
    (Temp.exec cfg leak (Temp.init cfg) es).map (·.lab) = Lab.exec cfg (Lab.init cfg) (es.map (·.1)) := by
  have key : ∀ (es : List (Lab.Event × Bool)) (s : Temp.State),
      (Temp.exec cfg leak s es).map (·.lab) = Lab.exec cfg s.lab (es.map (·.1)) := by
    intro es
    induction es with
    | nil => intro s; rfl
    | cons e es ih =>
      intro s
      show ((Temp.step cfg leak s e.1 e.2).bind fun s => Temp.exec cfg leak s es).map (·.lab) =
        (Lab.step cfg s.lab e.1).bind fun l => Lab.exec cfg l (es.map (·.1))
      cases hl : Lab.step cfg s.lab e.1 with
      | none =>
        have : Temp.step cfg leak s e.1 e.2 = none := by unfold Temp.step; rw [hl]; rfl
        rw [this]; rfl
      | some l =>
        obtain ⟨t, ht⟩ : ∃ t, Temp.step cfg leak s e.1 e.2 = some t := by
          unfold Temp.step; rw [hl]; exact ⟨_, rfl⟩
        have := Temp.step_lab ht
        rw [hl] at this
        cases this
        rw [ht]
        exact ih t
  exact key es _

/-- The events of a run, with every directory that is dropped removed. -/
def removing (es : List Lab.Event) : List (Lab.Event × Bool) := es.map (·, true)

/-- What is left of the run of C30 in the middle and at the end, without and with `--leak-dirs`. -/
def dirsAfter (cfg : Lab.Config) (leak : Bool) (es : List (Lab.Event × Bool)) : Option (List Nat × List Nat × List Nat) :=
  (Temp.exec cfg leak (Temp.init cfg) es).map fun s => (s.created, s.removed, s.stuck)

example : dirsAfter Sample.cfg false (removing (Sample.run.take 25)) = some ([2, 1], [], []) := by decide +kernel
example : dirsAfter Sample.cfg false (removing Sample.run) = some ([2, 1], [1, 2], []) := by decide +kernel
example : dirsAfter Sample.cfg true (removing Sample.run) = some ([2, 1], [], []) := by decide +kernel
/-- A failing baseline, an error in copying (also with `--leak-dirs`), and a directory that cannot be removed. -/
example : dirsAfter Sample.cfg false (removing (Sample.begin_ (.failure 101) ++ [.main true])) =
    some ([1], [1], []) := by decide +kernel
example : dirsAfter Sample.cfg false (removing [.main true, Sample.ok 0, .worker 0 .fail, .main true]) =
    some ([1], [1], []) := by decide +kernel
example : dirsAfter Sample.cfg true (removing [.main true, Sample.ok 0, .worker 0 .fail, .main true]) =
    some ([1], [1], []) := by decide +kernel
example : dirsAfter Sample.cfg false (Sample.run.map (·, false)) = some ([2, 1], [], [1, 2]) := by decide +kernel
example : dirsAfter Sample.inPlaceCfg false (removing (Sample.beginInPlace (.failure 101) ++ [.main true])) =
    some ([], [], []) := by decide +kernel
example : ((Temp.exec Sample.cfg false (Temp.init Sample.cfg) (removing Sample.run)).map
    fun s => s.lab.main matches .returned _) = some true := by decide +kernel

end CM.Props
