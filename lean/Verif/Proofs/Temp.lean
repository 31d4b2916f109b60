import Verif.Model.Temp
import Verif.Proofs.LabInv
/-! The invariant of the temporary directories. -/
namespace CM.Temp
open CM.Lab

/-- What is held for a directory that is ready. -/
def handle (leak : Bool) (d : DirId) : Handle := ⟨d, d ≠ 0 && !leak⟩

/-- What a thread holds. -/
def holds (leak : Bool) : MainPc → Pc → Option Handle
  | .returned _, _ => none
  | _, .copying _ d => some ⟨d, true⟩
  | .testing, .finished _ | .testing, .failed _ => none
  | _, pc => pc.dir.map (handle leak)

/-- The part of the invariant that is not about the threads. -/
structure Core (leak : Bool) (s : State) : Prop where
  gone : ∀ d, d ∈ s.removed ∨ d ∈ s.stuck → d ∈ s.created ∧ (∀ i h, s.held i = some h → h.dir ≠ d) ∧
    ∀ h, s.slot = some h → h.dir ≠ d
  accounted : ∀ d ∈ s.created, d ∈ s.removed ∨ d ∈ s.stuck ∨ (∃ i h, s.held i = some h ∧ h.dir = d) ∨
    (∃ h, s.slot = some h ∧ h.dir = d) ∨ leak = true
  once : (s.removed ++ s.stuck).Nodup

structure Inv (cfg : Lab.Config) (leak : Bool) (s : State) : Prop where
  held : ∀ i, s.held i = (s.lab.workers[i]?).bind (holds leak s.lab.main)
  slot : s.slot = match s.lab.main with
    | .returned _ => none
    | _ => s.lab.sh.dir0.map (handle leak)
  created : ∀ d, d ∈ s.created ↔ 0 < d ∧ d < s.lab.sh.nextDir
  leaked : leak = true → ∀ (i : Nat) pc d, s.lab.workers[i]? = some pc → pc.dir = some d → d ∉ s.removed ∧ d ∉ s.stuck
  core : Core leak s

theorem inv_init (cfg leak) : Inv cfg leak (init cfg) := by
  refine ⟨by simp [init, Lab.init], by simp [init, Lab.init], ?_, by simp [init, Lab.init], ?_⟩
  · intro d
    simp [init, Lab.init]
    omega
  · constructor <;> simp [init]

/-- What a thread holds is its directory. -/
theorem holds_dir {leak main pc h} (hh : holds leak main pc = some h) : pc.dir = some h.dir := by
  cases main <;> cases pc <;> simp_all [holds, Pc.dir, handle, Option.map_eq_some_iff] <;> (try (subst hh; rfl)) <;>
    (try (obtain ⟨_, h1, h2⟩ := hh; subst h2; exact h1))

theorem setAt_some {f : Nat → Option Handle} {i : Nat} {a : Option Handle} {j : Nat} {h : Handle}
    (hj : setAt f i a j = some h) : (j = i ∧ a = some h) ∨ (j ≠ i ∧ f j = some h) := by
  unfold setAt at hj
  split at hj
  · exact .inl ⟨‹_›, hj⟩
  · exact .inr ⟨‹_›, hj⟩

/-- Nothing else is held of the same directory. -/
structure Alone (s : State) (i : Nat) (d : DirId) : Prop where
  held : ∀ j h, j ≠ i → s.held j = some h → h.dir ≠ d
  slot : ∀ h, s.slot = some h → h.dir ≠ d

theorem Core.letGo {leak removes s i} (hs : Core leak s)
    (hi : ∀ h, s.held i = some h → Alone s i h.dir ∧ (h.temp = true → h.dir ∈ s.created) ∧
      (h.temp = false → h.dir ∈ s.created → leak = true)) :
    Core leak (s.letGo removes i) := by
  cases hh : s.held i with
  | none =>
    have e : (s.letGo removes i) = { s with held := setAt s.held i none } := by simp [State.letGo, hh, State.drop]
    have eh : setAt s.held i none = s.held := by
      funext j; unfold setAt; split
      · rename_i h; rw [h, hh]
      · rfl
    rw [e, eh]; exact hs
  | some h =>
    obtain ⟨ha, h1, h2⟩ := hi h hh
    by_cases ht : h.temp = true
    · have hd := h1 ht
      have hnot : h.dir ∉ s.removed ∧ h.dir ∉ s.stuck :=
        ⟨fun hx => ((hs.gone _ (.inl hx)).2.1 i h hh) rfl, fun hx => ((hs.gone _ (.inr hx)).2.1 i h hh) rfl⟩
      have key : ∀ s' : State, s'.held = setAt s.held i none → s'.slot = s.slot → s'.created = s.created →
          (∀ d, d ∈ s'.removed ∨ d ∈ s'.stuck ↔ d = h.dir ∨ d ∈ s.removed ∨ d ∈ s.stuck) →
          (s'.removed ++ s'.stuck).Nodup → Core leak s' := by
        intro s' e1 e2 e3 e4 e5
        refine ⟨?_, ?_, e5⟩
        · intro d hd'
          rw [e1, e2, e3]
          rcases (e4 d).1 hd' with rfl | hd'
          · refine ⟨hd, ?_, fun h' hh' => ha.slot h' hh'⟩
            intro j h' hj
            rcases setAt_some hj with ⟨_, hj⟩ | ⟨hne, hj⟩
            · cases hj
            · exact ha.held j h' hne hj
          · obtain ⟨a, b, c⟩ := hs.gone d hd'
            refine ⟨a, ?_, c⟩
            intro j h' hj
            rcases setAt_some hj with ⟨_, hj⟩ | ⟨hne, hj⟩
            · cases hj
            · exact b j h' hj
        · intro d hd'
          rw [e3] at hd'
          have hor : d ∈ s'.removed ∨ d ∈ s'.stuck ∨ (∃ j h', s'.held j = some h' ∧ h'.dir = d) ∨
              (∃ h', s'.slot = some h' ∧ h'.dir = d) ∨ leak = true := by
            by_cases hdd : d = h.dir
            · rcases (e4 d).2 (.inl hdd) with x | x
              · exact .inl x
              · exact .inr (.inl x)
            · rcases hs.accounted d hd' with x | x | ⟨j, h', x, y⟩ | ⟨h', x, y⟩ | x
              · rcases (e4 d).2 (.inr (.inl x)) with x | x
                · exact .inl x
                · exact .inr (.inl x)
              · rcases (e4 d).2 (.inr (.inr x)) with x | x
                · exact .inl x
                · exact .inr (.inl x)
              · refine .inr (.inr (.inl ⟨j, h', ?_, y⟩))
                rw [e1]
                unfold setAt
                rw [if_neg]
                · exact x
                · rintro rfl
                  rw [hh] at x
                  cases x
                  exact hdd y.symm
              · exact .inr (.inr (.inr (.inl ⟨h', by rw [e2]; exact x, y⟩)))
              · exact .inr (.inr (.inr (.inr x)))
          exact hor
      cases removes
      · have e : s.letGo false i = { s with stuck := h.dir :: s.stuck, held := setAt s.held i none } := by
          simp [State.letGo, State.drop, hh, ht]
        rw [e]
        refine key _ rfl rfl rfl ?_ ?_
        · intro d; simp only [List.mem_cons]; constructor
          · rintro (x | x | x) <;> simp [x]
          · rintro (x | x | x) <;> simp [x]
        · show (s.removed ++ h.dir :: s.stuck).Nodup
          obtain ⟨a, b, c⟩ := List.nodup_append.1 hs.once
          refine List.nodup_append.2 ⟨a, List.nodup_cons.2 ⟨hnot.2, b⟩, ?_⟩
          intro x hx y hy
          rcases List.mem_cons.1 hy with rfl | hy
          · rintro rfl; exact hnot.1 hx
          · exact c x hx y hy
      · have e : s.letGo true i = { s with removed := h.dir :: s.removed, held := setAt s.held i none } := by
          simp [State.letGo, State.drop, hh, ht]
        rw [e]
        refine key _ rfl rfl rfl ?_ ?_
        · intro d; simp [or_assoc]
        · show (h.dir :: s.removed ++ s.stuck).Nodup
          rw [List.cons_append]
          exact List.nodup_cons.2 ⟨by simp [hnot], hs.once⟩
    · have ht : h.temp = false := by simpa using ht
      have e : (s.letGo removes i) = { s with held := setAt s.held i none } := by simp [State.letGo, hh, State.drop, ht]
      rw [e]
      refine ⟨?_, ?_, hs.once⟩
      · intro d hd
        obtain ⟨a, b, c⟩ := hs.gone d hd
        refine ⟨a, ?_, c⟩
        intro j h' hj
        rcases setAt_some hj with ⟨_, hj⟩ | ⟨hne, hj⟩
        · cases hj
        · exact b j h' hj
      · intro d hd
        by_cases hdd : d = h.dir
        · exact .inr (.inr (.inr (.inr (h2 ht (hdd ▸ hd)))))
        · rcases hs.accounted d hd with x | x | ⟨j, h', x, y⟩ | x | x
          · exact .inl x
          · exact .inr (.inl x)
          · refine .inr (.inr (.inl ⟨j, h', ?_, y⟩))
            show setAt s.held i none j = _
            unfold setAt
            rw [if_neg]
            · exact x
            · rintro rfl
              rw [hh] at x
              cases x
              exact hdd y.symm
          · exact .inr (.inr (.inr (.inl x)))
          · exact .inr (.inr (.inr (.inr x)))

theorem Core.lab {leak s} (hs : Core leak s) (l : Lab.State) : Core leak { s with lab := l } := ⟨hs.gone, hs.accounted, hs.once⟩

theorem Core.take {leak s i} (hs : Core leak s) (hi : s.held i = none) :
    Core leak { s with held := setAt s.held i s.slot, slot := none } := by
  refine ⟨?_, ?_, hs.once⟩
  · intro d hd
    obtain ⟨a, b, c⟩ := hs.gone d hd
    refine ⟨a, ?_, fun h hh => by cases hh⟩
    intro j h hj
    rcases setAt_some hj with ⟨_, hj⟩ | ⟨_, hj⟩
    · exact c h hj
    · exact b j h hj
  · intro d hd
    rcases hs.accounted d hd with x | x | ⟨j, h, x, y⟩ | ⟨h, x, y⟩ | x
    · exact .inl x
    · exact .inr (.inl x)
    · refine .inr (.inr (.inl ⟨j, h, ?_, y⟩))
      show setAt s.held i s.slot j = _
      unfold setAt
      rw [if_neg]
      · exact x
      · rintro rfl; rw [hi] at x; cases x
    · refine .inr (.inr (.inl ⟨i, h, ?_, y⟩))
      show setAt s.held i s.slot i = _
      simp [setAt, x]
    · exact .inr (.inr (.inr (.inr x)))

theorem Core.give {leak s i} (hs : Core leak s) (hi : s.slot = none) :
    Core leak { s with slot := s.held i, held := setAt s.held i none } := by
  refine ⟨?_, ?_, hs.once⟩
  · intro d hd
    obtain ⟨a, b, c⟩ := hs.gone d hd
    refine ⟨a, ?_, fun h hh => b i h hh⟩
    intro j h hj
    rcases setAt_some hj with ⟨_, hj⟩ | ⟨_, hj⟩
    · cases hj
    · exact b j h hj
  · intro d hd
    rcases hs.accounted d hd with x | x | ⟨j, h, x, y⟩ | ⟨h, x, y⟩ | x
    · exact .inl x
    · exact .inr (.inl x)
    · by_cases hj : j = i
      · exact .inr (.inr (.inr (.inl ⟨h, by rw [← hj]; exact x, y⟩)))
      · refine .inr (.inr (.inl ⟨j, h, ?_, y⟩))
        show setAt s.held i none j = _
        simp [setAt, hj, x]
    · rw [hi] at x; cases x
    · exact .inr (.inr (.inr (.inr x)))

theorem Core.create {leak s i d} (hs : Core leak s) (hi : s.held i = none) (hd : d ∉ s.created) (t : Bool) :
    Core leak { s with created := d :: s.created, held := setAt s.held i (some ⟨d, t⟩) } := by
  refine ⟨?_, ?_, hs.once⟩
  · intro d' hd'
    obtain ⟨a, b, c⟩ := hs.gone d' hd'
    refine ⟨List.mem_cons_of_mem _ a, ?_, c⟩
    intro j h hj
    rcases setAt_some hj with ⟨_, hj⟩ | ⟨_, hj⟩
    · cases hj; rintro rfl; exact hd a
    · exact b j h hj
  · intro d' hd'
    rcases List.mem_cons.1 hd' with rfl | hd'
    · exact .inr (.inr (.inl ⟨i, ⟨d', t⟩, by simp [setAt], rfl⟩))
    · rcases hs.accounted d' hd' with x | x | ⟨j, h, x, y⟩ | x | x
      · exact .inl x
      · exact .inr (.inl x)
      · refine .inr (.inr (.inl ⟨j, h, ?_, y⟩))
        show setAt s.held i _ j = _
        unfold setAt
        rw [if_neg]
        · exact x
        · rintro rfl; rw [hi] at x; cases x
      · exact .inr (.inr (.inr (.inl x)))
      · exact .inr (.inr (.inr (.inr x)))

/-- Holding the same directory in another way. -/
theorem Core.mark {leak s i d t} (hs : Core leak s) (hi : s.held i = some ⟨d, t⟩) (t' : Bool) :
    Core leak { s with held := setAt s.held i (some ⟨d, t'⟩) } := by
  refine ⟨?_, ?_, hs.once⟩
  · intro d' hd'
    obtain ⟨a, b, c⟩ := hs.gone d' hd'
    refine ⟨a, ?_, c⟩
    intro j h hj
    rcases setAt_some hj with ⟨_, hj⟩ | ⟨_, hj⟩
    · cases hj; exact b i ⟨d, t⟩ hi
    · exact b j h hj
  · intro d' hd'
    rcases hs.accounted d' hd' with x | x | ⟨j, h, x, y⟩ | x | x
    · exact .inl x
    · exact .inr (.inl x)
    · by_cases hj : j = i
      · subst hj
        rw [hi] at x
        cases x
        exact .inr (.inr (.inl ⟨j, ⟨d, t'⟩, by simp [setAt], y⟩))
      · exact .inr (.inr (.inl ⟨j, h, by simp [setAt, hj, x], y⟩))
    · exact .inr (.inr (.inr (.inl x)))
    · exact .inr (.inr (.inr (.inr x)))

theorem Core.dropSlot {leak removes s} (hs : Core leak s) (n : Nat) (hn : s.held n = none)
    (hi : ∀ h, s.slot = some h → (∀ j h', s.held j = some h' → h'.dir ≠ h.dir) ∧ (h.temp = true → h.dir ∈ s.created) ∧
      (h.temp = false → h.dir ∈ s.created → leak = true)) :
    Core leak { s.drop removes s.slot with slot := none } := by
  have h1 := hs.take hn
  have e1 : setAt s.held n s.slot n = s.slot := by simp [setAt]
  have e2 : setAt (setAt s.held n s.slot) n none = s.held := by
    funext j; unfold setAt; split
    · rename_i h; rw [h, hn]
    · rfl
  have h2 := h1.letGo (removes := removes) (i := n) (by
    intro h hh
    obtain ⟨a, b, c⟩ := hi h (by rw [← e1]; exact hh)
    refine ⟨⟨?_, fun h hh => by cases hh⟩, b, c⟩
    intro j h' hj hh'
    rcases setAt_some hh' with ⟨x, _⟩ | ⟨_, x⟩
    · exact (hj x).elim
    · exact a j h' x)
  have e : State.letGo { s with held := setAt s.held n s.slot, slot := none } removes n =
      { s.drop removes s.slot with slot := none } := by
    unfold State.letGo
    simp only [e1, e2]
    cases hsl : s.slot with
    | none => rfl
    | some h =>
      cases h with
      | mk d t => cases t <;> cases removes <;> simp [State.drop]
  rw [e] at h2
  exact h2

/-- What a step of a thread does. -/
theorem thread_cases {cfg sh c pc sh' pc'} (h : WStep cfg sh c pc sh' pc') (leak removes : Bool) (main : MainPc)
    (hm : main = .preparing ∨ main = .baseline ∨ main = .testing) (hf : Fits cfg main pc) (s : State) (i : Nat) :
    (s.threadStep leak removes main i pc pc' = s ∧ holds leak main pc' = holds leak main pc ∧
      (pc'.dir = pc.dir ∨ pc'.dir = none) ∧ sh'.dir0 = sh.dir0 ∧ sh'.nextDir = sh.nextDir) ∨
    (s.threadStep leak removes main i pc pc' = s.letGo removes i ∧ holds leak main pc' = none ∧
      (pc'.dir = none ∨ pc'.dir = pc.dir ∧ ∀ b d, pc ≠ .copying b d) ∧ sh'.dir0 = sh.dir0 ∧ sh'.nextDir = sh.nextDir) ∨
    (∃ b, pc = .mustCopy b ∧ pc' = .copying b sh.nextDir ∧ sh'.dir0 = sh.dir0 ∧ sh'.nextDir = sh.nextDir + 1 ∧
      s.threadStep leak removes main i pc pc' =
        { s with created := sh.nextDir :: s.created, held := setAt s.held i (some ⟨sh.nextDir, true⟩) }) ∨
    (∃ b d, pc = .copying b d ∧ pc'.dir = some d ∧ holds leak main pc' = some (handle leak d) ∧ sh'.dir0 = sh.dir0 ∧
      sh'.nextDir = sh.nextDir ∧
      s.threadStep leak removes main i pc pc' = { s with held := setAt s.held i (some ⟨d, !leak⟩) }) ∨
    (∃ d, pc = .new ∧ pc' = .idle d ∧ sh.dir0 = some d ∧ sh'.dir0 = none ∧ sh'.nextDir = sh.nextDir ∧
      s.threadStep leak removes main i pc pc' = { s with held := setAt s.held i s.slot, slot := none }) := by
  cases h
  case takeDir0 d h => exact .inr (.inr (.inr (.inr ⟨d, rfl, rfl, h, rfl, rfl, rfl⟩)))
  case startCopy b => exact .inr (.inr (.inl ⟨b, rfl, rfl, rfl, rfl, rfl⟩))
  case noDir0 => exact .inl ⟨rfl, by rcases hm with rfl | rfl | rfl <;> rfl, .inl rfl, rfl, rfl⟩
  case startCopyErr b =>
    rcases hm with rfl | rfl | rfl
    · exact .inl ⟨rfl, rfl, .inl rfl, rfl, rfl⟩
    · exact .inl ⟨rfl, rfl, .inl rfl, rfl, rfl⟩
    · exact .inr (.inl ⟨rfl, rfl, .inl rfl, rfl, rfl⟩)
  case copyErr b d => exact .inr (.inl ⟨rfl, by rcases hm with rfl | rfl | rfl <;> rfl, .inl rfl, rfl, rfl⟩)
  case copyPanic b d h => exact .inr (.inl ⟨rfl, by rcases hm with rfl | rfl | rfl <;> rfl, .inl rfl, rfl, rfl⟩)
  case copied b d con h =>
    refine .inr (.inr (.inr (.inl ⟨b, d, rfl, ?_, ?_, rfl, rfl, ?_⟩)))
    · cases b <;> rfl
    · rcases hm with rfl | rfl | rfl <;> cases b <;> rfl
    · cases b <;> rfl
  case tell d sc =>
    refine .inl ⟨?_, ?_, ?_, rfl, rfl⟩ <;> rcases hm with rfl | rfl | rfl <;> cases sc <;> first | rfl | exact .inl rfl
  case tellFinished d sc rs text ht =>
    refine .inl ⟨?_, ?_, ?_, rfl, rfl⟩ <;> rcases hm with rfl | rfl | rfl <;> cases sc <;> first | rfl | exact .inl rfl
  case apply d m h =>
    obtain ⟨_, rfl, _⟩ := h.frame
    rcases h.pc with rfl | rfl
    · exact .inl ⟨rfl, by rcases hm with rfl | rfl | rfl <;> rfl, .inl rfl, rfl, rfl⟩
    · rcases hm with rfl | rfl | rfl
      · exact .inl ⟨rfl, rfl, .inl rfl, rfl, rfl⟩
      · exact .inl ⟨rfl, rfl, .inl rfl, rfl, rfl⟩
      · exact .inr (.inl ⟨rfl, rfl, .inr ⟨rfl, by simp⟩, rfl, rfl⟩)
  case revert d m rs h =>
    obtain ⟨_, rfl, _⟩ := h.frame
    rcases h.pc with rfl | rfl
    · exact .inl ⟨rfl, by rcases hm with rfl | rfl | rfl <;> rfl, .inl rfl, rfl, rfl⟩
    · rcases hm with rfl | rfl | rfl
      · exact .inl ⟨rfl, rfl, .inl rfl, rfl, rfl⟩
      · exact .inl ⟨rfl, rfl, .inl rfl, rfl, rfl⟩
      · exact .inr (.inl ⟨rfl, rfl, .inr ⟨rfl, by simp⟩, rfl, rfl⟩)
  case failRevert d m h =>
    obtain ⟨_, rfl, _⟩ := h.frame
    have e : pc' = .failed (some d) := by rcases h.pc with e | e <;> exact e
    subst e
    rcases hm with rfl | rfl | rfl
    · exact .inl ⟨rfl, rfl, .inl rfl, rfl, rfl⟩
    · exact .inl ⟨rfl, rfl, .inl rfl, rfl, rfl⟩
    · exact .inr (.inl ⟨rfl, rfl, .inr ⟨rfl, by simp⟩, rfl, rfl⟩)
  case finish d hq =>
    rcases hm with rfl | rfl | rfl
    · exact hf.elim
    · exact hf.elim
    · exact .inr (.inl ⟨rfl, rfl, .inr ⟨rfl, by simp⟩, rfl, rfl⟩)
  all_goals first
    | exact .inl ⟨rfl, by rcases hm with rfl | rfl | rfl <;> rfl, .inl rfl, rfl, rfl⟩
    | (rcases hm with rfl | rfl | rfl
       · exact .inl ⟨rfl, rfl, .inl rfl, rfl, rfl⟩
       · exact .inl ⟨rfl, rfl, .inl rfl, rfl, rfl⟩
       · exact .inr (.inl ⟨rfl, rfl, .inr ⟨rfl, by simp⟩, rfl, rfl⟩))

theorem holds_cases {leak main pc h} (hh : holds leak main pc = some h) :
    pc.dir = some h.dir ∧ (h = handle leak h.dir ∨ ∃ b, pc = .copying b h.dir ∧ h.temp = true) := by
  refine ⟨holds_dir hh, ?_⟩
  have key : ∀ d, (some d).map (handle leak) = some h → h = handle leak h.dir := by
    intro d e; cases e; rfl
  cases main <;> cases pc <;> first
    | (cases hh; done)
    | exact .inl (key _ hh)
    | (cases hh; exact .inr ⟨_, rfl, rfl⟩)
    | (rename_i d; cases d <;> first | (cases hh; done) | exact .inl (key _ hh))

theorem handle_facts {cfg leak} {sh : Shared} {d : DirId} (hd : DirOk cfg sh d) (created : List DirId)
    (hc : ∀ d, d ∈ created ↔ 0 < d ∧ d < sh.nextDir) :
    ((handle leak d).temp = true → d ∈ created) ∧ ((handle leak d).temp = false → d ∈ created → leak = true) := by
  unfold DirOk at hd
  unfold handle
  split at hd
  · subst hd
    refine ⟨by simp, fun _ h => ?_⟩
    have := (hc 0).1 h
    omega
  · refine ⟨fun _ => (hc d).2 hd, fun h _ => ?_⟩
    have : d ≠ 0 := by omega
    simpa [this] using h

theorem Inv.heldFacts {cfg leak s} (hi : Inv cfg leak s) (hd : Dirs cfg s.lab) {i : Nat} {h : Handle} (hh : s.held i = some h) :
    Alone s i h.dir ∧ (h.temp = true → h.dir ∈ s.created) ∧ (h.temp = false → h.dir ∈ s.created → leak = true) := by
  rw [hi.held i] at hh
  obtain ⟨pc, hpc, hh⟩ := Option.bind_eq_some_iff.1 hh
  obtain ⟨hdir, hcase⟩ := holds_cases hh
  have hok := hd.ok i pc _ hpc hdir
  refine ⟨⟨?_, ?_⟩, ?_⟩
  · intro j h' hj hh' e
    rw [hi.held j] at hh'
    obtain ⟨pc', hpc', hh'⟩ := Option.bind_eq_some_iff.1 hh'
    exact hj (hd.distinct j i pc' pc h.dir hpc' hpc (by rw [holds_dir hh', e]) hdir)
  · intro h' hh' e
    rw [hi.slot] at hh'
    have : s.lab.sh.dir0.map (handle leak) = some h' := by
      split at hh'
      · cases hh'
      · exact hh'
    obtain ⟨d, hd0, rfl⟩ := Option.map_eq_some_iff.1 this
    exact hd.distinct0 i pc h.dir hpc hdir (by rw [hd0]; exact congrArg some e)
  · rcases hcase with hcase | ⟨b, hb, ht⟩
    · have := handle_facts (leak := leak) hok s.created hi.created
      rw [← hcase] at this
      exact this
    · refine ⟨fun _ => ?_, fun x => by rw [ht] at x; cases x⟩
      unfold DirOk at hok
      split at hok
      · rename_i hip
        exact (((hd.inPlace hip i pc hpc).2 b).2 _ hb).elim
      · exact (hi.created _).2 hok

theorem Inv.slotFacts {cfg leak s} (hi : Inv cfg leak s) (hd : Dirs cfg s.lab) {h : Handle} (hh : s.slot = some h) :
    (∀ j h', s.held j = some h' → h'.dir ≠ h.dir) ∧ (h.temp = true → h.dir ∈ s.created) ∧
      (h.temp = false → h.dir ∈ s.created → leak = true) := by
  refine ⟨fun j h' hj e => (hi.heldFacts hd hj).1.slot h hh e.symm, ?_⟩
  rw [hi.slot] at hh
  have : s.lab.sh.dir0.map (handle leak) = some h := by
    split at hh
    · cases hh
    · exact hh
  obtain ⟨d, hd0, rfl⟩ := Option.map_eq_some_iff.1 this
  exact handle_facts (hd.ok0 d hd0) s.created hi.created

theorem Inv.thread {cfg leak s} (hi : Inv cfg leak s) (hd : Dirs cfg s.lab) (hsh : Shape cfg s.lab) {i : Nat} {c pc sh' pc'}
    (hpc : s.lab.workers[i]? = some pc) (hw : WStep cfg s.lab.sh c pc sh' pc') (removes : Bool) :
    Inv cfg leak { s.threadStep leak removes s.lab.main i pc pc' with
      lab := { s.lab with sh := sh', workers := s.lab.workers.set i pc' } } := by
  have hf := hsh.fits i pc hpc
  have hm : s.lab.main = .preparing ∨ s.lab.main = .baseline ∨ s.lab.main = .testing := by
    cases h : s.lab.main with
    | setup => rw [h] at hf; exact hf.elim
    | preparing => exact .inl rfl
    | baseline => exact .inr (.inl rfl)
    | testing => exact .inr (.inr rfl)
    | returned r => rw [h] at hf; cases hw <;> exact hf.elim
  have hlt : i < s.lab.workers.length := (List.getElem?_eq_some_iff.1 hpc).1
  have hset : ∀ j, (s.lab.workers.set i pc')[j]? = if j = i then some pc' else s.lab.workers[j]? := by
    intro j
    by_cases hj : j = i
    · subst hj; simp [hlt]
    · rw [List.getElem?_set_ne (Ne.symm hj)]; simp [hj]
  have hheld : s.held i = holds leak s.lab.main pc := by rw [hi.held i, hpc]; rfl
  have hslot : s.slot = s.lab.sh.dir0.map (handle leak) := by
    rw [hi.slot]; rcases hm with h | h | h <;> rw [h]
  -- the new values of `held` and `slot` are enough
  have key : ∀ (s1 : State), s1.held = setAt s.held i (holds leak s.lab.main pc') →
      s1.slot = sh'.dir0.map (handle leak) → (∀ d, d ∈ s1.created ↔ 0 < d ∧ d < sh'.nextDir) →
      (leak = true → ∀ (j : Nat) q d, (s.lab.workers.set i pc')[j]? = some q → q.dir = some d → d ∉ s1.removed ∧ d ∉ s1.stuck) →
      Core leak s1 →
      Inv cfg leak { s1 with lab := { s.lab with sh := sh', workers := s.lab.workers.set i pc' } } := by
    intro s1 e1 e2 e3 e4 e5
    refine ⟨?_, ?_, e3, e4, e5.lab _⟩
    · intro j
      show s1.held j = ((s.lab.workers.set i pc')[j]?).bind (holds leak s.lab.main)
      rw [e1, hset]
      unfold setAt
      split
      · rfl
      · exact hi.held j
    · show s1.slot = _
      rw [e2]
      rcases hm with h | h | h <;> simp only [h]
  have hsame : setAt s.held i (s.held i) = s.held := by
    funext j; unfold setAt; split
    · rename_i h; rw [h]
    · rfl
  -- a directory of a thread, after the step
  have hdirs : ∀ (j : Nat) q d, (s.lab.workers.set i pc')[j]? = some q → q.dir = some d →
      (j ≠ i ∧ s.lab.workers[j]? = some q) ∨ (j = i ∧ q = pc') := by
    intro j q d hj hq
    rw [hset] at hj
    split at hj
    · cases hj; exact .inr ⟨‹_›, rfl⟩
    · exact .inl ⟨‹_›, hj⟩
  rcases thread_cases hw leak removes s.lab.main hm hf s i with ⟨e, h1, h2, h3, h4⟩ | ⟨e, h1, h2, h3, h4⟩ |
    ⟨b, rfl, rfl, h3, h4, e⟩ | ⟨b, d, rfl, h2, h1, h3, h4, e⟩ | ⟨d, rfl, rfl, h1, h3, h4, e⟩
  · rw [e]
    refine key s ?_ ?_ ?_ ?_ hi.core
    · rw [h1, ← hheld, hsame]
    · rw [h3, hslot]
    · rw [h4]; exact hi.created
    · intro hl j q d' hj hq
      rcases hdirs j q d' hj hq with ⟨_, hj⟩ | ⟨rfl, rfl⟩
      · exact hi.leaked hl j q d' hj hq
      · rcases h2 with h2 | h2
        · exact hi.leaked hl j pc d' hpc (h2 ▸ hq)
        · rw [h2] at hq; cases hq
  · rw [e]
    refine key _ ?_ ?_ ?_ ?_ (hi.core.letGo fun h hh => hi.heldFacts hd hh)
    · rw [h1]; rfl
    · rw [h3, ← hslot]
      unfold State.letGo State.drop
      cases s.held i with
      | none => rfl
      | some h => simp only; split <;> (try split) <;> rfl
    · rw [h4]
      have : (s.letGo removes i).created = s.created := by
        unfold State.letGo State.drop
        cases s.held i with
        | none => rfl
        | some h => simp only; split <;> (try split) <;> rfl
      rw [this]; exact hi.created
    · intro hl j q d' hj hq
      have hdrop : ∀ d', (d' ∈ (s.letGo removes i).removed → d' ∈ s.removed ∨ ∃ h, s.held i = some h ∧ h.temp = true ∧ h.dir = d') ∧
          (d' ∈ (s.letGo removes i).stuck → d' ∈ s.stuck ∨ ∃ h, s.held i = some h ∧ h.temp = true ∧ h.dir = d') := by
        intro d'
        unfold State.letGo State.drop
        cases hh : s.held i with
        | none => exact ⟨.inl, .inl⟩
        | some h =>
          simp only
          split
          · rename_i ht
            split
            · refine ⟨fun hx => ?_, .inl⟩
              rcases List.mem_cons.1 hx with rfl | hx
              · exact .inr ⟨h, rfl, ht, rfl⟩
              · exact .inl hx
            · refine ⟨.inl, fun hx => ?_⟩
              rcases List.mem_cons.1 hx with rfl | hx
              · exact .inr ⟨h, rfl, ht, rfl⟩
              · exact .inl hx
          · exact ⟨.inl, .inl⟩
      have hold : d' ∉ s.removed ∧ d' ∉ s.stuck ∧ ∀ h, s.held i = some h → h.temp = true → h.dir ≠ d' := by
        rcases hdirs j q d' hj hq with ⟨hne, hj⟩ | ⟨rfl, rfl⟩
        · refine ⟨(hi.leaked hl j q d' hj hq).1, (hi.leaked hl j q d' hj hq).2, fun h hh _ e => ?_⟩
          rw [hheld] at hh
          exact hne (hd.distinct j i q pc d' hj hpc hq (by rw [holds_dir hh, e]))
        · rcases h2 with h2 | ⟨h2, hnc⟩
          · rw [h2] at hq; cases hq
          · refine ⟨(hi.leaked hl j pc d' hpc (h2 ▸ hq)).1, (hi.leaked hl j pc d' hpc (h2 ▸ hq)).2, fun h hh ht _ => ?_⟩
            rw [hheld] at hh
            rcases (holds_cases hh).2 with hx | ⟨b, hb, _⟩
            · rw [hx] at ht
              simp [handle, hl] at ht
            · exact hnc _ _ hb
      refine ⟨fun hx => ?_, fun hx => ?_⟩
      · rcases (hdrop d').1 hx with hx | ⟨h, a, b, c⟩
        · exact hold.1 hx
        · exact hold.2.2 h a b c
      · rcases (hdrop d').2 hx with hx | ⟨h, a, b, c⟩
        · exact hold.2.1 hx
        · exact hold.2.2 h a b c
  · rw [e]
    have hnew : s.lab.sh.nextDir ∉ s.created := fun hx => by
      have := ((hi.created _).1 hx).2; omega
    have hnone : s.held i = none := by
      rw [hheld]; rcases hm with h | h | h <;> rw [h] <;> rfl
    refine key _ ?_ ?_ ?_ ?_ (hi.core.create hnone hnew true)
    · show setAt s.held i _ = setAt s.held i _
      congr 1
      rcases hm with h | h | h <;> rw [h] <;> rfl
    · rw [h3, ← hslot]
    · intro d
      rw [h4]
      show d ∈ s.lab.sh.nextDir :: s.created ↔ _
      have := hd.next
      rw [List.mem_cons, hi.created]
      omega
    · intro hl j q d' hj hq
      rcases hdirs j q d' hj hq with ⟨_, hj⟩ | ⟨rfl, rfl⟩
      · exact hi.leaked hl j q d' hj hq
      · cases hq
        exact ⟨fun hx => hnew (hi.core.gone _ (.inl hx)).1, fun hx => hnew (hi.core.gone _ (.inr hx)).1⟩
  · rw [e]
    have hold : s.held i = some ⟨d, true⟩ := by
      rw [hheld]; rcases hm with h | h | h <;> rw [h] <;> rfl
    refine key _ ?_ ?_ ?_ ?_ (hi.core.mark hold (!leak))
    · show setAt s.held i _ = setAt s.held i _
      rw [h1]
      congr 2
      unfold handle
      have hok := hd.ok i _ d hpc rfl
      unfold DirOk at hok
      split at hok
      · rename_i hip
        exact (((hd.inPlace hip i _ hpc).2 b).2 d rfl).elim
      · have : d ≠ 0 := by omega
        simp [this]
    · rw [h3, ← hslot]
    · rw [h4]; exact hi.created
    · intro hl j q d' hj hq
      rcases hdirs j q d' hj hq with ⟨_, hj⟩ | ⟨rfl, rfl⟩
      · exact hi.leaked hl j q d' hj hq
      · rw [h2] at hq; cases hq
        exact hi.leaked hl j _ d hpc rfl
  · rw [e]
    have hnone : s.held i = none := by
      rw [hheld]; rcases hm with h | h | h <;> rw [h] <;> rfl
    refine key _ ?_ ?_ ?_ ?_ (hi.core.take hnone)
    · show setAt s.held i s.slot = setAt s.held i _
      rw [hslot, h1]
      congr 1
      rcases hm with h | h | h <;> rw [h] <;> rfl
    · rw [h3]; rfl
    · rw [h4]; exact hi.created
    · intro hl j q d' hj hq
      rcases hdirs j q d' hj hq with ⟨_, hj⟩ | ⟨rfl, rfl⟩
      · exact hi.leaked hl j q d' hj hq
      · cases hq
        have hs : s.slot = some (handle leak d) := by rw [hslot, h1]; rfl
        exact ⟨fun hx => (hi.core.gone _ (.inl hx)).2.2 _ hs rfl, fun hx => (hi.core.gone _ (.inr hx)).2.2 _ hs rfl⟩

theorem drop_slot (s : State) (removes : Bool) (h : Option Handle) :
    (s.drop removes h).slot = s.slot ∧ (s.drop removes h).created = s.created ∧ (s.drop removes h).held = s.held ∧
    (∀ d, d ∈ (s.drop removes h).removed → d ∈ s.removed ∨ ∃ x, h = some x ∧ x.temp = true ∧ x.dir = d) ∧
    (∀ d, d ∈ (s.drop removes h).stuck → d ∈ s.stuck ∨ ∃ x, h = some x ∧ x.temp = true ∧ x.dir = d) := by
  cases h with
  | none => exact ⟨rfl, rfl, rfl, fun _ => .inl, fun _ => .inl⟩
  | some h =>
    unfold State.drop
    simp only
    split
    · rename_i ht
      split
      · refine ⟨rfl, rfl, rfl, fun d hx => ?_, fun _ => .inl⟩
        rcases List.mem_cons.1 hx with rfl | hx
        · exact .inr ⟨h, rfl, ht, rfl⟩
        · exact .inl hx
      · refine ⟨rfl, rfl, rfl, fun _ => .inl, fun d hx => ?_⟩
        rcases List.mem_cons.1 hx with rfl | hx
        · exact .inr ⟨h, rfl, ht, rfl⟩
        · exact .inl hx
    · exact ⟨rfl, rfl, rfl, fun _ => .inl, fun _ => .inl⟩

/-- With `--leak-dirs`, nothing that is held when the main thread moves on is removed. -/
theorem Inv.keptWhenLeaking {cfg leak s} (hi : Inv cfg leak s) (hl : leak = true) {x : Handle}
    (hx : s.slot = some x ∨ ∃ i pc, s.held i = some x ∧ s.lab.workers[i]? = some pc ∧ ∀ b d, pc ≠ .copying b d) :
    x.temp = false := by
  rcases hx with hx | ⟨i, pc, hx, hpc, hnc⟩
  · rw [hi.slot] at hx
    split at hx
    · cases hx
    · obtain ⟨d, _, rfl⟩ := Option.map_eq_some_iff.1 hx
      simp [handle, hl]
  · rw [hi.held i, hpc] at hx
    rcases (holds_cases hx).2 with hx | ⟨b, hb, _⟩
    · rw [hx]; simp [handle, hl]
    · exact (hnc _ _ hb).elim

/-- The main thread returns before the workers are started. -/
theorem Inv.returnsEarly {cfg leak s} (hi : Inv cfg leak s) (hd : Dirs cfg s.lab) {pc r} (hw : s.lab.workers = [pc])
    (hnc : ∀ b d, pc ≠ .copying b d) (h0 : s.lab.sh.dir0 = none) (removes : Bool) :
    Inv cfg leak { s.letGo removes 0 with lab := { s.lab with main := .returned r } } := by
  have hs : s.slot = none := by
    rw [hi.slot]; split
    · rfl
    · rw [h0]; rfl
  have hh : ∀ j, j ≠ 0 → s.held j = none := by
    intro j hj
    rw [hi.held j, hw]
    cases j with
    | zero => exact (hj rfl).elim
    | succ j => rfl
  obtain ⟨d1, d2, d3, d4, d5⟩ := drop_slot s removes (s.held 0)
  refine ⟨?_, ?_, ?_, ?_, (hi.core.letGo fun h hh => hi.heldFacts hd hh).lab _⟩
  · intro j
    show setAt s.held 0 none j = _
    have : setAt s.held 0 none j = none := by
      unfold setAt; split
      · rfl
      · exact hh j ‹_›
    rw [this]
    show none = (s.lab.workers[j]?).bind (holds leak (.returned r))
    cases s.lab.workers[j]? <;> rfl
  · show (s.drop removes (s.held 0)).slot = none
    rw [d1, hs]
  · show ∀ d, d ∈ (s.drop removes (s.held 0)).created ↔ _
    rw [d2]; exact hi.created
  · intro hl j q d hj hq
    have hne : ∀ x, s.held 0 = some x → x.temp = false := fun x hx =>
      hi.keptWhenLeaking hl (.inr ⟨0, pc, hx, by rw [hw]; rfl, hnc⟩)
    refine ⟨fun hx => ?_, fun hx => ?_⟩
    · rcases d4 d hx with hx | ⟨x, a, b, _⟩
      · exact (hi.leaked hl j q d hj hq).1 hx
      · rw [hne x a] at b; cases b
    · rcases d5 d hx with hx | ⟨x, a, b, _⟩
      · exact (hi.leaked hl j q d hj hq).2 hx
      · rw [hne x a] at b; cases b

/-- The main thread starts the workers. -/
theorem Inv.spawns {cfg leak s} (hi : Inv cfg leak s) {pc d} (hw : s.lab.workers = [pc])
    (hm : holds leak s.lab.main pc = some (handle leak d)) (h0 : s.lab.sh.dir0 = none) :
    Inv cfg leak { s with slot := s.held 0, held := setAt s.held 0 none, lab := spawn cfg s.lab d } := by
  have hs : s.slot = none := by
    rw [hi.slot]; split
    · rfl
    · rw [h0]; rfl
  have hh : ∀ j, j ≠ 0 → s.held j = none := by
    intro j hj
    rw [hi.held j, hw]
    cases j with
    | zero => exact (hj rfl).elim
    | succ j => rfl
  refine ⟨?_, ?_, hi.created, ?_, (hi.core.give hs).lab _⟩
  · intro j
    show setAt s.held 0 none j = ((spawn cfg s.lab d).workers[j]?).bind (holds leak .testing)
    have h1 : setAt s.held 0 none j = none := by
      unfold setAt; split
      · rfl
      · exact hh j ‹_›
    rw [h1]
    cases hw' : (spawn cfg s.lab d).workers[j]? with
    | none => rfl
    | some q => rw [spawn_worker hw']; rfl
  · show s.held 0 = (some d).map (handle leak)
    rw [hi.held 0, hw]
    exact hm
  · intro hl j q d' hj hq
    rw [spawn_worker hj] at hq
    cases hq

/-- The main thread returns after the workers. -/
theorem Inv.joins {cfg leak s r} {l : Lab.State} (hi : Inv cfg leak s) (hd : Dirs cfg s.lab) (h : s.lab.main = .testing)
    (hdone : ∀ pc ∈ s.lab.workers, pc.isFinished = true ∨ pc.isFailed = true) (hl1 : l.main = .returned r)
    (hl2 : l.workers = s.lab.workers) (hl3 : l.sh.nextDir = s.lab.sh.nextDir) (removes : Bool) :
    Inv cfg leak { (State.mainStep cfg removes s .testing (.returned r)) with lab := l } := by
  have hh : ∀ j, s.held j = none := by
    intro j
    rw [hi.held j, h]
    cases hj : s.lab.workers[j]? with
    | none => rfl
    | some pc =>
      have := hdone pc (List.mem_of_getElem? hj)
      cases pc <;> first | rfl | (simp [Pc.isFinished, Pc.isFailed] at this)
  obtain ⟨d1, d2, d3, d4, d5⟩ := drop_slot s removes s.slot
  have hns : ∀ (hl : leak = true) x, s.slot = some x → x.temp = false := fun hl x hx => hi.keptWhenLeaking hl (.inl hx)
  refine ⟨fun j => ?_, ?_, ?_, ?_, (hi.core.dropSlot 0 (hh 0) fun x hx => hi.slotFacts hd hx).lab _⟩
  · show (s.drop removes s.slot).held j = (l.workers[j]?).bind (holds leak l.main)
    rw [d3, hh j, hl1]
    cases l.workers[j]? <;> rfl
  · show none = _
    simp only [hl1]
  · show ∀ d, d ∈ (s.drop removes s.slot).created ↔ 0 < d ∧ d < l.sh.nextDir
    rw [d2, hl3]; exact hi.created
  · intro hl j q d hj hq
    have hj : s.lab.workers[j]? = some q := by rw [← hl2]; exact hj
    refine ⟨fun hx => ?_, fun hx => ?_⟩
    · rcases d4 d hx with hx | ⟨x, a, b, _⟩
      · exact (hi.leaked hl j q d hj hq).1 hx
      · rw [hns hl x a] at b; cases b
    · rcases d5 d hx with hx | ⟨x, a, b, _⟩
      · exact (hi.leaked hl j q d hj hq).2 hx
      · rw [hns hl x a] at b; cases b

theorem Inv.main {cfg leak s ok l} (hi : Inv cfg leak s) (hd : Dirs cfg s.lab) (hsh : Shape cfg s.lab)
    (hm : mstep cfg s.lab ok = some l) (removes : Bool) :
    Inv cfg leak { s.mainStep cfg removes s.lab.main l.main with lab := l } := by
  have h0 := hd.early
  have hcount := hsh.count
  cases mstep_rel hm
  case setupErr h =>
    rw [h] at hcount
    have hh : ∀ j, s.held j = none := fun j => by rw [hi.held j, hcount]; rfl
    rw [h]
    refine ⟨fun j => ?_, ?_, hi.created, hi.leaked, hi.core.lab _⟩
    · show s.held j = (s.lab.workers[j]?).bind _
      rw [hh j, hcount]; rfl
    · show s.slot = none
      rw [hi.slot, h, h0 (.inl h)]; rfl
  case empty h he =>
    rw [h] at hcount
    have hh : ∀ j, s.held j = none := fun j => by rw [hi.held j, hcount]; rfl
    rw [h]
    refine ⟨fun j => ?_, ?_, hi.created, hi.leaked, hi.core.lab _⟩
    · show s.held j = (s.lab.workers[j]?).bind _
      rw [hh j, hcount]; rfl
    · show s.slot = none
      rw [hi.slot, h, h0 (.inl h)]; rfl
  case prepare h he =>
    rw [h] at hcount
    have hh : ∀ j, s.held j = none := fun j => by rw [hi.held j, hcount]; rfl
    have hs : s.slot = none := by rw [hi.slot, h, h0 (.inl h)]; rfl
    rw [h]
    have h00 := h0 (.inl h)
    cases hp : cfg.inPlace with
    | false =>
      have e : State.mainStep cfg removes s .setup .preparing = s := by simp [State.mainStep, hp]
      simp only [e, if_false, Bool.false_eq_true]
      refine ⟨fun j => ?_, ?_, hi.created, ?_, hi.core.lab _⟩
      · show s.held j = ([Pc.mustCopy true][j]?).bind (holds leak .preparing)
        rw [hh j]
        cases j <;> rfl
      · show s.slot = s.lab.sh.dir0.map _
        rw [hs, h00]; rfl
      · intro hl j q d hj hq
        cases j with
        | zero => cases hj; cases hq
        | succ j => cases hj
    | true =>
      have e : State.mainStep cfg removes s .setup .preparing = { s with held := setAt s.held 0 (some ⟨0, false⟩) } := by
        simp [State.mainStep, hp]
      simp only [e, if_true]
      have hn0 : 0 ∉ s.created := fun hx => by have := ((hi.created 0).1 hx).1; omega
      refine ⟨fun j => ?_, ?_, hi.created, ?_, ?_⟩
      · show setAt s.held 0 _ j = ([Pc.prepared 0][j]?).bind (holds leak .preparing)
        cases j with
        | zero => simp [setAt, holds, Pc.dir, handle]
        | succ j => simp [setAt, hh]
      · show s.slot = s.lab.sh.dir0.map _
        rw [hs, h00]; rfl
      · intro hl j q d hj hq
        cases j with
        | zero =>
          cases hj; cases hq
          exact ⟨fun hx => hn0 (hi.core.gone _ (.inl hx)).1, fun hx => hn0 (hi.core.gone _ (.inr hx)).1⟩
        | succ j => cases hj
      · refine ⟨?_, ?_, hi.core.once⟩
        · intro d hd'
          obtain ⟨a, b, c⟩ := hi.core.gone d hd'
          refine ⟨a, ?_, c⟩
          intro j x hj
          rcases setAt_some hj with ⟨_, hj⟩ | ⟨_, hj⟩
          · cases hj; rintro rfl; exact hn0 a
          · exact b j x hj
        · intro d hd'
          rcases hi.core.accounted d hd' with x | x | ⟨j, y, x, _⟩ | x | x
          · exact .inl x
          · exact .inr (.inl x)
          · rw [hh j] at x; cases x
          · exact .inr (.inr (.inr (.inl x)))
          · exact .inr (.inr (.inr (.inr x)))
  case prepareErr h d hw =>
    rw [h]
    exact hi.returnsEarly hd hw (by simp) (h0 (.inr (.inl h))) removes
  case baseline h d hw hb =>
    rw [h]
    refine ⟨fun j => ?_, ?_, hi.created, ?_, hi.core.lab _⟩
    · show s.held j = ([Pc.taken d .baseline][j]?).bind (holds leak .baseline)
      rw [hi.held j, hw, h]
      cases j <;> rfl
    · show s.slot = s.lab.sh.dir0.map _
      rw [hi.slot, h]
    · intro hl j q d' hj hq
      cases j with
      | zero => cases hj; exact hi.leaked hl 0 (.prepared d) d' (by rw [hw]; rfl) hq
      | succ j => cases hj
  case skipBaseline h d hw hb =>
    rw [h]
    exact hi.spawns hw (by rw [h]; rfl) (h0 (.inr (.inl h)))
  case prepareFailed h d hw =>
    rw [h]
    exact hi.returnsEarly hd hw (by simp) (h0 (.inr (.inl h))) removes
  case passed h d o hw ho =>
    rw [h]
    exact hi.spawns hw (by rw [h]; rfl) (h0 (.inr (.inr h)))
  case passedErr h d o hw =>
    rw [h]
    exact hi.returnsEarly hd hw (by simp) (h0 (.inr (.inr h))) removes
  case baselineFailed h d o hw ho =>
    rw [h]
    exact hi.returnsEarly hd hw (by simp) (h0 (.inr (.inr h))) removes
  case baselineErr h d hw =>
    rw [h]
    exact hi.returnsEarly hd hw (by simp) (h0 (.inr (.inr h))) removes
  case workerFailed h hw hf => rw [h]; exact hi.joins (l := { s.lab with main := .returned none }) hd h hw rfl rfl rfl removes
  case tested h hw => rw [h]; exact hi.joins (l := { s.lab with
      sh := { s.lab.sh with stdout := s.lab.sh.stdout ++ [finishedMessage cfg.print s.lab.sh.out.lab] }
      main := .returned (some s.lab.sh.out.lab) }) hd h (fun pc hpc => .inl (hw pc hpc)) rfl rfl rfl removes

/-- A step of the directories is a step of the threads. -/
theorem step_lab {cfg leak s e removes s'} (h : step cfg leak s e removes = some s') : Lab.step cfg s.lab e = some s'.lab := by
  unfold step at h
  obtain ⟨l, hl, h⟩ := Option.map_eq_some_iff.1 h
  have e' : s'.lab = l := by
    subst h
    split
    · rfl
    · rfl
    · split <;> rfl
  rw [hl, e']

theorem Inv.step {cfg leak s e removes s'} (hj : cfg.JobsOk) (hr : Lab.Reachable cfg s.lab) (hi : Inv cfg leak s)
    (h : step cfg leak s e removes = some s') : Inv cfg leak s' := by
  have hd := reachable_dirs hj hr
  have hsh := reachable_shape hr
  have hl := step_lab h
  unfold Temp.step at h
  obtain ⟨l, hl', h⟩ := Option.map_eq_some_iff.1 h
  rcases step_cases hl' with ⟨rfl, _, rfl⟩ | ⟨ok, rfl, hm⟩ | ⟨i, c, pc, sh', pc', rfl, hpc, hw, rfl⟩
  · subst h
    exact ⟨hi.held, hi.slot, hi.created, hi.leaked, hi.core.lab _⟩
  · subst h
    exact hi.main hd hsh hm removes
  · have hlt : i < s.lab.workers.length := (List.getElem?_eq_some_iff.1 hpc).1
    have h2 : (s.lab.workers.set i pc')[i]? = some pc' := by simp [hlt]
    simp only [hpc, h2] at h
    subst h
    exact hi.thread hd hsh hpc hw removes

theorem reachable_inv {cfg leak s} (hj : cfg.JobsOk) (h : Reachable cfg leak s) : Lab.Reachable cfg s.lab ∧ Inv cfg leak s := by
  obtain ⟨es, h⟩ := h
  have key : ∀ (es : List (Lab.Event × Bool)) (s s' : State), Lab.Reachable cfg s.lab → Inv cfg leak s →
      exec cfg leak s es = some s' → Lab.Reachable cfg s'.lab ∧ Inv cfg leak s' := by
    intro es
    induction es with
    | nil => intro s s' h1 h2 he; cases he; exact ⟨h1, h2⟩
    | cons e es ih =>
      intro s s' h1 h2 he
      obtain ⟨s1, hs1, he⟩ := Option.bind_eq_some_iff.1 he
      exact ih s1 s' (h1.step (step_lab hs1)) (h2.step hj h1 hs1) he
  exact key es _ s ⟨[], rfl⟩ (inv_init cfg leak) h

end CM.Temp
