import Verif.Proofs.LabOutcomes
/-! What is printed during a run. -/
namespace CM.Lab
open CM.Props CM.Spec

/-- The thread has recorded an outcome that has not been printed. -/
def Pc.untold : Pc → Option ScenarioOutcome
  | .recorded _ sc rs => some ⟨sc, rs⟩
  | _ => none

/-- The messages about outcomes. -/
def messages (opts : PrintOptions) (os : List ScenarioOutcome) : List Text :=
  os.filterMap fun o => (o.message opts).join

theorem messages_append (opts : PrintOptions) (a b : List ScenarioOutcome) :
    messages opts (a ++ b) = messages opts a ++ messages opts b := by simp [messages]

theorem WStep.told {cfg sh c pc sh' pc'} (h : WStep cfg sh c pc sh' pc') :
    (sh'.out.lab.outcomes = sh.out.lab.outcomes ∧ sh'.stdout = sh.stdout ∧ pc'.untold = none ∧
      (pc.untold = none ∨ pc'.isFailed = true)) ∨
    (∃ o, sh'.out.lab.outcomes = sh.out.lab.outcomes ++ [o] ∧ sh'.stdout = sh.stdout ∧ pc.untold = none ∧
      (pc'.untold = some o ∨ (pc'.untold = none ∧ pc'.isFailed = true))) ∨
    (∃ o text, sh'.out.lab.outcomes = sh.out.lab.outcomes ∧ pc.untold = some o ∧ o.message cfg.print = some text ∧
      sh'.stdout = sh.stdout ++ text.toList ∧ pc'.untold = none) := by
  cases h
  case record d sc rs out h =>
    exact .inr (.inl ⟨_, add_outcomes (addOutcome_spec h).1, rfl, rfl, .inl rfl⟩)
  case recordErr d sc rs out ws k hw h _ =>
    rcases writeAll_take hw h with h | h
    · exact .inl ⟨by rw [h], rfl, rfl, .inl rfl⟩
    · exact .inr (.inl ⟨_, add_outcomes h, rfl, rfl, .inr ⟨rfl, rfl⟩⟩)
  case tellFinished d sc rs text hm =>
    exact .inr (.inr ⟨_, text, rfl, rfl, hm, rfl, by cases sc <;> rfl⟩)
  case tellPanic d sc rs hm => exact .inl ⟨rfl, rfl, rfl, .inr rfl⟩
  case unreadable d sc rs hm => exact .inl ⟨rfl, rfl, rfl, .inr rfl⟩
  case copied b d con h => cases b <;> exact .inl ⟨rfl, rfl, rfl, .inl rfl⟩
  case tell d sc => cases sc <;> exact .inl ⟨rfl, rfl, rfl, .inl rfl⟩
  case apply h =>
    obtain ⟨_, rfl, _⟩ := h.frame
    rcases h.pc with rfl | rfl <;> exact .inl ⟨rfl, rfl, rfl, .inl rfl⟩
  case revert h =>
    obtain ⟨_, rfl, _⟩ := h.frame
    rcases h.pc with rfl | rfl <;> exact .inl ⟨rfl, rfl, rfl, .inl rfl⟩
  case failRevert h =>
    obtain ⟨_, rfl, _⟩ := h.frame
    rcases h.pc with rfl | rfl <;> exact .inl ⟨rfl, rfl, rfl, .inl rfl⟩
  all_goals exact .inl ⟨rfl, rfl, rfl, .inl rfl⟩

/-- While the run goes on: the first message, and those about some of the recorded outcomes; the others are about
to be printed, or lost because a thread failed. -/
def Telling (cfg : Config) (s : State) : Prop :=
  ∃ told lost, s.sh.stdout = foundMessage cfg.mutants.length :: messages cfg.print told ∧
    s.sh.out.lab.outcomes.Perm (told ++ s.workers.filterMap Pc.untold ++ lost) ∧
    ((∀ pc ∈ s.workers, pc.isFailed = false) → lost = [])

def Printed (cfg : Config) (s : State) : Prop :=
  match s.main with
  | .setup => s.sh.stdout = []
  | .preparing | .baseline | .testing => Telling cfg s
  | .returned none => s.sh.stdout = [] ∨ Telling cfg s
  | .returned (some l) => (cfg.mutants = [] ∧ l = {} ∧ s.sh.stdout = [foundMessage 0]) ∨
      (cfg.mutants ≠ [] ∧ ∃ told, told.Perm l.outcomes ∧
        ((s.sh.stdout = foundMessage cfg.mutants.length :: messages cfg.print told ∧
            ∃ o, l.outcomes = [o] ∧ o.scenario = .baseline ∧ o.success ≠ some true) ∨
          (s.sh.stdout = foundMessage cfg.mutants.length :: messages cfg.print told ++ [finishedMessage cfg.print l] ∧
            Tested cfg l.outcomes)))

theorem printed_step {cfg s e s'} (hshape : Shape cfg s) (hrec : Records cfg s) (hs : Printed cfg s)
    (hst : step cfg s e = some s') : Printed cfg s' := by
  have hne : s.main = .preparing ∨ s.main = .baseline ∨ s.main = .testing → cfg.mutants ≠ [] := hshape.nonempty
  rcases step_cases hst with ⟨_, _, rfl⟩ | ⟨ok, _, hm⟩ | ⟨i, c, pc, sh', pc', _, hpc, hw, rfl⟩
  · exact hs
  · unfold Printed at hs ⊢
    have nonefailed : ∀ pc, s.workers = [pc] → pc.isFailed = false → ∀ pc ∈ s.workers, pc.isFailed = false := by
      intro pc h1 h2 q hq
      rw [h1] at hq
      rw [List.mem_singleton.1 hq]; exact h2
    have move : ∀ s2 : State, s2.sh.stdout = s.sh.stdout → s2.sh.out = s.sh.out → s2.workers.filterMap Pc.untold = s.workers.filterMap Pc.untold →
        (∀ pc ∈ s.workers, pc.isFailed = false) → Telling cfg s → Telling cfg s2 := by
      rintro s2 h1 h2 h3 h4 ⟨told, lost, t1, t2, t3⟩
      refine ⟨told, lost, by rw [h1, t1], by rw [h2, h3]; exact t2, fun _ => t3 h4⟩
    have spawned : ∀ d pc, s.workers = [pc] → pc.isFailed = false → pc.untold = none → Telling cfg s → Telling cfg (spawn cfg s d) := by
      intro d pc h1 h2 h3 ht
      refine move _ rfl rfl ?_ (nonefailed pc h1 h2) ht
      have : (spawn cfg s d).workers = List.replicate cfg.nThreads .new := rfl
      rw [this, h1]
      have h4 : ∀ n, (List.replicate n Pc.new).filterMap Pc.untold = [] := by
        intro n; rw [List.filterMap_eq_nil_iff]; intro q hq; rw [List.eq_of_mem_replicate hq]; rfl
      rw [h4]
      simp [h3]
    cases mstep_rel hm with
    | setupErr h => rw [h] at hs; exact .inl hs
    | empty h he =>
      rw [h] at hs
      exact .inl ⟨he, rfl, by simp only [hs]; rfl⟩
    | prepare h he =>
      rw [h] at hs
      have h0 : s.sh.out.lab.outcomes = [] := by have := hrec.order; rw [h] at this; exact this
      refine ⟨[], [], by simp only [hs]; rfl, ?_, fun _ => rfl⟩
      cases cfg.inPlace <;> simp [h0, Pc.untold]
    | prepareErr h d hw => rw [h] at hs; exact .inr hs
    | baseline h d hw hb =>
      rw [h] at hs
      exact move _ rfl rfl (by rw [hw]; rfl) (nonefailed _ hw rfl) hs
    | skipBaseline h d hw hb => rw [h] at hs; exact spawned d _ hw rfl rfl hs
    | prepareFailed h d hw => rw [h] at hs; exact .inr hs
    | passed h d o hw ho => rw [h] at hs; exact spawned d _ hw rfl rfl hs
    | baselineFailed h d o hw ho =>
      rw [h] at hs
      obtain ⟨told, lost, t1, t2, t3⟩ := hs
      have hstage := hrec.order
      rw [h] at hstage
      have hst' := hstage 0 (.baselineDone d o) (by rw [hw]; rfl)
      have hlost := t3 (nonefailed _ hw rfl)
      subst hlost
      refine .inr ⟨hne (.inr (.inl h)), told, ?_, .inl ⟨t1, ?_⟩⟩
      · have : [Pc.baselineDone d o].filterMap Pc.untold = [] := rfl
        rw [hw, this] at t2; simpa using t2.symm
      · have := hshape.fits 0 (.baselineDone d o) (by rw [hw]; rfl)
        rw [h] at this
        exact ⟨o, hst', this, ho⟩
    | passedErr h d o hw => rw [h] at hs; exact .inr hs
    | baselineErr h d hw => rw [h] at hs; exact .inr hs
    | workerFailed h hw hf => rw [h] at hs; exact .inr hs
    | tested h hw =>
      rw [h] at hs
      obtain ⟨told, lost, t1, t2, t3⟩ := hs
      have hlost : lost = [] := t3 fun pc hpc => by
        have := hw pc hpc
        cases pc <;> simp_all [Pc.isFinished, Pc.isFailed]
      have hun : s.workers.filterMap Pc.untold = [] := by
        rw [List.filterMap_eq_nil_iff]
        intro pc hpc
        have := hw pc hpc
        cases pc <;> simp_all [Pc.isFinished, Pc.untold]
      subst hlost
      have ht := hrec.order
      rw [h] at ht
      refine .inr ⟨hne (.inr (.inr h)), told, ?_, .inr ⟨by simp only [t1], ht⟩⟩
      rw [hun] at t2; simpa using t2.symm
  · have hlt : i < s.workers.length := (List.getElem?_eq_some_iff.1 hpc).1
    have hpf : pc.isFailed = false := by cases pc <;> first | rfl | cases hw
    have hnf : (∀ q ∈ s.workers.set i pc', q.isFailed = false) →
        pc'.isFailed = false ∧ ∀ q ∈ s.workers, q.isFailed = false := by
      intro h
      refine ⟨h pc' (List.mem_set hlt pc'), fun q hq => ?_⟩
      obtain ⟨j, hj⟩ := List.getElem?_of_mem hq
      by_cases hji : j = i
      · subst hji; rw [hpc] at hj; cases hj; exact hpf
      · exact h q (List.mem_of_getElem? (i := j) (by rw [List.getElem?_set_ne (Ne.symm hji)]; exact hj))
    have key : Telling cfg s → Telling cfg { s with sh := sh', workers := s.workers.set i pc' } := by
      rintro ⟨told, lost, t1, t2, t3⟩
      obtain ⟨rest, hr1, hr2⟩ := filterMap_set_perm Pc.untold pc' hpc
      have hc : ∀ o, s.sh.out.lab.outcomes.count o = told.count o + (pc.untold.toList.count o + rest.count o) + lost.count o := by
        intro o
        have := t2.count_eq o
        simp only [List.count_append] at this
        rw [hr1.count_eq o, List.count_append] at this
        exact this
      have goal : ∀ told' lost', sh'.stdout = foundMessage cfg.mutants.length :: messages cfg.print told' →
          (∀ o, sh'.out.lab.outcomes.count o = told'.count o + (pc'.untold.toList.count o + rest.count o) + lost'.count o) →
          ((∀ pc ∈ s.workers.set i pc', pc.isFailed = false) → lost' = []) →
          Telling cfg { s with sh := sh', workers := s.workers.set i pc' } := by
        intro told' lost' h1 h2 h3
        refine ⟨told', lost', h1, ?_, h3⟩
        rw [List.perm_iff_count]
        intro o
        simp only [List.count_append]
        rw [hr2.count_eq o, List.count_append]
        exact h2 o
      rcases hw.told with ⟨h1, h2, h3, h4⟩ | ⟨o, h1, h2, h3, h4⟩ | ⟨o, text, h1, h2, h3, h4, h5⟩
      · rcases h4 with h4 | h4
        · refine goal told lost (by rw [h2, t1]) (fun o => ?_) fun h => t3 (hnf h).2
          rw [h1, hc o, h3, h4]
        · refine goal told (lost ++ pc.untold.toList) (by rw [h2, t1]) (fun o => ?_) fun h => ?_
          · rw [h1, hc o, h3]; simp only [List.count_append, Option.toList_none, List.count_nil]; omega
          · rw [(hnf h).1] at h4; cases h4
      · rcases h4 with h4 | ⟨h4, h5⟩
        · refine goal told lost (by rw [h2, t1]) (fun o' => ?_) fun h => t3 (hnf h).2
          rw [h1, List.count_append, hc o', h3, h4]
          simp only [Option.toList_none, Option.toList_some, List.count_nil]; omega
        · refine goal told (lost ++ [o]) (by rw [h2, t1]) (fun o' => ?_) fun h => ?_
          · rw [h1, List.count_append, hc o', h3, h4]
            simp only [List.count_append, Option.toList_none, List.count_nil]; omega
          · rw [(hnf h).1] at h5; cases h5
      · refine goal (told ++ [o]) lost ?_ (fun o' => ?_) fun h => t3 (hnf h).2
        · rw [h4, t1, messages_append, List.cons_append]
          congr 2
          simp only [messages, List.filterMap_cons, h3, Option.join_some, List.filterMap_nil]
          cases text <;> rfl
        · rw [h1, hc o', h2, h5]
          simp only [List.count_append, Option.toList_none, Option.toList_some, List.count_nil]; omega
    unfold Printed at hs ⊢
    cases hmain : s.main with
    | setup =>
      have := hshape.count
      rw [hmain] at this
      simp only at this
      rw [this] at hpc
      cases hpc
    | preparing => rw [hmain] at hs; exact key hs
    | baseline => rw [hmain] at hs; exact key hs
    | testing => rw [hmain] at hs; exact key hs
    | returned r =>
      exfalso
      have := hshape.fits i pc hpc
      rw [hmain] at this
      cases hw <;> first | exact this | (rcases this with h | h <;> cases h)

theorem reachable_printed {cfg s} (h : Reachable cfg s) : Printed cfg s := by
  have : (Shape cfg s ∧ Records cfg s) ∧ Printed cfg s :=
    reachable_invariant (P := fun s => (Shape cfg s ∧ Records cfg s) ∧ Printed cfg s)
      ⟨⟨shape_init cfg, records_init cfg⟩, rfl⟩
      (fun s e s' hs hst => ⟨⟨hs.1.1.step hst, hs.1.2.step hs.1.1 hst⟩, printed_step hs.1.1 hs.1.2 hs.2 hst⟩) h
  exact this.2

end CM.Lab
