import Verif.Proofs.LabInv
/-! The console during a run. -/
namespace CM.Lab

/-- The console's scenarios in a directory. -/
def Console.entries (c : Console) (d : DirId) : List (DirId × Option Phase) :=
  c.scenarios.filter fun e => e.1 = d

theorem updateFirst_frame {d f l l'} (h : Console.updateFirst d f l = some l') (d' : DirId)
    (hd : d' ≠ d) : (l'.filter fun e => e.1 = d') = l.filter fun e => e.1 = d' := by
  induction l generalizing l' with
  | nil => cases h
  | cons e l ih =>
    obtain ⟨d1, p⟩ := e
    simp only [Console.updateFirst] at h
    split at h
    · rename_i hd1
      obtain ⟨q, _, rfl⟩ := Option.map_eq_some_iff.1 h
      subst hd1
      simp [List.filter_cons, Ne.symm hd]
    · obtain ⟨q, hq, rfl⟩ := Option.map_eq_some_iff.1 h
      simp only [List.filter_cons, ih hq]

theorem updateFirst_ok {d : DirId} {f : Option Phase → Option (Option Phase)}
    {l : List (DirId × Option Phase)} {p q : Option Phase}
    (h : (l.filter fun e => e.1 = d) = [(d, p)]) (hf : f p = some q) :
    ∃ l', Console.updateFirst d f l = some l' ∧ (l'.filter fun e => e.1 = d) = [(d, q)] := by
  induction l with
  | nil => cases h
  | cons e l ih =>
    obtain ⟨d1, p1⟩ := e
    by_cases hd : d1 = d
    · subst hd
      simp only [List.filter_cons, decide_true, if_true, List.cons.injEq, Prod.mk.injEq, true_and] at h
      obtain ⟨rfl, h2⟩ := h
      exact ⟨(d1, q) :: l, by simp [Console.updateFirst, hf], by simp [List.filter_cons, h2]⟩
    · simp only [List.filter_cons, hd, decide_false, Bool.false_eq_true, if_false] at h
      obtain ⟨l', h1, h2⟩ := ih h
      exact ⟨(d1, p1) :: l', by simp [Console.updateFirst, hd, h1], by simp [List.filter_cons, hd, h2]⟩

theorem Console.phaseStarted_ok {c : Console} {d q} (p : Phase) (h : c.entries d = [(d, q)]) :
    ∃ c', c.phaseStarted d p = some c' ∧ c'.entries d = [(d, some p)] := by
  obtain ⟨l', h1, h2⟩ := updateFirst_ok (f := fun _ => some (some p)) h rfl
  exact ⟨{ c with scenarios := l' }, by simp [Console.phaseStarted, h1], h2⟩

theorem Console.phaseFinished_ok {c : Console} {d p} (h : c.entries d = [(d, some p)]) :
    ∃ c', c.phaseFinished d p = some c' ∧ c'.entries d = [(d, none)] := by
  obtain ⟨l', h1, h2⟩ :=
    updateFirst_ok (f := fun q => if q = some p then some none else none) h (if_pos rfl)
  exact ⟨{ c with scenarios := l' }, by simp [Console.phaseFinished, h1], h2⟩

/-- The counters and copies of two consoles are the same. -/
def Console.SameCounts (c c' : Console) : Prop :=
  c'.labStarted = c.labStarted ∧ c'.mutantsStarted = c.mutantsStarted ∧ c'.nMutants = c.nMutants

/-- Whether a thread works on a mutant, as a number. -/
def Pc.holds (pc : Pc) : Nat :=
  match pc.scenario with
  | some (.mutant _) => 1
  | _ => 0

/-- What the console knows about a thread. -/
def ConsoleOk (c : Console) : Pc → Prop
  | .new | .mustCopy _ | .failing _ _ | .failed _ => True
  | .copying _ d => d ∈ c.copies ∧ c.entries d = []
  | .prepared d | .idle d | .taken d _ | .logged d _ | .baselineDone d _ | .finished d => c.entries d = []
  | .started d _ | .diffed d _ | .ready d _ _ _ | .reverted d _ _ | .recorded d _ _ =>
    c.entries d = [(d, none)]
  | .command d _ p _ _ => c.entries d = [(d, some p)]

/-- What a step of a thread does to the console and the queue. -/
theorem WStep.console_frame {cfg sh c pc sh' pc'} (h : WStep cfg sh c pc sh' pc') :
    sh.console.SameCounts sh'.console ∧
    (∀ d, pc.dir ≠ some d → sh'.console.entries d = sh.console.entries d) ∧
    (∀ d, pc.dir ≠ some d → d ∈ sh.console.copies → d ∈ sh'.console.copies) ∧
    sh'.console.done + pc'.holds + sh'.queue.length ≤ sh.console.done + pc.holds + sh.queue.length ∧
    (sh'.console.done ≠ sh.console.done → ∃ d m rs, pc = .recorded d (.mutant m) rs) := by
  have same : ∀ c : Console, c.SameCounts c := fun c => ⟨rfl, rfl, rfl⟩
  cases h
  case startCopy b =>
    refine ⟨⟨rfl, rfl, rfl⟩, fun _ _ => rfl, ?_, by simp [Pc.holds, Pc.scenario, Console.startCopy],
      by simp [Console.startCopy]⟩
    intro d _ hd
    simp [Console.startCopy, hd]
  case copied b d con h =>
    unfold Console.finishCopy at h
    split at h <;> cases h
    refine ⟨⟨rfl, rfl, rfl⟩, fun _ _ => rfl, ?_, ?_, by simp⟩
    · intro d' hd' hm
      have : d' ≠ d := fun h => hd' (by rw [h]; rfl)
      exact (List.mem_erase_of_ne this).2 hm
    · cases b <;> simp [Pc.holds, Pc.scenario]
  case take d m q h =>
    refine ⟨same _, fun _ _ => rfl, fun _ _ => id, ?_, by simp⟩
    simp [h, Pc.holds, Pc.scenario]
    omega
  case tell d sc =>
    refine ⟨⟨rfl, rfl, rfl⟩, ?_, fun _ _ => id, ?_, by simp [Console.scenarioStarted]⟩
    · intro d' hd'
      have : d ≠ d' := fun h => hd' (by rw [h]; rfl)
      simp [Console.scenarioStarted, Console.entries, List.filter_append, this]
    · cases sc <;> simp [Pc.holds, Pc.scenario, Console.scenarioStarted, Scenario.isMutant]
  case startPhase d sc p todo rs con h =>
    obtain ⟨l, hl, rfl⟩ := Option.map_eq_some_iff.1 h
    refine ⟨⟨rfl, rfl, rfl⟩, ?_, fun _ _ => id, by simp [Pc.holds, Pc.scenario], by simp⟩
    intro d' hd'
    exact updateFirst_frame hl d' fun h => hd' (by rw [h]; rfl)
  case exits d sc p todo rs dur status con hc hi h =>
    obtain ⟨l, hl, rfl⟩ := Option.map_eq_some_iff.1 h
    refine ⟨⟨rfl, rfl, rfl⟩, ?_, fun _ _ => id, by simp [Pc.holds, Pc.scenario], by simp⟩
    intro d' hd'
    exact updateFirst_frame hl d' fun h => hd' (by rw [h]; rfl)
  case tellFinished d sc rs text hm =>
    refine ⟨⟨rfl, rfl, rfl⟩, ?_, fun _ _ => id, ?_, ?_⟩
    · intro d' hd'
      have hne : d ≠ d' := fun h => hd' (by rw [h]; rfl)
      simp only [Console.scenarioFinished, Console.entries, List.filter_filter]
      apply List.filter_congr
      intro e _
      by_cases he : e.1 = d' <;> simp [he]
      exact Ne.symm hne
    · cases sc <;> simp [Pc.holds, Pc.scenario, Console.scenarioFinished, Scenario.isMutant]
    · cases sc <;> simp [Console.scenarioFinished, Scenario.isMutant]
  case tellPanic d sc rs hm =>
    refine ⟨⟨rfl, rfl, rfl⟩, ?_, fun _ _ => id, ?_, ?_⟩
    · intro d' hd'
      have hne : d ≠ d' := fun h => hd' (by rw [h]; rfl)
      simp only [Console.scenarioFinished, Console.entries, List.filter_filter]
      apply List.filter_congr
      intro e _
      by_cases he : e.1 = d' <;> simp [he]
      exact Ne.symm hne
    · cases sc <;> simp [Pc.holds, Pc.scenario, Console.scenarioFinished, Scenario.isMutant]
    · cases sc <;> simp [Console.scenarioFinished, Scenario.isMutant]
  case unreadable d sc rs hc =>
    refine ⟨⟨rfl, rfl, rfl⟩, ?_, fun _ _ => id, ?_, ?_⟩
    · intro d' hd'
      have hne : d ≠ d' := fun h => hd' (by rw [h]; rfl)
      simp only [Console.scenarioFinished, Console.entries, List.filter_filter]
      apply List.filter_congr
      intro e _
      by_cases he : e.1 = d' <;> simp [he]
      exact Ne.symm hne
    · cases sc <;> simp [Pc.holds, Pc.scenario, Console.scenarioFinished, Scenario.isMutant]
    · cases sc <;> simp [Console.scenarioFinished, Scenario.isMutant]
  case apply h =>
    obtain ⟨_, rfl, _⟩ := h.frame
    rcases h.pc with rfl | rfl <;>
      exact ⟨same _, fun _ _ => rfl, fun _ _ => id, by simp [Pc.holds, Pc.scenario], by simp⟩
  case revert h =>
    obtain ⟨_, rfl, _⟩ := h.frame
    rcases h.pc with rfl | rfl <;>
      exact ⟨same _, fun _ _ => rfl, fun _ _ => id, by simp [Pc.holds, Pc.scenario], by simp⟩
  case failRevert h =>
    obtain ⟨_, rfl, _⟩ := h.frame
    rcases h.pc with rfl | rfl <;>
      exact ⟨same _, fun _ _ => rfl, fun _ _ => id, by simp [Pc.holds, Pc.scenario], by simp⟩
  all_goals exact ⟨same _, fun _ _ => rfl, fun _ _ => id, by simp [Pc.holds, Pc.scenario], by simp⟩

structure ConsoleInv (cfg : Config) (s : State) : Prop where
  ok : ∀ (i : Nat) pc, s.workers[i]? = some pc → ConsoleOk s.sh.console pc
  dir0 : ∀ d, s.sh.dir0 = some d → s.sh.console.entries d = []
  fresh : ∀ d, s.sh.nextDir ≤ d → s.sh.console.entries d = []
  setup : s.main = .setup → s.sh.console.scenarios = []
  panic : s.sh.panicked ≠ some .console
  count : s.sh.console.done + (s.workers.map Pc.holds).sum + s.sh.queue.length ≤ cfg.mutants.length
  total : s.main = .preparing ∨ s.main = .baseline ∨ s.main = .testing →
    s.sh.console.nMutants = cfg.mutants.length
  started : s.main = .testing → s.sh.console.mutantsStarted = true
  done : s.sh.console.done ≠ 0 → s.sh.console.mutantsStarted = true ∧
    s.sh.console.nMutants = cfg.mutants.length

theorem consoleInv_init (cfg : Config) : ConsoleInv cfg (init cfg) := by
  constructor <;> simp [init, Console.entries]

theorem ConsoleOk.frame {c c' : Console} {pc : Pc}
    (he : ∀ d, pc.dir = some d → c'.entries d = c.entries d)
    (hc : ∀ d, pc.dir = some d → d ∈ c.copies → d ∈ c'.copies) (h : ConsoleOk c pc) :
    ConsoleOk c' pc := by
  cases pc <;> simp only [ConsoleOk, Pc.dir, Option.some.injEq, forall_eq'] at * <;> simp_all

/-- A step of a thread about which the console knows enough does not panic there. -/
theorem WStep.consoleOk {cfg sh c pc sh' pc'} (h : WStep cfg sh c pc sh' pc')
    (hp : sh.panicked ≠ some .console) (hok : ConsoleOk sh.console pc)
    (h0 : ∀ d, sh.dir0 = some d → sh.console.entries d = [])
    (hfresh : ∀ d, sh.nextDir ≤ d → sh.console.entries d = []) :
    ConsoleOk sh'.console pc' ∧ sh'.panicked ≠ some .console := by
  cases h
  case takeDir0 d h => exact ⟨h0 d h, hp⟩
  case startCopy b =>
    exact ⟨⟨by simp [Console.startCopy], hfresh _ (Nat.le_refl _)⟩, hp⟩
  case copied b d con h =>
    unfold Console.finishCopy at h
    split at h <;> cases h
    cases b <;> exact ⟨hok.2, hp⟩
  case copyPanic b d h =>
    have := hok.1
    simp [Console.finishCopy, this] at h
  case tell d sc =>
    have he : (sh.console.scenarioStarted d).entries d = [(d, none)] := by
      have : sh.console.entries d = [] := hok
      unfold Console.entries at this
      simp [Console.scenarioStarted, Console.entries, List.filter_append, this]
    cases sc <;> exact ⟨he, hp⟩
  case startPhase d sc p todo rs con h =>
    obtain ⟨con', h1, h2⟩ := Console.phaseStarted_ok p hok
    rw [h1] at h
    cases h
    exact ⟨h2, hp⟩
  case startPhasePanic d sc p todo rs h =>
    obtain ⟨con', h1, h2⟩ := Console.phaseStarted_ok p hok
    rw [h1] at h
    cases h
  case exits d sc p todo rs dur status con hc hi h =>
    obtain ⟨con', h1, h2⟩ := Console.phaseFinished_ok hok
    rw [h1] at h
    cases h
    exact ⟨h2, hp⟩
  case exitsPanic d sc p todo rs hi h =>
    obtain ⟨con', h1, h2⟩ := Console.phaseFinished_ok hok
    rw [h1] at h
    cases h
  case tellFinished d sc rs text hm =>
    have he : (sh.console.scenarioFinished d sc.isMutant).entries d = [] := by
      simp only [Console.scenarioFinished, Console.entries, List.filter_filter]
      simp
    cases sc <;> exact ⟨he, hp⟩
  case apply h =>
    obtain ⟨_, rfl, _⟩ := h.frame
    rcases h.pc with rfl | rfl
    · exact ⟨hok, hp⟩
    · exact ⟨trivial, hp⟩
  case revert h =>
    obtain ⟨_, rfl, _⟩ := h.frame
    rcases h.pc with rfl | rfl
    · exact ⟨hok, hp⟩
    · exact ⟨trivial, hp⟩
  case failRevert h =>
    obtain ⟨_, rfl, _⟩ := h.frame
    rcases h.pc with rfl | rfl
    · exact ⟨trivial, hp⟩
    · exact ⟨trivial, hp⟩
  all_goals first
    | exact ⟨hok, hp⟩
    | exact ⟨trivial, hp⟩
    | exact ⟨trivial, by simp⟩

theorem ConsoleInv.spawn {cfg s d pc} (hs : ConsoleInv cfg s) (hw : s.workers = [pc])
    (hd : s.sh.console.entries d = []) (hm : s.main = .preparing ∨ s.main = .baseline) :
    ConsoleInv cfg (spawn cfg s d) := by
  have hcount := hs.count
  have htotal : s.sh.console.nMutants = cfg.mutants.length := hs.total (by rcases hm with h | h <;> simp [h])
  refine ⟨?_, ?_, hs.fresh, by simp [Lab.spawn], hs.panic, ?_, fun _ => htotal, fun _ => rfl,
    fun _ => ⟨rfl, htotal⟩⟩
  · intro i pc hi; rw [spawn_worker hi]; trivial
  · intro d' hd'; cases hd'; exact hd
  · simp only [Lab.spawn, List.map_replicate]
    have : (List.replicate cfg.nThreads (Pc.holds .new)).sum = 0 := by
      simp [Pc.holds, Pc.scenario]
    rw [this]
    omega

theorem ConsoleInv.step {cfg s e s'} (hshape : Shape cfg s) (hdirs : Dirs cfg s)
    (hs : ConsoleInv cfg s) (hst : step cfg s e = some s') : ConsoleInv cfg s' := by
  rcases step_cases hst with ⟨_, _, rfl⟩ | ⟨ok, _, hm⟩ | ⟨i, c, pc, sh', pc', _, hpc, hw, rfl⟩
  · exact ⟨hs.ok, hs.dir0, hs.fresh, hs.setup, hs.panic, hs.count, hs.total, hs.started, hs.done⟩
  · cases mstep_rel hm
    case prepare h he =>
      have hcount := hs.count
      have hworkers : s.workers = [] := by have := hshape.count; rwa [h] at this
      have hsc := hs.setup h
      refine ⟨?_, hs.dir0, hs.fresh, by simp, hs.panic, ?_, fun _ => rfl, by simp,
        fun hd => ⟨(hs.done hd).1, rfl⟩⟩
      · intro i pc hi
        cases i with
        | zero =>
          cases Option.some.inj hi
          split
          · simp [ConsoleOk, Console.entries, hsc]
          · trivial
        | succ i => cases hi
      · rw [hworkers] at hcount
        simp only [List.map_cons, List.map_nil, List.sum_cons, List.sum_nil]
        have : (if cfg.inPlace = true then Pc.prepared 0 else .mustCopy true).holds = 0 := by
          split <;> rfl
        rw [this]
        simpa using hcount
    case baseline h d hw hb =>
      have hcount := hs.count
      refine ⟨?_, hs.dir0, hs.fresh, by simp, hs.panic, ?_, fun _ => hs.total (.inl h), by simp,
        hs.done⟩
      · intro i pc hi
        cases i with
        | zero =>
          cases Option.some.inj hi
          exact hs.ok 0 (.prepared d) (by simp [hw])
        | succ i => cases hi
      · rw [hw] at hcount
        exact hcount
    case skipBaseline h d hw hb =>
      exact hs.spawn hw (hs.ok 0 (.prepared d) (by simp [hw])) (.inl h)
    case passed h d o hw ho =>
      exact hs.spawn hw (hs.ok 0 (.baselineDone d o) (by simp [hw])) (.inr h)
    all_goals exact ⟨hs.ok, hs.dir0, hs.fresh, by simp, hs.panic, hs.count, by simp, by simp, hs.done⟩
  · obtain ⟨hsame, hent, hcop, hcnt, hdone⟩ := hw.console_frame
    obtain ⟨hok', hpanic'⟩ := hw.consoleOk hs.panic (hs.ok i pc hpc) hs.dir0 hs.fresh
    have hcases := hw.dir_cases
    have hmono : s.sh.nextDir ≤ sh'.nextDir := by
      rcases hcases with ⟨_, _, h⟩ | ⟨_, _, h, _⟩ | ⟨d, _, _, _, _, h⟩ | ⟨b, _, _, _, h⟩ <;> omega
    have hd0 : ∀ d, sh'.dir0 = some d → s.sh.dir0 = some d := by
      rcases hcases with ⟨_, h, _⟩ | ⟨_, h, _⟩ | ⟨d, _, _, _, h, _⟩ | ⟨b, _, _, h, _⟩ <;> simp [h]
    refine ⟨?_, ?_, ?_, ?_, hpanic', ?_, ?_, ?_, ?_⟩
    · intro j q hj
      rcases getElem?_set_cases hj with ⟨_, rfl⟩ | ⟨hji, hj⟩
      · exact hok'
      · have hne : ∀ d, q.dir = some d → pc.dir ≠ some d := fun d hd h =>
          hji (hdirs.distinct j i q pc d hj hpc hd h)
        exact (hs.ok j q hj).frame (fun d hd => hent d (hne d hd)) fun d hd => hcop d (hne d hd)
    · intro d hd
      have := hd0 d hd
      rw [hent d fun h => hdirs.distinct0 i pc d hpc h this]
      exact hs.dir0 d this
    · intro d hd
      have hd' : s.sh.nextDir ≤ d := Nat.le_trans hmono hd
      rw [hent d ?_]
      · exact hs.fresh d hd'
      · intro h
        have := hdirs.ok i pc d hpc h
        have hn := hdirs.next
        unfold DirOk at this
        split at this <;> omega
    · intro hm
      have := hshape.count
      rw [hm] at this
      rw [this] at hpc
      cases hpc
    · have h1 := sum_set Pc.holds pc' hpc
      have h2 := hs.count
      simp only
      omega
    · intro hm
      rw [hsame.2.2]
      exact hs.total hm
    · intro hm
      rw [hsame.2.1]
      exact hs.started hm
    · intro hd
      by_cases h : sh'.console.done = s.sh.console.done
      · rw [hsame.2.1, hsame.2.2]
        exact hs.done (by rwa [h] at hd)
      · obtain ⟨d, m, rs, rfl⟩ := hdone h
        have hm : s.main = .testing := by
          have := hshape.fits i _ hpc
          cases hm : s.main <;> simp [hm, Fits] at this
          rfl
        rw [hsame.2.1, hsame.2.2]
        exact ⟨hs.started hm, hs.total (.inr (.inr hm))⟩

theorem reachable_console {cfg s} (hj : cfg.JobsOk) (h : Reachable cfg s) : ConsoleInv cfg s := by
  have : Shape cfg s ∧ Dirs cfg s ∧ ConsoleInv cfg s :=
    reachable_invariant (P := fun s => Shape cfg s ∧ Dirs cfg s ∧ ConsoleInv cfg s)
      ⟨shape_init cfg, dirs_init cfg, consoleInv_init cfg⟩
      (fun s e s' ⟨h1, h2, h3⟩ hst => ⟨h1.step hst, h2.step hj hst, h3.step h1 h2 hst⟩) h
  exact this.2.2

end CM.Lab
