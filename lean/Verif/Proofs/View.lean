import Verif.Model.View
import Verif.Proofs.LabPrint
import Verif.Proofs.LabConsole
/-! What the progress display shows. -/
namespace CM.View
open CM.Lab CM.Props CM.Spec

/-- The scenario that is shown for a thread. -/
def shown : Pc → Option Scenario
  | .started _ sc | .diffed _ sc | .ready _ sc _ _ | .command _ sc _ _ _ | .failing _ sc | .reverted _ sc _
  | .recorded _ sc _ => some sc
  | _ => none

/-- The counters for some outcomes. -/
def countsOf (told : List ScenarioOutcome) : Counts :=
  told.foldl (fun c o => match o.summary with
    | some k => c.add k
    | none => c) {}

theorem countsOf_append (told : List ScenarioOutcome) (o : ScenarioOutcome) :
    countsOf (told ++ [o]) = match o.summary with
      | some k => (countsOf told).add k
      | none => countsOf told := by
  unfold countsOf
  rw [List.foldl_append]
  rfl

/-- The rows of a directory. -/
def rowsOf (names : List (DirId × Scenario)) (d : DirId) : List (DirId × Scenario) := names.filter fun e => e.1 = d

theorem updateFirst_fst {d f l l'} (h : Console.updateFirst d f l = some l') : l'.map (·.1) = l.map (·.1) := by
  induction l generalizing l' with
  | nil => cases h
  | cons e l ih =>
    obtain ⟨d1, p⟩ := e
    simp only [Console.updateFirst] at h
    split at h
    · obtain ⟨q, _, rfl⟩ := Option.map_eq_some_iff.1 h
      rfl
    · obtain ⟨q, hq, rfl⟩ := Option.map_eq_some_iff.1 h
      rw [List.map_cons, List.map_cons, ih hq]

theorem filter_fst {α} (l : List (DirId × α)) (d : DirId) :
    (l.filter fun e => e.1 != d).map (·.1) = (l.map (·.1)).filter (· != d) := by
  rw [List.filter_map]
  rfl

/-- What a step of a thread does to the display: the directories of both lists, the names, and the counters. -/
theorem thread_facts {cfg sh c pc sh' pc'} (h : WStep cfg sh c pc sh' pc') (s : State) :
    (s.names.map (·.1) = sh.console.scenarios.map (·.1) →
      (s.threadStep pc pc').names.map (·.1) = sh'.console.scenarios.map (·.1)) ∧
    (((s.threadStep pc pc').names = s.names ∧ pc'.dir = pc.dir ∧ (shown pc' = shown pc ∨ pc'.isFailed = true) ∧
        (pc.isFailed = true → pc'.isFailed = true)) ∨
      ((s.threadStep pc pc').names = s.names ∧ pc'.dir = none ∧ shown pc = none ∧ pc.isFailed = false) ∨
      (∃ d, (s.threadStep pc pc').names = s.names ∧ pc.dir = none ∧ pc'.dir = some d ∧ shown pc' = none ∧
        (sh.dir0 = some d ∨ d = sh.nextDir) ∧ pc.isFailed = false) ∨
      (∃ d sc, (s.threadStep pc pc').names = s.names ++ [(d, sc)] ∧ pc.dir = some d ∧ pc'.dir = some d ∧
        shown pc = none ∧ shown pc' = some sc ∧ pc.isFailed = false) ∨
      (∃ d, (s.threadStep pc pc').names = s.names.filter (fun e => e.1 != d) ∧ pc.dir = some d ∧ pc'.dir = some d ∧
        shown pc' = none)) ∧
    ((sh'.out.lab.outcomes = sh.out.lab.outcomes ∧ (s.threadStep pc pc').counts = s.counts ∧ pc.untold = none ∧
        pc'.untold = none ∧ sh'.console.done = sh.console.done) ∨
      (∃ o, sh'.out.lab.outcomes = sh.out.lab.outcomes ++ [o] ∧ (s.threadStep pc pc').counts = s.counts ∧
        pc.untold = none ∧ (pc'.untold = some o ∨ (pc'.untold = none ∧ pc'.isFailed = true)) ∧
        sh'.console.done = sh.console.done) ∨
      (∃ o, sh'.out.lab.outcomes = sh.out.lab.outcomes ∧ pc.untold = some o ∧ pc'.untold = none ∧
        (s.threadStep pc pc').counts = (match o.summary with
          | some k => s.counts.add k
          | none => s.counts) ∧
        sh'.console.done = sh.console.done + if o.scenario.isMutant then 1 else 0)) := by
  have e : ∀ {d sc rs} pc', (s.threadStep (.recorded d sc rs) pc').names = s.names.filter (fun e => e.1 != d) ∧
      (s.threadStep (.recorded d sc rs) pc').counts = (match (ScenarioOutcome.mk sc rs).summary with
        | some k => s.counts.add k
        | none => s.counts) := fun pc' => ⟨rfl, rfl⟩
  have told : ∀ (d : DirId) (sc : Scenario) (rs : List PhaseResult),
      s.names.map (·.1) = sh.console.scenarios.map (·.1) →
        (s.names.filter fun e => e.1 != d).map (·.1) = (sh.console.scenarioFinished d sc.isMutant).scenarios.map (·.1) := by
    intro d sc rs h
    show _ = (sh.console.scenarios.filter fun e => e.1 != d).map (·.1)
    rw [filter_fst, filter_fst, h]
  have ddone : ∀ (d : DirId) (sc : Scenario), (sh.console.scenarioFinished d sc.isMutant).done =
      sh.console.done + if sc.isMutant then 1 else 0 := by
    intro d sc
    unfold Console.scenarioFinished
    cases sc.isMutant <;> rfl
  cases h
  case takeDir0 d h =>
    exact ⟨id, .inr (.inr (.inl ⟨d, rfl, rfl, rfl, rfl, .inl h, rfl⟩)), .inl ⟨rfl, rfl, rfl, rfl, rfl⟩⟩
  case startCopy b =>
    exact ⟨id, .inr (.inr (.inl ⟨_, rfl, rfl, rfl, rfl, .inr rfl, rfl⟩)), .inl ⟨rfl, rfl, rfl, rfl, rfl⟩⟩
  case noDir0 h => exact ⟨id, .inl ⟨rfl, rfl, .inl rfl, (fun h => by cases h)⟩, .inl ⟨rfl, rfl, rfl, rfl, rfl⟩⟩
  case startCopyErr => exact ⟨id, .inr (.inl ⟨rfl, rfl, rfl, rfl⟩), .inl ⟨rfl, rfl, rfl, rfl, rfl⟩⟩
  case copyPanic => exact ⟨id, .inr (.inl ⟨rfl, rfl, rfl, rfl⟩), .inl ⟨rfl, rfl, rfl, rfl, rfl⟩⟩
  case copyErr => exact ⟨id, .inr (.inl ⟨rfl, rfl, rfl, rfl⟩), .inl ⟨rfl, rfl, rfl, rfl, rfl⟩⟩
  case copied b d con h =>
    unfold Console.finishCopy at h
    split at h <;> cases h
    cases b <;> exact ⟨id, .inl ⟨rfl, rfl, .inl rfl, (fun h => by cases h)⟩, .inl ⟨rfl, rfl, rfl, rfl, rfl⟩⟩
  case tell d sc =>
    have hfst : s.names.map (·.1) = sh.console.scenarios.map (·.1) →
        (s.names ++ [(d, sc)]).map (·.1) = (sh.console.scenarioStarted d).scenarios.map (·.1) := by
      intro h
      simp [Console.scenarioStarted, h]
    cases sc <;> exact ⟨hfst, .inr (.inr (.inr (.inl ⟨d, _, rfl, rfl, rfl, rfl, rfl, rfl⟩))), .inl ⟨rfl, rfl, rfl, rfl, rfl⟩⟩
  case startPhase d sc p todo rs con h =>
    obtain ⟨l, hl, rfl⟩ := Option.map_eq_some_iff.1 h
    exact ⟨fun h => h.trans (updateFirst_fst hl).symm, .inl ⟨rfl, rfl, .inl rfl, (fun h => by cases h)⟩, .inl ⟨rfl, rfl, rfl, rfl, rfl⟩⟩
  case exits d sc p todo rs dur status con hc hi h =>
    obtain ⟨l, hl, rfl⟩ := Option.map_eq_some_iff.1 h
    exact ⟨fun h => h.trans (updateFirst_fst hl).symm, .inl ⟨rfl, rfl, .inl rfl, (fun h => by cases h)⟩, .inl ⟨rfl, rfl, rfl, rfl, rfl⟩⟩
  case tellFinished d sc rs text hm =>
    refine ⟨told d sc rs, .inr (.inr (.inr (.inr ⟨d, (e _).1, rfl, ?_, ?_⟩))), .inr (.inr ⟨_, rfl, rfl, ?_, (e _).2, ddone d sc⟩)⟩ <;>
      cases sc <;> rfl
  case tellPanic d sc rs hm =>
    exact ⟨told d sc rs, .inr (.inr (.inr (.inr ⟨d, (e _).1, rfl, rfl, rfl⟩))), .inr (.inr ⟨_, rfl, rfl, rfl, (e _).2, ddone d sc⟩)⟩
  case unreadable d sc rs hm =>
    exact ⟨told d sc rs, .inr (.inr (.inr (.inr ⟨d, (e _).1, rfl, rfl, rfl⟩))), .inr (.inr ⟨_, rfl, rfl, rfl, (e _).2, ddone d sc⟩)⟩
  case record d sc rs out h =>
    exact ⟨id, .inl ⟨rfl, rfl, .inl rfl, (fun h => by cases h)⟩,
      .inr (.inl ⟨_, add_outcomes (addOutcome_spec h).1, rfl, rfl, .inl rfl, rfl⟩)⟩
  case recordErr d sc rs out ws k hw h _ =>
    refine ⟨id, .inl ⟨rfl, rfl, .inr rfl, fun _ => rfl⟩, ?_⟩
    rcases writeAll_take hw h with h | h
    · exact .inl ⟨by rw [h], rfl, rfl, rfl, rfl⟩
    · exact .inr (.inl ⟨_, add_outcomes h, rfl, rfl, .inr ⟨rfl, rfl⟩, rfl⟩)
  case apply h =>
    obtain ⟨_, rfl, _⟩ := h.frame
    rcases h.pc with rfl | rfl
    · exact ⟨id, .inl ⟨rfl, rfl, .inl rfl, (fun h => by cases h)⟩, .inl ⟨rfl, rfl, rfl, rfl, rfl⟩⟩
    · exact ⟨id, .inl ⟨rfl, rfl, .inr rfl, (fun h => by cases h)⟩, .inl ⟨rfl, rfl, rfl, rfl, rfl⟩⟩
  case revert h =>
    obtain ⟨_, rfl, _⟩ := h.frame
    rcases h.pc with rfl | rfl
    · exact ⟨id, .inl ⟨rfl, rfl, .inl rfl, (fun h => by cases h)⟩, .inl ⟨rfl, rfl, rfl, rfl, rfl⟩⟩
    · exact ⟨id, .inl ⟨rfl, rfl, .inr rfl, (fun h => by cases h)⟩, .inl ⟨rfl, rfl, rfl, rfl, rfl⟩⟩
  case failRevert h =>
    obtain ⟨_, rfl, _⟩ := h.frame
    rcases h.pc with rfl | rfl <;>
      exact ⟨id, .inl ⟨rfl, rfl, .inr rfl, (fun h => by cases h)⟩, .inl ⟨rfl, rfl, rfl, rfl, rfl⟩⟩
  all_goals first
    | exact ⟨id, .inl ⟨rfl, rfl, .inl rfl, (fun h => by cases h)⟩, .inl ⟨rfl, rfl, rfl, rfl, rfl⟩⟩
    | exact ⟨id, .inl ⟨rfl, rfl, .inr rfl, (fun h => by cases h)⟩, .inl ⟨rfl, rfl, rfl, rfl, rfl⟩⟩

structure Inv (cfg : Lab.Config) (s : State) : Prop where
  rows : ∀ (i : Nat) pc d, s.lab.workers[i]? = some pc → pc.dir = some d → pc.isFailed = false →
    (∀ r, s.lab.main ≠ .returned r) → rowsOf s.names d = (shown pc).toList.map fun sc => (d, sc)
  only : (∀ r, s.lab.main ≠ .returned r) → ∀ e ∈ s.names, ∃ (i : Nat) (pc : Pc), s.lab.workers[i]? = some pc ∧ pc.dir = some e.1 ∧
    (shown pc ≠ none ∨ pc.isFailed = true)
  aligned : (∀ r, s.lab.main ≠ .returned r) → s.names.map (·.1) = s.lab.sh.console.scenarios.map (·.1)
  told : ∃ told lost, s.counts = countsOf told ∧
    s.lab.sh.out.lab.outcomes.Perm (told ++ s.lab.workers.filterMap Pc.untold ++ lost) ∧
    ((∀ pc ∈ s.lab.workers, pc.isFailed = false) → lost = []) ∧ s.lab.sh.console.done = countMutants told

theorem inv_init (cfg : Lab.Config) : Inv cfg (init cfg) := by
  refine ⟨?_, ?_, ?_, ?_⟩
  · intro i pc d h; cases h
  · intro _ e he; cases he
  · intro _; rfl
  · exact ⟨[], [], rfl, List.Perm.refl _, fun _ => rfl, rfl⟩

theorem countMutants_append (a b : List ScenarioOutcome) : countMutants (a ++ b) = countMutants a + countMutants b := by
  unfold countMutants; exact List.countP_append

theorem step_lab {cfg s e s'} (h : step cfg s e = some s') : Lab.step cfg s.lab e = some s'.lab := by
  unfold step at h
  obtain ⟨l, hl, rfl⟩ := Option.map_eq_some_iff.1 h
  rw [hl]
  cases e with
  | interrupt => rfl
  | main ok => rfl
  | worker i c => dsimp only; split <;> rfl

theorem Inv.step {cfg s e s'} (hd : Dirs cfg s.lab) (hsh : Shape cfg s.lab) (hi : Inv cfg s) (hst : step cfg s e = some s') :
    Inv cfg s' := by
  unfold View.step at hst
  obtain ⟨l, hl, hst⟩ := Option.map_eq_some_iff.1 hst
  rcases step_cases hl with ⟨hev, _, rfl⟩ | ⟨ok, hev, hm⟩ | ⟨i, c, pc, sh', pc', hev, hpc, hw, rfl⟩
  · rw [hev] at hst
    subst hst
    exact ⟨hi.rows, hi.only, hi.aligned, hi.told⟩
  · rw [hev] at hst
    subst hst
    have hcounts : (s.mainStep s.lab.main l.main).counts = s.counts := by
      unfold State.mainStep
      split <;> rfl
    have hnames : (∀ r, l.main ≠ .returned r) → (s.mainStep s.lab.main l.main).names = s.names := by
      intro hr
      unfold State.mainStep
      split
      · rename_i r hx; exact (hr _ hx).elim
      · rfl
    -- the run goes on with other threads
    have go : ∀ s1 : State, s1.counts = s.counts → s1.names = s.names →
        s1.lab.sh.console.scenarios = s.lab.sh.console.scenarios →
        s1.lab.sh.console.done = s.lab.sh.console.done → s1.lab.sh.out = s.lab.sh.out → s.names = [] →
        s.lab.workers.filterMap Pc.untold = [] → s1.lab.workers.filterMap Pc.untold = [] →
        ((∀ pc ∈ s1.lab.workers, pc.isFailed = false) → (∀ pc ∈ s.lab.workers, pc.isFailed = false)) →
        (∀ pc ∈ s1.lab.workers, shown pc = none) → (∀ r, s.lab.main ≠ .returned r) → Inv cfg s1 := by
      intro s1 hc hn h1 h2 h3 h4 h5 h6 h7 h8 hm
      refine ⟨?_, ?_, fun _ => ?_, ?_⟩
      · intro i pc d hpc _ _ _
        rw [hn, h4, h8 pc (List.mem_of_getElem? hpc)]; rfl
      · intro _ e he
        rw [hn, h4] at he; cases he
      · rw [hn, h1]; exact hi.aligned hm
      · obtain ⟨told, lost, t1, t2, t3, t4⟩ := hi.told
        exact ⟨told, lost, hc.trans t1, by rw [h3, h6, ← h5]; exact t2, fun h => t3 (h7 h), by rw [h2, t4]⟩
    -- the run ends
    have ends : ∀ (s1 : State) (r), s1.lab.main = .returned r → s1.counts = s.counts → s1.lab.sh.console = s.lab.sh.console →
        s1.lab.sh.out = s.lab.sh.out → s1.lab.workers = s.lab.workers → Inv cfg s1 := by
      intro s1 r hr hc h1 h2 h3
      refine ⟨?_, fun h => (h r hr).elim, fun h => (h r hr).elim, ?_⟩
      · intro i pc d _ _ _ h; exact (h r hr).elim
      · obtain ⟨told, lost, t1, t2, t3, t4⟩ := hi.told
        exact ⟨told, lost, hc.trans t1, by rw [h2, h3]; exact t2, fun h => t3 (by rw [← h3]; exact h), by rw [h1, t4]⟩
    have empty : ∀ pc d, s.lab.workers = [pc] → pc.dir = some d → shown pc = none → pc.isFailed = false →
        (∀ r, s.lab.main ≠ .returned r) → s.names = [] := by
      intro pc d hw hdir hs hf hm
      cases hx : s.names with
      | nil => rfl
      | cons e es =>
        obtain ⟨j, q, hq, _, hqs⟩ := hi.only hm e (by rw [hx]; exact List.mem_cons_self ..)
        rw [hw] at hq
        have : q = pc := List.mem_singleton.1 (List.mem_of_getElem? hq)
        subst this
        rcases hqs with h | h
        · exact (h hs).elim
        · rw [hf] at h; cases h
    have new : ∀ n, (List.replicate n Pc.new).filterMap Pc.untold = [] := by
      intro n
      induction n with
      | zero => rfl
      | succ n ih => rw [List.replicate_succ, List.filterMap_cons]; exact ih
    have newShown : ∀ n, ∀ pc ∈ List.replicate n Pc.new, shown pc = none := by
      intro n pc h
      rw [(List.mem_replicate.1 h).2]; rfl
    have notReturned : ∀ {m : MainPc}, s.lab.main = m → (∀ r, m ≠ .returned r) → ∀ r, s.lab.main ≠ .returned r :=
      fun h hm r hr => hm r (h.symm.trans hr)
    cases mstep_rel hm
    case prepare h he =>
      have hz := hsh.count
      rw [h] at hz
      have hn0 : s.names = [] := by
        cases hx : s.names with
        | nil => rfl
        | cons e es =>
          obtain ⟨j, q, hq, _⟩ := hi.only (notReturned h fun r hr => by cases hr) e (by rw [hx]; exact List.mem_cons_self ..)
          rw [hz] at hq; cases hq
      refine go _ hcounts (hnames fun r hr => by cases hr) rfl rfl rfl hn0 (by rw [hz]; rfl) ?_ (fun _ => by rw [hz]; intro pc hpc; cases hpc) ?_
        (notReturned h fun r hr => by cases hr)
      · cases cfg.inPlace <;> rfl
      · intro pc hpc
        rw [List.mem_singleton.1 hpc]
        cases cfg.inPlace <;> rfl
    case baseline h d hw hb =>
      refine go _ hcounts (hnames fun r hr => by cases hr) rfl rfl rfl (empty _ d hw rfl rfl rfl (notReturned h fun r hr => by cases hr)) (by rw [hw]; rfl) rfl
        (fun _ => by rw [hw]; intro pc hpc; rw [List.mem_singleton.1 hpc]; rfl) ?_
        (notReturned h fun r hr => by cases hr)
      intro pc hpc
      rw [List.mem_singleton.1 hpc]; rfl
    case skipBaseline h d hw hb =>
      exact go _ hcounts (hnames fun r hr => by cases hr) rfl rfl rfl (empty _ d hw rfl rfl rfl (notReturned h fun r hr => by cases hr)) (by rw [hw]; rfl) (new _)
        (fun _ => by rw [hw]; intro pc hpc; rw [List.mem_singleton.1 hpc]; rfl) (newShown _)
        (notReturned h fun r hr => by cases hr)
    case passed h d o hw ho =>
      exact go _ hcounts (hnames fun r hr => by cases hr) rfl rfl rfl (empty _ d hw rfl rfl rfl (notReturned h fun r hr => by cases hr)) (by rw [hw]; rfl) (new _)
        (fun _ => by rw [hw]; intro pc hpc; rw [List.mem_singleton.1 hpc]; rfl) (newShown _)
        (notReturned h fun r hr => by cases hr)
    all_goals exact ends _ _ rfl hcounts rfl rfl rfl
  · rw [hev] at hst
    have hlt : i < s.lab.workers.length := (List.getElem?_eq_some_iff.1 hpc).1
    have h2 : (s.lab.workers.set i pc')[i]? = some pc' := by simp [hlt]
    simp only [hpc, h2] at hst
    subst hst
    obtain ⟨hal, hn, hc⟩ := thread_facts hw s
    generalize hs1 : s.threadStep pc pc' = s1 at hal hn hc
    have old : ∀ (j : Nat) (q : Pc), (s.lab.workers.set i pc')[j]? = some q → (j = i ∧ q = pc') ∨ (j ≠ i ∧ s.lab.workers[j]? = some q) :=
      fun j q h => getElem?_set_cases h
    have keep : ∀ (j : Nat) (q : Pc), j ≠ i → s.lab.workers[j]? = some q → (s.lab.workers.set i pc')[j]? = some q := by
      intro j q hj h
      rw [List.getElem?_set_ne (Ne.symm hj)]; exact h
    have fresh : (∀ r, s.lab.main ≠ .returned r) → ∀ d, (s.lab.sh.dir0 = some d ∨ d = s.lab.sh.nextDir) → rowsOf s.names d = [] := by
      intro hm d hdd
      refine List.filter_eq_nil_iff.2 fun e he => ?_
      obtain ⟨j, q, hq, hqd, _⟩ := hi.only hm e he
      simp only [decide_eq_true_eq]
      rintro rfl
      rcases hdd with h | h
      · exact hd.distinct0 j q _ hq hqd h
      · have hok := hd.ok j q _ hq hqd
        have := hd.next
        unfold DirOk at hok
        split at hok <;> omega
    refine ⟨?_, ?_, fun hm => hal (hi.aligned hm), ?_⟩
    · intro j q d hq hqd hqf hm
      show rowsOf s1.names d = _
      rcases old j q hq with ⟨rfl, rfl⟩ | ⟨hji, hq⟩
      · rcases hn with ⟨h1, h2, h3, h4⟩ | ⟨_, h2, _⟩ | ⟨d', h1, _, h3, h4, h5, _⟩ | ⟨d', sc, h1, h2, h3, h4, h5, h6⟩ |
          ⟨d', h1, h2, h3, h4⟩
        · have hpf : pc.isFailed = false := by
            cases hx : pc.isFailed with
            | false => rfl
            | true => rw [h4 hx] at hqf; cases hqf
          rw [h1, hi.rows j pc d hpc (h2.symm.trans hqd) hpf hm]
          rcases h3 with h3 | h3
          · rw [h3]
          · rw [h3] at hqf; cases hqf
        · rw [h2] at hqd; cases hqd
        · rw [h3] at hqd
          cases hqd
          rw [h1, fresh hm d h5, h4]; rfl
        · rw [h3] at hqd
          cases hqd
          have := hi.rows j pc d hpc h2 h6 hm
          rw [h4] at this
          rw [h1, h5]
          unfold rowsOf at this ⊢
          rw [List.filter_append, this]
          simp
        · rw [h3] at hqd
          cases hqd
          rw [h1, h4]
          refine List.filter_eq_nil_iff.2 fun e he => ?_
          have := (List.mem_filter.1 he).2
          simpa using this
      · have hrow := hi.rows j q d hq hqd hqf hm
        have hne : ∀ d', pc.dir = some d' → d' ≠ d := by
          rintro d' hp rfl
          exact hji (hd.distinct j i q pc _ hq hpc hqd hp)
        rw [← hrow]
        rcases hn with ⟨h1, _⟩ | ⟨h1, _⟩ | ⟨d', h1, _⟩ | ⟨d', sc, h1, h2, _⟩ | ⟨d', h1, h2, _⟩
        · rw [h1]
        · rw [h1]
        · rw [h1]
        · rw [h1]
          unfold rowsOf
          rw [List.filter_append]
          simp [hne d' h2]
        · rw [h1]
          unfold rowsOf
          rw [List.filter_filter]
          refine List.filter_congr fun e _ => ?_
          by_cases he : e.1 = d
          · have := hne d' h2
            simp [he, Ne.symm this]
          · simp [he]
    · intro hm e he
      show ∃ (j : Nat) (q : Pc), (s.lab.workers.set i pc')[j]? = some q ∧ q.dir = some e.1 ∧ (shown q ≠ none ∨ q.isFailed = true)
      have he : e ∈ s1.names := he
      have move : e ∈ s.names → (pc.dir = some e.1 → (shown pc ≠ none ∨ pc.isFailed = true) → pc'.dir = some e.1 ∧ (shown pc' ≠ none ∨ pc'.isFailed = true)) →
          ∃ (j : Nat) (q : Pc), (s.lab.workers.set i pc')[j]? = some q ∧ q.dir = some e.1 ∧ (shown q ≠ none ∨ q.isFailed = true) := by
        intro he hmove
        obtain ⟨j, q, hq, hqd, hqs⟩ := hi.only hm e he
        by_cases hji : j = i
        · subst hji
          rw [hpc] at hq
          cases hq
          exact ⟨j, pc', h2, hmove hqd hqs⟩
        · exact ⟨j, q, keep j q hji hq, hqd, hqs⟩
      rcases hn with ⟨h1, hdir, h3, h4⟩ | ⟨h1, _, h3, h4⟩ | ⟨d', h1, h3, _⟩ | ⟨d', sc, h1, h3, h4, h5, h6, h7⟩ | ⟨d', h1, h3, _⟩
      · rw [h1] at he
        refine move he fun hx hs => ⟨hdir.trans hx, ?_⟩
        rcases h3 with h3 | h3
        · rcases hs with hs | hs
          · exact .inl (h3 ▸ hs)
          · exact .inr (h4 hs)
        · exact .inr h3
      · rw [h1] at he
        refine move he fun _ hs => ?_
        rcases hs with hs | hs
        · exact (hs h3).elim
        · rw [h4] at hs; cases hs
      · rw [h1] at he
        exact move he fun hx _ => by rw [h3] at hx; cases hx
      · rw [h1] at he
        rcases List.mem_append.1 he with he | he
        · refine move he fun hx hs => ⟨by rw [h4, ← h3]; exact hx, .inl (by rw [h6]; exact fun h => by cases h)⟩
        · rw [List.mem_singleton.1 he]
          exact ⟨i, pc', h2, h4, .inl (by rw [h6]; exact fun h => by cases h)⟩
      · rw [h1] at he
        obtain ⟨he, hne⟩ := List.mem_filter.1 he
        refine move he fun hx _ => ?_
        rw [h3] at hx
        cases hx
        simp at hne
    · obtain ⟨told, lost, t1, t2, t3, t4⟩ := hi.told
      obtain ⟨rest, hr1, hr2⟩ := filterMap_set_perm Pc.untold pc' hpc
      have cnt : ∀ o, s.lab.sh.out.lab.outcomes.count o = told.count o + (pc.untold.toList.count o + rest.count o) + lost.count o := by
        intro o
        rw [t2.count_eq, List.count_append, List.count_append, hr1.count_eq, List.count_append]
      have goal : ∀ told' lost', s1.counts = countsOf told' →
          (∀ o, sh'.out.lab.outcomes.count o = told'.count o + (pc'.untold.toList.count o + rest.count o) + lost'.count o) →
          ((∀ pc ∈ s.lab.workers.set i pc', pc.isFailed = false) → lost' = []) → sh'.console.done = countMutants told' →
          ∃ told lost, s1.counts = countsOf told ∧
            sh'.out.lab.outcomes.Perm (told ++ (s.lab.workers.set i pc').filterMap Pc.untold ++ lost) ∧
            ((∀ pc ∈ s.lab.workers.set i pc', pc.isFailed = false) → lost = []) ∧ sh'.console.done = countMutants told := by
        intro told' lost' g1 g2 g3 g4
        refine ⟨told', lost', g1, List.perm_iff_count.2 fun o => ?_, g3, g4⟩
        rw [g2, List.count_append, List.count_append, hr2.count_eq, List.count_append]
      have none_lost : (∀ q ∈ s.lab.workers.set i pc', q.isFailed = false) → pc.isFailed = false → lost = [] := by
        intro hall hpf
        refine t3 fun q hq => ?_
        obtain ⟨j, hq⟩ := List.getElem?_of_mem hq
        by_cases hji : j = i
        · subst hji
          rw [hpc] at hq; cases hq; exact hpf
        · exact hall q (List.mem_of_getElem? (keep j q hji hq))
      have hpf : pc.isFailed = false := by cases hw <;> rfl
      rcases hc with ⟨c1, c2, c3, c4, c5⟩ | ⟨o, c1, c2, c3, c4, c5⟩ | ⟨o, c1, c2, c3, c4, c5⟩
      · refine goal told lost (c2.trans t1) (fun o => ?_) (fun h => none_lost h hpf) (c5.trans t4)
        rw [c1, cnt, c3, c4]
      · rcases c4 with c4 | ⟨c4, c6⟩
        · refine goal told lost (c2.trans t1) (fun o' => ?_) (fun h => none_lost h hpf) (c5.trans t4)
          rw [c1, List.count_append, cnt, c3, c4]
          simp only [Option.toList_none, Option.toList_some, List.count_nil]
          omega
        · refine goal told (lost ++ [o]) (c2.trans t1) (fun o' => ?_) (fun h => ?_) (c5.trans t4)
          · rw [c1, List.count_append, cnt, c3, c4, List.count_append]
            omega
          · rw [h pc' (List.mem_of_getElem? h2)] at c6; cases c6
      · refine goal (told ++ [o]) lost ?_ (fun o' => ?_) (fun h => none_lost h hpf) ?_
        · rw [c4, countsOf_append, t1]
        · rw [c1, cnt, c2, c3, List.count_append]
          simp only [Option.toList_none, Option.toList_some, List.count_nil]
          omega
        · rw [c5, t4, countMutants_append]
          unfold countMutants
          rw [List.countP_singleton]

theorem reachable_inv {cfg s} (hj : cfg.JobsOk) (h : Reachable cfg s) : Lab.Reachable cfg s.lab ∧ Inv cfg s := by
  obtain ⟨es, h⟩ := h
  have key : ∀ (es : List Lab.Event) (s s' : State), Lab.Reachable cfg s.lab ∧ Inv cfg s → exec cfg s es = some s' →
      Lab.Reachable cfg s'.lab ∧ Inv cfg s' := by
    intro es
    induction es with
    | nil => intro s s' h he; cases he; exact h
    | cons e es ih =>
      intro s s' ⟨h1, h2⟩ he
      obtain ⟨s1, hs1, he⟩ := Option.bind_eq_some_iff.1 he
      exact ih s1 s' ⟨h1.step (step_lab hs1), h2.step (reachable_dirs hj h1) (reachable_shape h1) hs1⟩ he
  exact key es _ s ⟨⟨[], rfl⟩, inv_init cfg⟩ h

end CM.View
