import Verif.Proofs.LabContent
import Verif.Props.Output
import Verif.Props.Outcome
import Verif.Proofs.Message
/-! What is recorded during a run. -/
namespace CM.Lab
open CM.Props CM.Spec

/-! ### The phases of a scenario -/

/-- All phases so far have succeeded and `todo` remains. -/
def InProgress (ps todo : List Phase) (rs : List PhaseResult) : Prop :=
  ps = rs.map (·.phase) ++ todo ∧ ∀ r ∈ rs, r.status.isSuccess = true

/-- A phase has not succeeded, and it is the last one. -/
def Ended (ps : List Phase) (rs : List PhaseResult) : Prop :=
  ∃ rs0 r rest, rs = rs0 ++ [r] ∧ ps = rs.map (·.phase) ++ rest ∧
    (∀ r ∈ rs0, r.status.isSuccess = true) ∧ r.status.isSuccess = false

/-- The phases have been run in order until the first that did not succeed. -/
def Complete (ps : List Phase) (rs : List PhaseResult) : Prop := InProgress ps [] rs ∨ Ended ps rs

def PhasesOk (cfg : Config) : Pc → Prop
  | .ready _ _ todo rs => InProgress cfg.phases todo rs ∨ (todo = [] ∧ Ended cfg.phases rs)
  | .command _ _ p todo rs => InProgress cfg.phases (p :: todo) rs
  | .reverted _ _ rs | .recorded _ _ rs => Complete cfg.phases rs
  | .baselineDone _ o => Complete cfg.phases o.phaseResults
  | _ => True

theorem WStep.phases {cfg sh c pc sh' pc'} (h : WStep cfg sh c pc sh' pc') (hp : PhasesOk cfg pc) :
    PhasesOk cfg pc' := by
  have start : InProgress cfg.phases cfg.phases [] := ⟨rfl, by simp⟩
  cases h
  case copied b d con h => cases b <;> trivial
  case tell d sc =>
    cases sc
    · exact .inl start
    · trivial
  case tellFinished d sc rs text hm =>
    cases sc
    · exact hp
    · trivial
  case apply h =>
    rcases h.pc with rfl | rfl
    · exact .inl start
    · trivial
  case startPhase d sc p todo rs con h =>
    rcases hp with hp | hp
    · exact hp
    · cases hp.1
  case revert h =>
    rcases h.pc with rfl | rfl
    · rcases hp with hp | hp
      · exact .inl hp
      · exact .inr hp.2
    · trivial
  case noRevert =>
    rcases hp with hp | hp
    · exact .inl hp
    · exact .inr hp.2
  case exits d sc p todo rs dur status con hc hi hf =>
    obtain ⟨h1, h2⟩ := hp
    cases hs : status.isSuccess with
    | true =>
      left
      refine ⟨by simp [h1], ?_⟩
      intro r hr
      rcases List.mem_append.1 hr with hr | hr
      · exact h2 r hr
      · rw [List.mem_singleton.1 hr]; exact hs
    | false =>
      right
      exact ⟨rfl, rs, _, todo, rfl, by simp [h1], h2, hs⟩
  case record => exact hp
  case failRevert h => rcases h.pc with rfl | rfl <;> trivial
  all_goals trivial

/-! ### Recording -/

/-- The mutant that a thread has taken and not yet recorded. -/
def Pc.inHand : Pc → Option Mutant
  | .taken _ (.mutant m) | .logged _ (.mutant m) | .started _ (.mutant m) | .diffed _ (.mutant m)
  | .ready _ (.mutant m) _ _ | .command _ (.mutant m) _ _ _ | .failing _ (.mutant m)
  | .reverted _ (.mutant m) _ => some m
  | _ => none

theorem addOutcomeWrites_head {o : ScenarioOutcome} {ws} (h : addOutcomeWrites o = some ws) :
    ∃ rest, ws = .remember o :: rest ∧ ∀ w ∈ rest, ∀ o', w ≠ .remember o' := by
  unfold addOutcomeWrites at h
  cases hsc : o.scenario with
  | baseline => rw [hsc] at h; simp at h; exact ⟨_, h.symm, by simp⟩
  | mutant m =>
    rw [hsc] at h
    simp only [Option.bind_eq_bind, Option.bind_eq_some_iff] at h
    obtain ⟨s, _, h⟩ := h
    split at h
    · simp at h; exact ⟨_, h.symm, by simp⟩
    · simp only [Option.bind_eq_some_iff] at h
      obtain ⟨n, _, h⟩ := h
      simp at h; exact ⟨_, h.symm, by simp⟩

theorem writeAll_lab {f g : OutputFiles} {ws : List OutputWrite}
    (hw : ∀ w ∈ ws, ∀ o, w ≠ .remember o) (h : f.writeAll ws = some g) : g.lab = f.lab := by
  induction ws generalizing f with
  | nil => cases h; rfl
  | cons w ws ih =>
    obtain ⟨f1, h1, h2⟩ := Option.bind_eq_some_iff.1 h
    rw [ih (fun w hw' => hw w (by simp [hw'])) h2]
    have := hw w (by simp)
    cases w with
    | remember o => exact absurd rfl (this o)
    | truncateJson => cases h1; rfl
    | writeJson => cases h1; rfl
    | appendName l n => cases h1; exact append_lab ..
    | appendNewline l => cases h1; exact append_lab ..

/-- Recording, interrupted at any point, adds the outcome or nothing. -/
theorem writeAll_take {f g : OutputFiles} {o : ScenarioOutcome} {ws k}
    (hws : addOutcomeWrites o = some ws) (h : f.writeAll (ws.take k) = some g) :
    g.lab = f.lab ∨ f.lab.add o = some g.lab := by
  obtain ⟨rest, rfl, hrest⟩ := addOutcomeWrites_head hws
  cases k with
  | zero => left; cases h; rfl
  | succ k =>
    right
    simp only [List.take_succ_cons, OutputFiles.writeAll] at h
    obtain ⟨f1, h1, h2⟩ := Option.bind_eq_some_iff.1 h
    obtain ⟨l, hl, rfl⟩ := Option.map_eq_some_iff.1 h1
    rw [hl, writeAll_lab (fun w hw => hrest w (List.mem_of_mem_take hw)) h2]

theorem addAll_append (l : LabOutcome) (a b : List ScenarioOutcome) :
    l.addAll (a ++ b) = (l.addAll a).bind fun l => l.addAll b := by
  induction a generalizing l with
  | nil => rfl
  | cons o a ih =>
    simp only [List.cons_append, LabOutcome.addAll, Option.bind_assoc]
    congr 1
    funext l
    exact ih l

theorem addOutcomes_append (f : OutputFiles) (a b : List ScenarioOutcome) :
    f.addOutcomes (a ++ b) = (f.addOutcomes a).bind fun f => f.addOutcomes b := by
  induction a generalizing f with
  | nil => rfl
  | cons o a ih =>
    simp only [List.cons_append, OutputFiles.addOutcomes, Option.bind_assoc]
    congr 1
    funext l
    exact ih l

/-- What a step of a thread records. -/
theorem WStep.records {cfg sh c pc sh' pc'} (h : WStep cfg sh c pc sh' pc') :
    sh'.out.lab = sh.out.lab ∨
    ∃ d sc rs, pc = .reverted d sc rs ∧ sh.out.lab.add ⟨sc, rs⟩ = some sh'.out.lab ∧
      (pc' = .recorded d sc rs ∨ pc' = .failed (some d)) := by
  cases h
  case record d sc rs out h =>
    exact .inr ⟨d, sc, rs, rfl, (addOutcome_spec h).1, .inl rfl⟩
  case recordErr d sc rs out ws k hw h _ =>
    rcases writeAll_take hw h with h | h
    · exact .inl h
    · exact .inr ⟨d, sc, rs, rfl, h, .inr rfl⟩
  all_goals first
    | exact .inl rfl
    | (rename_i h; obtain ⟨_, rfl, _⟩ := h.frame; exact .inl rfl)

theorem WStep.records_files {cfg sh c pc sh' pc'} (h : WStep cfg sh c pc sh' pc')
    (hf : pc'.isFailed = false) : sh'.out = sh.out ∨
    ∃ d sc rs, pc = .reverted d sc rs ∧ sh.out.addOutcome ⟨sc, rs⟩ = some sh'.out := by
  cases h
  case record d sc rs out h => exact .inr ⟨d, sc, rs, rfl, h⟩
  case recordErr d sc rs out ws k hw h _ => cases hf
  all_goals first
    | exact .inl rfl
    | (rename_i h; obtain ⟨_, rfl, _⟩ := h.frame; exact .inl rfl)

/-- How a step changes what the thread holds and the queue. -/
theorem WStep.hand {cfg sh c pc sh' pc'} (h : WStep cfg sh c pc sh' pc') :
    (∃ d m, pc = .idle d ∧ pc' = .taken d (.mutant m) ∧ sh.queue = m :: sh'.queue ∧
      sh'.out = sh.out) ∨
    (sh'.queue = sh.queue ∧ sh'.out.lab = sh.out.lab ∧
      (pc'.inHand = pc.inHand ∨ (pc'.isFailed = true))) ∨
    (sh'.queue = sh.queue ∧ ∃ d sc rs, pc = .reverted d sc rs ∧
      sh.out.lab.add ⟨sc, rs⟩ = some sh'.out.lab ∧ pc'.inHand = none) := by
  cases h
  case take d m q h => exact .inl ⟨d, m, rfl, rfl, h, rfl⟩
  case copied b d con h => cases b <;> exact .inr (.inl ⟨rfl, rfl, .inl rfl⟩)
  case tell d sc => cases sc <;> exact .inr (.inl ⟨rfl, rfl, .inl rfl⟩)
  case tellFinished d sc rs text hm => cases sc <;> exact .inr (.inl ⟨rfl, rfl, .inl rfl⟩)
  case apply h =>
    obtain ⟨_, rfl, _⟩ := h.frame
    rcases h.pc with rfl | rfl
    · exact .inr (.inl ⟨rfl, rfl, .inl rfl⟩)
    · exact .inr (.inl ⟨rfl, rfl, .inr rfl⟩)
  case revert h =>
    obtain ⟨_, rfl, _⟩ := h.frame
    rcases h.pc with rfl | rfl
    · exact .inr (.inl ⟨rfl, rfl, .inl rfl⟩)
    · exact .inr (.inl ⟨rfl, rfl, .inr rfl⟩)
  case failRevert h =>
    obtain ⟨_, rfl, _⟩ := h.frame
    rcases h.pc with rfl | rfl <;> exact .inr (.inl ⟨rfl, rfl, .inr rfl⟩)
  case record d sc rs out h =>
    exact .inr (.inr ⟨rfl, d, sc, rs, rfl, (addOutcome_spec h).1, by cases sc <;> rfl⟩)
  case recordErr d sc rs out ws k hw h _ =>
    rcases writeAll_take hw h with h | h
    · exact .inr (.inl ⟨rfl, h, .inr rfl⟩)
    · exact .inr (.inr ⟨rfl, d, sc, rs, rfl, h, rfl⟩)
  case startPhase d sc p todo rs con h => cases sc <;> exact .inr (.inl ⟨rfl, rfl, .inl rfl⟩)
  case exits d sc p todo rs dur status con hc hi hf => cases sc <;> exact .inr (.inl ⟨rfl, rfl, .inl rfl⟩)
  case log d sc used logs h => cases sc <;> exact .inr (.inl ⟨rfl, rfl, .inl rfl⟩)
  case diff d sc => cases sc <;> exact .inr (.inl ⟨rfl, rfl, .inl rfl⟩)
  case interrupted d sc p todo rs h => cases sc <;> exact .inr (.inl ⟨rfl, rfl, .inl rfl⟩)
  case commandErr d sc p todo rs h => cases sc <;> exact .inr (.inl ⟨rfl, rfl, .inl rfl⟩)
  all_goals first
    | exact .inr (.inl ⟨rfl, rfl, .inl rfl⟩)
    | exact .inr (.inl ⟨rfl, rfl, .inr rfl⟩)

/-- The baseline passed if it was to be run, and everything else recorded is about mutants. -/
def Tested (cfg : Config) (os : List ScenarioOutcome) : Prop :=
  ∃ bs ms, os = bs ++ ms ∧ (∀ o ∈ ms, o.scenario.isMutant = true) ∧
    if cfg.runBaseline then ∃ o, bs = [o] ∧ o.scenario = .baseline ∧ o.success = some true else bs = []

/-- What has been recorded while the baseline is at `pc`. -/
def BaselineStage (os : List ScenarioOutcome) : Pc → Prop
  | .recorded _ sc rs => os = [⟨sc, rs⟩]
  | .baselineDone _ o => os = [o]
  | .failed _ => os = [] ∨ ∃ o, os = [o] ∧ o.scenario = .baseline
  | _ => os = []

structure Records (cfg : Config) (s : State) : Prop where
  phases : ∀ (i : Nat) pc, s.workers[i]? = some pc → PhasesOk cfg pc
  complete : ∀ o ∈ s.sh.out.lab.outcomes, Complete cfg.phases o.phaseResults
  lab : LabOutcome.addAll {} s.sh.out.lab.outcomes = some s.sh.out.lab
  files : (∀ pc ∈ s.workers, pc.isFailed = false) →
    OutputFiles.addOutcomes {} s.sh.out.lab.outcomes = some s.sh.out
  panic : (∀ m ∈ cfg.mutants, m.name true ≠ none) → s.sh.panicked ≠ some .outcome
  account : ∃ lost, (recordedMutants s.sh.out.lab.outcomes ++ s.workers.filterMap Pc.inHand ++
      s.sh.queue ++ lost).Perm cfg.mutants ∧
    ((∀ pc ∈ s.workers, pc.isFailed = false) → lost = [])
  finished : ∀ (i : Nat) d, s.workers[i]? = some (.finished d) → s.sh.queue = []
  order : match s.main with
    | .setup | .preparing => s.sh.out.lab.outcomes = []
    | .baseline => ∀ (i : Nat) pc, s.workers[i]? = some pc → BaselineStage s.sh.out.lab.outcomes pc
    | .testing => Tested cfg s.sh.out.lab.outcomes
    | .returned none => Tested cfg s.sh.out.lab.outcomes ∨ s.sh.out.lab.outcomes = [] ∨
        ∃ o, s.sh.out.lab.outcomes = [o] ∧ o.scenario = .baseline
    | .returned (some l) => (cfg.mutants = [] ∧ l = {} ∧ s.sh.out.lab.outcomes = []) ∨
        (l = s.sh.out.lab ∧ (∀ pc ∈ s.workers, pc.isFailed = false) ∧
          ((cfg.runBaseline = true ∧ ∃ o, l.outcomes = [o] ∧ o.scenario = .baseline ∧ o.success ≠ some true) ∨
            (Tested cfg l.outcomes ∧ s.workers ≠ [] ∧ ∀ pc ∈ s.workers, pc.isFinished = true)))
  baseline : s.main = .baseline → cfg.runBaseline = true

theorem records_init (cfg : Config) : Records cfg (init cfg) := by
  constructor <;> simp [init, LabOutcome.addAll, OutputFiles.addOutcomes, recordedMutants]

theorem Complete.ne_nil {checkOnly rs} (h : Complete (phasesFor checkOnly) rs) : rs ≠ [] := by
  rintro rfl
  rcases h with h | ⟨rs0, r, rest, h, _⟩
  · have := h.1
    cases checkOnly <;> simp [phasesFor] at this
  · simp at h

theorem writeAll_take_isSome {f : OutputFiles} {ws : List OutputWrite} (k : Nat)
    (h : f.writeAll ws ≠ none) : f.writeAll (ws.take k) ≠ none := by
  intro hn
  apply h
  rw [← List.take_append_drop k ws, writeAll_append, hn]
  rfl

theorem add_outcomes {l l' : LabOutcome} {o} (h : l.add o = some l') :
    l'.outcomes = l.outcomes ++ [o] := (add_spec h).1

theorem Records.spawn {cfg s d pc} (hs : Records cfg s) (hw : s.workers = [pc])
    (hpc : pc.isFailed = false) (hh : pc.inHand = none) (ht : Tested cfg s.sh.out.lab.outcomes) :
    Records cfg (spawn cfg s d) := by
  have hnf : ∀ pc ∈ s.workers, pc.isFailed = false := by
    intro q hq
    rw [hw, List.mem_singleton] at hq
    rw [hq]; exact hpc
  refine ⟨?_, hs.complete, hs.lab, fun _ => hs.files hnf, hs.panic, ?_, ?_, ht, by simp [Lab.spawn]⟩
  · intro i pc hi; rw [spawn_worker hi]; trivial
  · obtain ⟨lost, h1, h2⟩ := hs.account
    refine ⟨lost, ?_, fun _ => h2 hnf⟩
    rw [hw] at h1
    have e : (Lab.spawn cfg s d).workers.filterMap Pc.inHand = [] := by
      rw [List.filterMap_eq_nil_iff]
      intro pc hpc
      simp [Lab.spawn] at hpc
      rw [hpc.2]; rfl
    rw [e]
    have e2 : [pc].filterMap Pc.inHand = [] := by simp [hh]
    rw [e2] at h1
    exact h1
  · intro i d' hi
    have := spawn_worker hi
    cases this

theorem Records.step {cfg s e s'} (hshape : Shape cfg s) (hs : Records cfg s)
    (hst : step cfg s e = some s') : Records cfg s' := by
  rcases step_cases hst with ⟨_, _, rfl⟩ | ⟨ok, _, hm⟩ | ⟨i, c, pc, sh', pc', he, hpc, hw, rfl⟩
  · exact ⟨hs.phases, hs.complete, hs.lab, hs.files, hs.panic, hs.account, hs.finished, hs.order,
      hs.baseline⟩
  · have horder := hs.order
    have haccount := hs.account
    cases mstep_rel hm
    case setupErr h =>
      rw [h] at horder
      exact ⟨hs.phases, hs.complete, hs.lab, hs.files, hs.panic, hs.account, hs.finished,
        .inr (.inl horder), by simp⟩
    case empty h he =>
      rw [h] at horder
      exact ⟨hs.phases, hs.complete, hs.lab, hs.files, hs.panic, hs.account, hs.finished,
        .inl ⟨he, rfl, horder⟩, by simp⟩
    case prepare h he =>
      have hworkers : s.workers = [] := by have := hshape.count; rwa [h] at this
      rw [h] at horder
      refine ⟨?_, hs.complete, hs.lab, ?_, hs.panic, ?_, ?_, horder, by simp⟩
      · intro i pc hi
        cases i with
        | zero => cases Option.some.inj hi; split <;> trivial
        | succ i => cases hi
      · exact fun _ => hs.files (by simp [hworkers])
      · obtain ⟨lost, h1, h2⟩ := haccount
        refine ⟨lost, ?_, fun _ => h2 (by simp [hworkers])⟩
        have e : [if cfg.inPlace then Pc.prepared 0 else .mustCopy true].filterMap Pc.inHand =
            s.workers.filterMap Pc.inHand := by
          rw [hworkers]; split <;> rfl
        simp only [e]
        exact h1
      · intro i d hi
        cases i with
        | zero => have := Option.some.inj hi; split at this <;> cases this
        | succ i => cases hi
    case prepareErr h d hw =>
      rw [h] at horder
      exact ⟨hs.phases, hs.complete, hs.lab, hs.files, hs.panic, hs.account, hs.finished,
        .inr (.inl horder), by simp⟩
    case baseline h d hw hb =>
      rw [h] at horder
      refine ⟨?_, hs.complete, hs.lab, ?_, hs.panic, ?_, ?_, ?_, fun _ => hb⟩
      · intro i pc hi
        cases i with
        | zero => cases Option.some.inj hi; trivial
        | succ i => cases hi
      · exact fun _ => hs.files (by simp [hw, Pc.isFailed])
      · obtain ⟨lost, h1, h2⟩ := haccount
        refine ⟨lost, ?_, fun _ => h2 (by simp [hw, Pc.isFailed])⟩
        rw [hw] at h1
        exact h1
      · intro i d hi
        cases i with
        | zero => cases Option.some.inj hi
        | succ i => cases hi
      · intro i pc hi
        cases i with
        | zero => cases Option.some.inj hi; exact horder
        | succ i => cases hi
    case skipBaseline h d hw hb =>
      rw [h] at horder
      exact hs.spawn hw rfl rfl ⟨[], [], horder, by simp, by simp [hb]⟩
    case prepareFailed h d hw =>
      rw [h] at horder
      exact ⟨hs.phases, hs.complete, hs.lab, hs.files, hs.panic, hs.account, hs.finished,
        .inr (.inl horder), by simp⟩
    case passed h d o hw ho =>
      have hrun := hs.baseline h
      rw [h] at horder
      have h1 : s.sh.out.lab.outcomes = [o] := horder 0 (.baselineDone d o) (by rw [hw]; rfl)
      have h2 : o.scenario = .baseline := by
        have := hshape.fits 0 (.baselineDone d o) (by rw [hw]; rfl)
        rw [h] at this
        exact this
      exact hs.spawn hw rfl rfl ⟨[o], [], by simp [h1], by simp, by simp [hrun, h2, ho]⟩
    case baselineFailed h d o hw ho =>
      have hrun := hs.baseline h
      rw [h] at horder
      have h1 : s.sh.out.lab.outcomes = [o] := horder 0 (.baselineDone d o) (by rw [hw]; rfl)
      have h2 : o.scenario = .baseline := by
        have := hshape.fits 0 (.baselineDone d o) (by rw [hw]; rfl)
        rw [h] at this
        exact this
      exact ⟨hs.phases, hs.complete, hs.lab, hs.files, hs.panic, hs.account, hs.finished,
        .inr ⟨rfl, by simp [hw, Pc.isFailed], .inl ⟨hrun, o, h1, h2, ho⟩⟩, by simp⟩
    case passedErr h d o hw =>
      rw [h] at horder
      have h1 : s.sh.out.lab.outcomes = [o] := horder 0 (.baselineDone d o) (by rw [hw]; rfl)
      have h2 : o.scenario = .baseline := by
        have := hshape.fits 0 (.baselineDone d o) (by rw [hw]; rfl)
        rw [h] at this
        exact this
      exact ⟨hs.phases, hs.complete, hs.lab, hs.files, hs.panic, hs.account, hs.finished,
        .inr (.inr ⟨o, h1, h2⟩), by simp⟩
    case baselineErr h d hw =>
      rw [h] at horder
      have := horder 0 _ (by rw [hw]; rfl)
      exact ⟨hs.phases, hs.complete, hs.lab, hs.files, hs.panic, hs.account, hs.finished,
        .inr this, by simp⟩
    case workerFailed h hw hf =>
      rw [h] at horder
      exact ⟨hs.phases, hs.complete, hs.lab, hs.files, hs.panic, hs.account, hs.finished,
        .inl horder, by simp⟩
    case tested h hw =>
      rw [h] at horder
      refine ⟨hs.phases, hs.complete, hs.lab, hs.files, hs.panic, hs.account, hs.finished,
        .inr ⟨rfl, ?_, .inr ⟨horder, ?_, hw⟩⟩, by simp⟩
      · intro pc hpc
        have := hw pc hpc
        cases pc <;> simp_all [Pc.isFinished, Pc.isFailed]
      · intro h'
        have := hshape.count
        rw [h] at this
        have hn := nThreads_pos cfg
        rw [h'] at this
        simp at this
        omega
  · have hmem : pc ∈ s.workers := List.mem_of_getElem? hpc
    have hlt : i < s.workers.length := (List.getElem?_eq_some_iff.1 hpc).1
    have hpf : pc.isFailed = false := by cases pc <;> first | rfl | cases hw
    -- if no thread has failed now, then none had before
    have hnf : (∀ q ∈ s.workers.set i pc', q.isFailed = false) →
        pc'.isFailed = false ∧ ∀ q ∈ s.workers, q.isFailed = false := by
      intro h
      refine ⟨h pc' (List.mem_set hlt pc'), fun q hq => ?_⟩
      obtain ⟨j, hj⟩ := List.getElem?_of_mem hq
      by_cases hji : j = i
      · subst hji; rw [hpc] at hj; cases hj; exact hpf
      · exact h q (List.mem_of_getElem? (i := j) (by rw [List.getElem?_set_ne (Ne.symm hji)]; exact hj))
    refine ⟨?_, ?_, ?_, ?_, ?_, ?_, ?_, ?_, hs.baseline⟩
    · intro j q hj
      rcases getElem?_set_cases hj with ⟨_, rfl⟩ | ⟨hji, hj⟩
      · exact hw.phases (hs.phases i pc hpc)
      · exact hs.phases j q hj
    · rcases hw.records with h | ⟨d, sc, rs, rfl, h, _⟩
      · simp only [h]; exact hs.complete
      · simp only [add_outcomes h]
        intro o ho
        rcases List.mem_append.1 ho with ho | ho
        · exact hs.complete o ho
        · rw [List.mem_singleton.1 ho]
          exact hs.phases i _ hpc
    · rcases hw.records with h | ⟨d, sc, rs, rfl, h, _⟩
      · simp only [h]; exact hs.lab
      · simp only [add_outcomes h, addAll_append, hs.lab, Option.bind_some, LabOutcome.addAll, h]
    · intro h
      obtain ⟨h1, h2⟩ := hnf h
      rcases hw.records_files h1 with h | ⟨d, sc, rs, rfl, h⟩
      · simp only [h]; exact hs.files h2
      · simp only [add_outcomes (addOutcome_spec h).1, addOutcomes_append, hs.files h2,
          Option.bind_some, OutputFiles.addOutcomes, h]
    · intro hnames
      have hp := hs.panic hnames
      cases hw
      case recordPanic d sc rs h =>
        exfalso
        have hrec : Recordable ⟨sc, rs⟩ := by
          refine ⟨?_, ?_⟩
          · exact (hs.phases i _ hpc : Complete cfg.phases rs).ne_nil
          · intro m hm
            simp only at hm
            subst hm
            have := hshape.fits i _ hpc
            cases hmain : s.main <;> simp [hmain, Fits] at this
            exact hnames m this
        obtain ⟨g, hg⟩ := addOutcome_total s.sh.out _ hrec
        obtain ⟨ws, hws, hg'⟩ := Option.bind_eq_some_iff.1 hg
        rcases h with h | ⟨ws', k, h1, h2⟩
        · rw [hws] at h; cases h
        · rw [hws] at h1
          cases h1
          exact writeAll_take_isSome k (by rw [hg']; simp) h2
      case tellPanic d sc rs h =>
        exfalso
        have hrec : Recordable ⟨sc, rs⟩ := by
          refine ⟨?_, ?_⟩
          · exact (hs.phases i _ hpc : Complete cfg.phases rs).ne_nil
          · intro m hm
            simp only at hm
            subst hm
            have := hshape.fits i _ hpc
            cases hmain : s.main <;> simp [hmain, Fits] at this
            exact hnames m this
        obtain ⟨t, ht⟩ := message_total cfg.print _ hrec
        rw [ht] at h; cases h
      all_goals first
        | exact hp
        | (simp; done)
        | (rename_i h; obtain ⟨_, rfl, _⟩ := h.frame; exact hp)
    · obtain ⟨lost, h1, h2⟩ := hs.account
      obtain ⟨rest, hr1, hr2⟩ := filterMap_set_perm Pc.inHand pc' hpc
      -- as counts, which is easier to calculate with
      have hc1 : ∀ m, (recordedMutants s.sh.out.lab.outcomes).count m +
          (pc.inHand.toList.count m + rest.count m) + s.sh.queue.count m + lost.count m =
          cfg.mutants.count m := by
        intro m
        have := h1.count_eq m
        simp only [List.count_append] at this
        rw [hr1.count_eq m, List.count_append] at this
        exact this
      have goal : ∀ lost', (∀ m, (recordedMutants sh'.out.lab.outcomes).count m +
          (pc'.inHand.toList.count m + rest.count m) + sh'.queue.count m + lost'.count m =
          cfg.mutants.count m) →
          (recordedMutants sh'.out.lab.outcomes ++ (s.workers.set i pc').filterMap Pc.inHand ++
            sh'.queue ++ lost').Perm cfg.mutants := by
        intro lost' h
        rw [List.perm_iff_count]
        intro m
        simp only [List.count_append]
        rw [hr2.count_eq m, List.count_append]
        exact h m
      rcases hw.hand with ⟨d, m, rfl, rfl, hq, ho⟩ | ⟨hq, ho, hh⟩ | ⟨hq, d, sc, rs, rfl, ho, hh⟩
      · refine ⟨lost, goal lost fun m' => ?_, fun h => h2 (hnf h).2⟩
        have := hc1 m'
        rw [hq] at this
        simp only [Pc.inHand, Option.toList_none, Option.toList_some, List.count_cons, List.count_nil, ho] at this ⊢
        omega
      · rcases hh with hh | hh
        · refine ⟨lost, goal lost fun m' => ?_, fun h => h2 (hnf h).2⟩
          rw [hh, hq, ho]
          exact hc1 m'
        · refine ⟨lost ++ pc.inHand.toList, goal _ fun m' => ?_, fun h => ?_⟩
          · have hn : pc'.inHand = none := by cases pc' <;> first | rfl | cases hh
            have := hc1 m'
            rw [hq, ho, hn]
            simp only [Option.toList_none, List.count_nil, List.count_append]
            omega
          · rw [(hnf h).1] at hh; cases hh
      · refine ⟨lost, goal lost fun m' => ?_, fun h => h2 (hnf h).2⟩
        have := hc1 m'
        rw [hq, hh, add_outcomes ho]
        cases sc with
        | baseline =>
          simp only [recordedMutants, List.filterMap_append, List.count_append, List.filterMap_cons,
            List.filterMap_nil, Pc.inHand, Option.toList_none, List.count_nil] at this ⊢
          omega
        | mutant m =>
          simp only [recordedMutants, List.filterMap_append, List.count_append, List.filterMap_cons,
            List.filterMap_nil, Pc.inHand, Option.toList_none, Option.toList_some, List.count_nil] at this ⊢
          omega
    · have hq : s.sh.queue = [] → sh'.queue = [] := by
        intro h
        rcases hw.hand with ⟨d, m, _, _, hq, _⟩ | ⟨hq, _⟩ | ⟨hq, _⟩
        · rw [h] at hq; cases hq
        · rw [hq, h]
        · rw [hq, h]
      intro j d hj
      rcases getElem?_set_cases hj with ⟨_, h⟩ | ⟨hji, hj⟩
      · apply hq
        cases hw
        case finish d h' => exact h'
        case copied b d con h' => cases b <;> cases h
        case tell d sc => cases sc <;> cases h
        case tellFinished d sc rs text hm => cases sc <;> cases h
        all_goals first
          | (cases h; done)
          | (rename_i h'; rcases h'.pc with rfl | rfl <;> cases h)
      · exact hq (hs.finished j d hj)
    · have horder := hs.order
      have hfits := hshape.fits i pc hpc
      cases hmain : s.main with
      | setup => rw [hmain] at hfits; exact hfits.elim
      | preparing =>
        rw [hmain] at horder hfits
        rcases hw.records with h | ⟨d, sc, rs, rfl, h, _⟩
        · simp only [h]; exact horder
        · exact hfits.elim
      | baseline =>
        rw [hmain] at horder hfits
        have hlen := hshape.count
        rw [hmain] at hlen
        simp only at hlen
        have hstage := horder i pc hpc
        intro j q hj
        simp only at hj ⊢
        have hji : j = i := by
          have := (List.getElem?_eq_some_iff.1 hj).1
          simp at this
          omega
        subst hji
        rw [List.getElem?_set_self hlt] at hj
        cases Option.some.inj hj
        rcases hw.records with h | ⟨d, sc, rs, rfl, h, h'⟩
        · rw [h]
          cases hw
          case copied b d con h' => exact hfits.elim
          case tell d sc => cases sc <;> exact hstage
          case tellFinished d sc rs text hm =>
            cases sc
            · exact hstage
            · cases hfits
          case record d sc rs out h' =>
            exfalso
            have := add_outcomes (addOutcome_spec h').1
            simp only at h
            rw [h] at this
            simp at this
          case tellPanic d sc rs hm =>
            have hsc : sc = .baseline := hfits
            exact .inr ⟨_, hstage, hsc⟩
          case unreadable d sc rs hc =>
            have hsc : sc = .baseline := hfits
            exact .inr ⟨_, hstage, hsc⟩
          case apply h' => exact hfits.elim
          case revert h' => rcases h'.pc with rfl | rfl <;> cases hfits
          case failRevert h' => rcases h'.pc with rfl | rfl <;> cases hfits
          all_goals first
            | exact hfits.elim
            | exact hstage
            | exact .inl hstage
        · have h0 : s.sh.out.lab.outcomes = [] := hstage
          have h1 : sh'.out.lab.outcomes = [⟨sc, rs⟩] := by rw [add_outcomes h, h0]; rfl
          rcases h' with rfl | rfl
          · exact h1
          · exact .inr ⟨_, h1, hfits⟩
      | testing =>
        rw [hmain] at horder hfits
        rcases hw.records with h | ⟨d, sc, rs, rfl, h, _⟩
        · simp only [h]; exact horder
        · obtain ⟨bs, ms, h1, h2, h3⟩ := horder
          refine ⟨bs, ms ++ [⟨sc, rs⟩], by simp [add_outcomes h, h1], ?_, h3⟩
          intro o ho
          rcases List.mem_append.1 ho with ho | ho
          · exact h2 o ho
          · rw [List.mem_singleton.1 ho]
            obtain ⟨m, _, rfl⟩ := hfits
            rfl
      | returned r =>
        rw [hmain] at hfits
        cases pc <;> simp [Fits] at hfits <;> cases hw

theorem reachable_records {cfg s} (h : Reachable cfg s) : Records cfg s := by
  have : Shape cfg s ∧ Records cfg s :=
    reachable_invariant (P := fun s => Shape cfg s ∧ Records cfg s)
      ⟨shape_init cfg, records_init cfg⟩
      (fun s e s' ⟨h1, h2⟩ hst => ⟨h1.step hst, h2.step h1 hst⟩) h
  exact this.2

end CM.Lab
