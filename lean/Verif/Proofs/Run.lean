import Verif.Model.Run
import Verif.Spec.Lab
import Verif.Proofs.LabOutcomes
import Verif.Props.Process
/-! Invariants of a run with processes. -/
namespace CM.Lab

/-- Where the results that a thread has come from. -/
theorem WStep.results_from {cfg sh c pc sh' pc'} (h : WStep cfg sh c pc sh' pc') (sc : Scenario)
    (hsc : pc'.scenario = some sc) (r : PhaseResult) (hr : r ∈ pc'.results) :
    (pc.scenario = some sc ∧ r ∈ pc.results) ∨
    ∃ d p todo rs dur st, pc = .command d sc p todo rs ∧ c = .exits dur st ∧
      r = { phase := p, duration := dur, status := st, argv := cfg.argv sc p } := by
  cases h
  case exits d sc p todo rs dur status con hc hi hf =>
    cases hsc
    rcases List.mem_append.1 hr with hr | hr
    · exact .inl ⟨rfl, hr⟩
    · exact .inr ⟨d, p, todo, rs, dur, status, rfl, hc, List.mem_singleton.1 hr⟩
  case tell d sc => cases sc <;> cases hr
  case tellFinished d sc rs text hm => cases sc <;> cases hr
  case copied b d con h => cases b <;> cases hr
  case apply h => rcases h.pc with rfl | rfl <;> cases hr
  case revert h =>
    rcases h.pc with rfl | rfl
    · exact .inl ⟨hsc, hr⟩
    · cases hr
  case failRevert h => rcases h.pc with rfl | rfl <;> cases hr
  all_goals first
    | (cases hr; done)
    | exact .inl ⟨hsc, hr⟩

theorem WStep.not_command {cfg sh c pc sh' pc'} (h : WStep cfg sh c pc sh' pc') (hp : pc.inCommand = true) :
    pc'.inCommand = false := by
  cases h <;> first | (cases hp; done) | rfl

theorem MStep.idle {cfg s s'} (hs : Shape cfg s) (h : MStep cfg s s') :
    s'.sh.interrupted = s.sh.interrupted ∧ (∀ pc ∈ s.workers, pc.inCommand = false) ∧
    (∀ pc ∈ s'.workers, pc.inCommand = false) ∧ s'.sh.out = s.sh.out ∧
    (∀ pc ∈ s'.workers, pc.results = [] ∨ pc ∈ s.workers) := by
  have one : ∀ {pc}, s.workers = [pc] → pc.inCommand = false → ∀ pc ∈ s.workers, pc.inCommand = false := by
    intro pc h1 h2 pc' h3
    rw [h1, List.mem_singleton] at h3
    rw [h3]; exact h2
  have new : ∀ d, ∀ pc ∈ (spawn cfg s d).workers, pc = .new := fun d pc hpc => (List.mem_replicate.1 hpc).2
  have hset : s.main = .setup → s.workers = [] := fun h => by have := hs.count; rwa [h] at this
  cases h
  case setupErr h => rw [hset h]; exact ⟨rfl, by simp, by simp, rfl, by simp⟩
  case empty h he => rw [hset h]; exact ⟨rfl, by simp, by simp, rfl, by simp⟩
  case prepare h he =>
    rw [hset h]
    refine ⟨rfl, by simp, ?_, rfl, ?_⟩
    all_goals
      intro pc hpc
      simp only [List.mem_singleton] at hpc
      subst hpc
      cases cfg.inPlace
    all_goals first | rfl | exact .inl rfl
  case prepareErr h d hw => exact ⟨rfl, one hw rfl, one hw rfl, rfl, fun _ h => .inr h⟩
  case baseline h d hw hb =>
    exact ⟨rfl, one hw rfl, by simp [Pc.inCommand], rfl, by simp [Pc.results]⟩
  case skipBaseline h d hw hb =>
    exact ⟨rfl, one hw rfl, fun pc hpc => by rw [new d pc hpc]; rfl, rfl, fun pc hpc => by rw [new d pc hpc]; exact .inl rfl⟩
  case prepareFailed h d hw => exact ⟨rfl, one hw rfl, one hw rfl, rfl, fun _ h => .inr h⟩
  case passed h d o hw ho =>
    exact ⟨rfl, one hw rfl, fun pc hpc => by rw [new d pc hpc]; rfl, rfl, fun pc hpc => by rw [new d pc hpc]; exact .inl rfl⟩
  case passedErr h d o hw => exact ⟨rfl, one hw rfl, one hw rfl, rfl, fun _ h => .inr h⟩
  case baselineFailed h d o hw ho => exact ⟨rfl, one hw rfl, one hw rfl, rfl, fun _ h => .inr h⟩
  case baselineErr h d hw => exact ⟨rfl, one hw rfl, one hw rfl, rfl, fun _ h => .inr h⟩
  case workerFailed h hw hf =>
    have : ∀ pc ∈ s.workers, pc.inCommand = false := by
      intro pc hpc
      have := hw pc hpc
      cases pc <;> first | rfl | (rcases this with h | h <;> cases h)
    exact ⟨rfl, this, this, rfl, fun _ h => .inr h⟩
  case tested h hw =>
    have : ∀ pc ∈ s.workers, pc.inCommand = false := by
      intro pc hpc
      have := hw pc hpc
      cases pc <;> first | rfl | cases this
    exact ⟨rfl, this, this, rfl, fun _ h => .inr h⟩

end CM.Lab

namespace CM.Run
open CM

/-- A process that has come about from its start. -/
def Ran (limit : Option Nat) (q : Proc.State) : Prop := ∃ es, Proc.exec (Proc.init limit) es = some q

theorem Ran.step {limit q e q'} (h : Ran limit q) (hs : Proc.step q e = some q') : Ran limit q' := by
  obtain ⟨es, h⟩ := h
  exact ⟨es ++ [e], by rw [Props.exec_append, h]; simp [Proc.exec, hs]⟩

/-- The process of a thread. -/
def ProcOk (cfg : Config) (timeouts : Option Timeouts) (interrupted : Bool) (pc : Option Lab.Pc)
    (proc : Option Proc.State) : Prop :=
  match pc with
  | some (.command _ sc p _ _) => ∃ q, proc = some q ∧ Ran (cfg.limit timeouts sc p) q ∧ q.interrupted = interrupted
  | _ => proc = none

theorem ProcOk.none {cfg t b pc proc} (h : ProcOk cfg t b pc proc) (hpc : ∀ pc', pc = some pc' → pc'.inCommand = false) :
    proc = .none := by
  unfold ProcOk at h
  split at h
  · cases hpc _ rfl
  · exact h

theorem procOk_none {cfg t b pc} (hpc : ∀ pc', pc = some pc' → pc'.inCommand = false) : ProcOk cfg t b pc .none := by
  unfold ProcOk
  split
  · cases hpc _ rfl
  · rfl

theorem ProcOk.some {cfg t b pc q} (h : ProcOk cfg t b pc (.some q)) :
    ∃ d sc p todo rs, pc = .some (.command d sc p todo rs) ∧ Ran (cfg.limit t sc p) q ∧ q.interrupted = b := by
  unfold ProcOk at h
  split at h
  · obtain ⟨q', h1, h2, h3⟩ := h
    cases h1
    exact ⟨_, _, _, _, _, rfl, h2, h3⟩
  · cases h

theorem procOk_started (cfg t b pc) : ProcOk cfg t b pc (started cfg t b pc) := by
  cases pc with
  | none => rfl
  | some pc =>
    cases pc
    case command d sc p todo rs =>
      refine ⟨_, rfl, ⟨if b then [.ctrlC] else [], ?_⟩, rfl⟩
      cases b <;> rfl
    all_goals rfl

theorem ProcOk.map {cfg t b b' pc proc e} (h : ProcOk cfg t b pc proc)
    (he : ∀ q, q.interrupted = b → ∃ q', Proc.step q e = .some q' ∧ q'.interrupted = b') :
    ProcOk cfg t b' pc (proc.bind fun q => Proc.step q e) := by
  cases proc with
  | none =>
    refine procOk_none fun pc' hpc => ?_
    subst hpc
    cases pc' <;> first | rfl | (obtain ⟨q, hq, _⟩ := h; cases hq)
  | some q =>
    obtain ⟨d, sc, p, todo, rs, rfl, h1, h2⟩ := h.some
    obtain ⟨q', h3, h4⟩ := he q h2
    exact ⟨q', h3, h1.step h3, h4⟩

/-- The result of a command is that of a process with the right command line and limit. -/
def Good (cfg : Config) (timeouts : Option Timeouts) (past : List (Nat × Proc.State)) (sc : Scenario) (r : PhaseResult) :
    Prop :=
  r.argv = cargoArgv cfg.bin (cfg.packages sc) r.phase cfg.options ∧
  ∃ i q, (i, q) ∈ past ∧ Ran (cfg.limit timeouts sc r.phase) q ∧ q.pc = .done (.ok r.status) ∧ q.clock ≤ r.duration

/-- Where the limits for mutants come from. -/
def TimeoutsOk (cfg : Config) (s : State) : Prop :=
  match s.lab.main with
  | .setup | .preparing | .baseline => s.timeouts = none
  | .testing => s.timeouts ≠ none
  | .returned _ => True

structure Inv (cfg : Config) (s : State) : Prop where
  lab : Lab.Reachable cfg.lab s.lab
  procs : ∀ i, ProcOk cfg s.timeouts s.lab.sh.interrupted s.lab.workers[i]? (s.procs i)
  past : ∀ q ∈ s.past, ∃ limit r, Ran limit q.2 ∧ q.2.pc = .done r
  stage : TimeoutsOk cfg s
  origin : ∀ t, s.timeouts = some t →
    if cfg.options.baseline = .run then ∃ o, s.lab.sh.out.lab.outcomes.head? = some o ∧ o.scenario = .baseline ∧
      o.success = some true ∧ Timeouts.fromBaseline o cfg.options = some t
    else Timeouts.withoutBaseline cfg.options = some t
  results : ∀ (i : Nat) pc, s.lab.workers[i]? = some pc → ∀ sc, pc.scenario = some sc → ∀ r ∈ pc.results, Good cfg s.timeouts s.past sc r
  recorded : ∀ o ∈ s.lab.sh.out.lab.outcomes, ∀ r ∈ o.phaseResults, Good cfg s.timeouts s.past o.scenario r
  known : ∀ o ∈ s.lab.sh.out.lab.outcomes, o.scenario.isMutant = true → s.timeouts ≠ none

theorem inv_init (cfg : Config) : Inv cfg (init cfg) where
  lab := ⟨[], rfl⟩
  procs := fun i => procOk_none (by simp [init, Lab.init])
  past := by simp [init]
  stage := rfl
  origin := by simp [init]
  results := by simp [init, Lab.init]
  recorded := by simp [init, Lab.init]
  known := by simp [init, Lab.init]

theorem good_baseline {cfg t past r} (t') (h : Good cfg t past .baseline r) : Good cfg t' past .baseline r := h

theorem Good.mono {cfg t past past' sc r} (h : Good cfg t past sc r) (hp : ∀ x ∈ past, x ∈ past') :
    Good cfg t past' sc r := by
  obtain ⟨h1, i, q, h2, h3⟩ := h
  exact ⟨h1, i, q, hp _ h2, h3⟩

/-- Steps of the main thread. -/
theorem Inv.main {cfg s ok l'} (hs : Inv cfg s) (hst : Lab.step cfg.lab s.lab (.main ok) = some l')
    (t' : Option Timeouts)
    (ht : t' = s.timeouts ∨ ∃ t b, t' = some t ∧ aboutToSpawn cfg s.lab = some b ∧ cfg.timeouts b = some t)
    (hstage : TimeoutsOk cfg { s with lab := l', timeouts := t' }) :
    Inv cfg { s with lab := l', timeouts := t' } := by
  have hshape := Lab.reachable_shape hs.lab
  have hrec := Lab.reachable_records hs.lab
  have hm : Lab.MStep cfg.lab s.lab l' := Lab.mstep_rel hst
  obtain ⟨h1, h2, h3, h4, h5⟩ := hm.idle hshape
  have hnone : ∀ i, s.procs i = none := fun i =>
    (hs.procs i).none fun pc hpc => h2 pc (List.mem_of_getElem? hpc)
  have hspawn : ∀ b, aboutToSpawn cfg s.lab = some b →
      (∀ pc ∈ s.lab.workers, pc.results = []) ∧
      ((b = none ∧ cfg.options.baseline ≠ .run ∧ s.lab.sh.out.lab.outcomes = []) ∨
        ∃ o, b = some o ∧ cfg.options.baseline = .run ∧ s.lab.sh.out.lab.outcomes = [o] ∧ o.scenario = .baseline ∧
          o.success = some true) := by
    intro b hb
    unfold aboutToSpawn at hb
    split at hb
    · rename_i d hmain hw
      split at hb
      · cases hb
      · rename_i hrun
        cases hb
        have ho := hrec.order
        rw [hmain] at ho
        refine ⟨by rw [hw]; simp [Lab.Pc.results], .inl ⟨rfl, ?_, ho⟩⟩
        simpa [Config.lab] using hrun
    · rename_i d o hmain hw
      split at hb
      · rename_i hok
        cases hb
        have ho := hrec.order
        rw [hmain] at ho
        have ho := ho 0 (.baselineDone d o) (by rw [hw]; rfl)
        have hf := hshape.fits 0 (.baselineDone d o) (by rw [hw]; rfl)
        rw [hmain] at hf
        have hb := hrec.baseline hmain
        exact ⟨by rw [hw]; simp [Lab.Pc.results], .inr ⟨o, rfl, by simpa [Config.lab] using hb, ho, hf, hok⟩⟩
      · cases hb
    · cases hb
  refine ⟨hs.lab.step hst, ?_, hs.past, hstage, ?_, ?_, ?_, ?_⟩
  · intro i
    show ProcOk cfg t' _ _ (s.procs i)
    rw [hnone i]
    exact procOk_none fun pc hpc => h3 pc (List.mem_of_getElem? hpc)
  · intro t htt
    show if _ then ∃ o, l'.sh.out.lab.outcomes.head? = some o ∧ _ else _
    rw [h4]
    rcases ht with ht | ⟨t0, b, ht, hb, hbt⟩
    · exact hs.origin t (ht ▸ htt)
    · cases ht.symm.trans htt
      rcases (hspawn b hb).2 with ⟨rfl, hr, _⟩ | ⟨o, rfl, hr, ho, hsc, hok⟩
      · rw [if_neg hr]; exact hbt
      · rw [if_pos hr]; exact ⟨o, by rw [ho]; rfl, hsc, hok, hbt⟩
  · intro i pc hpc sc hsc r hr
    rcases h5 pc (List.mem_of_getElem? hpc) with h | h
    · rw [h] at hr; cases hr
    · rcases ht with rfl | ⟨t0, b, ht, hb, hbt⟩
      · obtain ⟨j, hj⟩ := List.getElem?_of_mem h
        exact hs.results j pc hj sc hsc r hr
      · rw [(hspawn b hb).1 pc h] at hr; cases hr
  · intro o ho r hr
    change o ∈ l'.sh.out.lab.outcomes at ho
    rw [h4] at ho
    have := hs.recorded o ho r hr
    rcases ht with rfl | ⟨t0, b, ht, hb, hbt⟩
    · exact this
    · rcases (hspawn b hb).2 with ⟨_, _, h0⟩ | ⟨o', _, _, h0, hsc, _⟩
      · rw [h0] at ho; cases ho
      · rw [h0, List.mem_singleton] at ho
        subst ho
        rw [hsc] at this ⊢
        exact good_baseline t' this
  · intro o ho hm
    change o ∈ l'.sh.out.lab.outcomes at ho
    rw [h4] at ho
    rcases ht with rfl | ⟨t0, b, rfl, _⟩
    · exact hs.known o ho hm
    · simp

/-- Steps of other threads. -/
theorem Inv.worker {cfg s i c l'} (hs : Inv cfg s) (hst : Lab.step cfg.lab s.lab (.worker i c) = some l')
    (proc' : Option Proc.State) (past' : List (Nat × Proc.State)) (hsub : ∀ x ∈ s.past, x ∈ past')
    (hproc : ProcOk cfg s.timeouts l'.sh.interrupted l'.workers[i]? proc')
    (hpast : ∀ q ∈ past', ∃ limit r, Ran limit q.2 ∧ q.2.pc = .done r)
    (hnew : ∀ d sc p todo rs dur st, s.lab.workers[i]? = some (.command d sc p todo rs) → c = .exits dur st →
      Good cfg s.timeouts past' sc { phase := p, duration := dur, status := st, argv := cfg.lab.argv sc p }) :
    Inv cfg { s with lab := l', procs := setAt s.procs i proc', past := past' } := by
  rcases Lab.step_cases hst with ⟨h, _⟩ | ⟨_, h, _⟩ | ⟨i', c', pc, sh', pc', he, hpc, hw, rfl⟩
  · cases h
  · cases h
  cases he
  have hint := hw.interrupted_eq
  have hout : sh'.out.lab.outcomes = s.lab.sh.out.lab.outcomes ∨
      ∃ d sc rs, pc = .reverted d sc rs ∧ sh'.out.lab.outcomes = s.lab.sh.out.lab.outcomes ++ [⟨sc, rs⟩] := by
    rcases hw.records with h | ⟨d, sc, rs, h1, h2, _⟩
    · exact .inl (by rw [h])
    · exact .inr ⟨d, sc, rs, h1, Lab.add_outcomes h2⟩
  refine ⟨hs.lab.step hst, ?_, hpast, hs.stage, ?_, ?_, ?_, ?_⟩
  · intro j
    by_cases hj : j = i
    · subst hj
      simpa [setAt] using hproc
    · have := hs.procs j
      simp only [setAt, if_neg hj, hint]
      rw [List.getElem?_set_ne (Ne.symm hj)]
      exact this
  · intro t ht
    have := hs.origin t ht
    split
    · rw [if_pos ‹_›] at this
      obtain ⟨o, h1, h2⟩ := this
      refine ⟨o, ?_, h2⟩
      rcases hout with h | ⟨_, _, _, _, h⟩
      · exact h ▸ h1
      · show sh'.out.lab.outcomes.head? = _
        rw [h, List.head?_append, h1]; rfl
    · rw [if_neg ‹_›] at this
      exact this
  · intro j pcj hpcj sc hsc r hr
    rcases Lab.getElem?_set_cases hpcj with ⟨rfl, rfl⟩ | ⟨_, h⟩
    · rcases hw.results_from sc hsc r hr with ⟨h1, h2⟩ | ⟨d, p, todo, rs, dur, st, rfl, hc, rfl⟩
      · exact (hs.results j pc hpc sc h1 r h2).mono hsub
      · exact hnew d sc p todo rs dur st hpc hc
    · exact (hs.results j pcj h sc hsc r hr).mono hsub
  · intro o ho r hr
    rcases hout with h | ⟨d, sc, rs, rfl, h⟩
    · exact (hs.recorded o (h ▸ ho) r hr).mono hsub
    · change o ∈ sh'.out.lab.outcomes at ho
      rw [h] at ho
      rcases List.mem_append.1 ho with ho | ho
      · exact (hs.recorded o ho r hr).mono hsub
      · cases List.mem_singleton.1 ho
        exact (hs.results i _ hpc sc rfl r hr).mono hsub
  · intro o ho hm
    rcases hout with h | ⟨d, sc, rs, rfl, h⟩
    · exact hs.known o (h ▸ ho) hm
    · change o ∈ sh'.out.lab.outcomes at ho
      rw [h] at ho
      rcases List.mem_append.1 ho with ho | ho
      · exact hs.known o ho hm
      · cases List.mem_singleton.1 ho
        have hf := (Lab.reachable_shape hs.lab).fits i _ hpc
        have hstage := hs.stage
        unfold TimeoutsOk at hstage
        cases hmain : s.lab.main <;> rw [hmain] at hf hstage
        case testing => exact hstage
        case baseline => cases hf; cases hm
        all_goals exact hf.elim

theorem not_testing {cfg : Config} {l l' : Lab.State} (hm : Lab.MStep cfg.lab l l') (hb : aboutToSpawn cfg l = none) :
    l'.main ≠ .testing := by
  intro h
  cases hm
  case skipBaseline hmain d hw hrun =>
    simp [aboutToSpawn, hmain, hw, hrun] at hb
  case passed hmain d o hw ho =>
    simp [aboutToSpawn, hmain, hw, ho] at hb
  all_goals first | (cases h; done) | (rename_i h0 _; rw [h0] at h; cases h)

theorem Inv.stage_main {cfg s ok l'} (hs : Inv cfg s) (hst : Lab.step cfg.lab s.lab (.main ok) = some l')
    (hb : aboutToSpawn cfg s.lab = none) : TimeoutsOk cfg { s with lab := l' } := by
  have hm : Lab.MStep cfg.lab s.lab l' := Lab.mstep_rel hst
  have h1 := not_testing hm hb
  have h2 := hs.stage
  have h3 : (∃ x, l'.main = .returned x) ∨ l'.main = .testing ∨ s.lab.main = .setup ∨ s.lab.main = .preparing := by
    cases hm
    case prepare h _ => exact .inr (.inr (.inl h))
    case baseline h _ _ _ => exact .inr (.inr (.inr h))
    case skipBaseline => exact .inr (.inl rfl)
    case passed => exact .inr (.inl rfl)
    all_goals exact .inl ⟨_, rfl⟩
  rcases h3 with ⟨x, h⟩ | h | h
  · simp [TimeoutsOk, h]
  · exact (h1 h).elim
  · have : s.timeouts = none := by rcases h with h | h <;> simpa [TimeoutsOk, h] using h2
    unfold TimeoutsOk
    split
    · exact this
    · exact this
    · exact this
    · exact (h1 ‹_›).elim
    · trivial

theorem spawn_fails {cfg : Config} {l l' b} (hb : aboutToSpawn cfg l = some b) (h : Lab.step cfg.lab l (.main false) = some l') :
    l'.main = .returned none := by
  unfold aboutToSpawn at hb
  split at hb
  · rename_i h1 h2
    simp only [Lab.step, Lab.mstep, h1, h2] at h
    cases h; rfl
  · rename_i h1 h2
    split at hb
    · rename_i h3
      simp only [Lab.step, Lab.mstep, h1, h2, h3] at h
      cases h; rfl
    · cases hb
  · cases hb

theorem spawn_main {cfg : Config} {l l' b ok} (hb : aboutToSpawn cfg l = some b) (h : Lab.step cfg.lab l (.main ok) = some l') :
    l'.main = .testing ∨ ∃ x, l'.main = .returned x := by
  cases ok with
  | false => exact .inr ⟨_, spawn_fails hb h⟩
  | true =>
    unfold aboutToSpawn at hb
    split at hb
    · rename_i h1 h2
      split at hb
      · cases hb
      · rename_i h3
        simp only [Lab.step, Lab.mstep, h1, h2, if_neg h3] at h
        cases h; exact .inl rfl
    · rename_i h1 h2
      split at hb
      · rename_i h3
        simp only [Lab.step, Lab.mstep, h1, h2, h3] at h
        cases h; exact .inl rfl
      · cases hb
    · cases hb

theorem program_interrupted {q e q'} (he : Proc.Event.isProgram e = true) (h : Proc.step q e = some q') :
    q'.interrupted = q.interrupted := by
  cases e <;> first | (cases he; done) | skip
  all_goals
    simp only [Proc.step] at h
    repeat' split at h
    all_goals first | (cases h; done) | (cases h; rfl)

theorem procs_set {cfg t b} {ws : List Lab.Pc} {procs : Nat → Option Proc.State}
    (h : ∀ i, ProcOk cfg t b ws[i]? (procs i)) {i q e q'} (hq : procs i = some q) (hs : Proc.step q e = some q')
    (hi : q'.interrupted = q.interrupted) (j : Nat) : ProcOk cfg t b ws[j]? (setAt procs i (some q') j) := by
  by_cases hj : j = i
  · subst hj
    have := h j
    rw [hq] at this
    obtain ⟨d, sc, p, todo, rs, hpc, h1, h2⟩ := this.some
    rw [hpc]
    exact ⟨q', by simp [setAt], h1.step hs, hi.trans h2⟩
  · simpa [setAt, hj] using h j

theorem Inv.step {cfg s e s'} (hs : Inv cfg s) (hst : step cfg s e = some s') : Inv cfg s' := by
  cases e with
  | tick n =>
    cases hst
    refine ⟨hs.lab, fun i => ?_, hs.past, hs.stage, hs.origin, hs.results, hs.recorded, hs.known⟩
    exact (hs.procs i).map fun q hq => ⟨_, rfl, hq⟩
  | interrupt =>
    obtain ⟨l, h1, rfl⟩ := Option.map_eq_some_iff.1 hst
    rcases Lab.step_cases h1 with ⟨_, _, rfl⟩ | ⟨_, h, _⟩ | ⟨_, _, _, _, _, h, _⟩
    · refine ⟨hs.lab.step h1, fun i => ?_, hs.past, hs.stage, hs.origin, hs.results, hs.recorded, hs.known⟩
      exact (hs.procs i).map fun q hq => ⟨_, rfl, rfl⟩
    · cases h
    · cases h
  | childExits i st =>
    obtain ⟨q, hq, h1⟩ := Option.bind_eq_some_iff.1 hst
    obtain ⟨q', hq', rfl⟩ := Option.map_eq_some_iff.1 h1
    refine ⟨hs.lab, fun j => ?_, hs.past, hs.stage, hs.origin, hs.results, hs.recorded, hs.known⟩
    exact procs_set hs.procs hq hq' (by simp only [Proc.step] at hq'; split at hq' <;> cases hq'; rfl) j
  | main ok =>
    simp only [CM.Run.step] at hst
    have hshape := Lab.reachable_shape hs.lab
    split at hst
    · rename_i hb
      obtain ⟨l, h1, rfl⟩ := Option.map_eq_some_iff.1 hst
      exact hs.main h1 s.timeouts (.inl rfl) (hs.stage_main h1 hb)
    · rename_i b hb
      split at hst
      · obtain ⟨l, h1, rfl⟩ := Option.map_eq_some_iff.1 hst
        refine hs.main h1 s.timeouts (.inl rfl) ?_
        have : l.main = .returned none := spawn_fails hb h1
        simp [TimeoutsOk, this]
      · rename_i t ht
        obtain ⟨l, h1, rfl⟩ := Option.map_eq_some_iff.1 hst
        refine hs.main h1 (some t) (.inr ⟨t, b, rfl, hb, ht⟩) ?_
        rcases spawn_main hb h1 with h | ⟨x, h⟩ <;> simp [TimeoutsOk, h]
  | worker i c =>
    simp only [CM.Run.step] at hst
    split at hst
    · cases hst
    rename_i hq
    obtain ⟨l, h1, rfl⟩ := Option.map_eq_some_iff.1 hst
    have := hs.worker h1 (started cfg s.timeouts l.sh.interrupted l.workers[i]?) s.past (fun _ h => h) (procOk_started ..) hs.past
      (by
        intro d sc p todo rs dur st hpc
        have := hs.procs i
        rw [hpc] at this
        obtain ⟨q, h, _⟩ := this
        rw [h] at hq
        exact (hq rfl).elim)
    exact this
  | proc i e =>
    simp only [CM.Run.step] at hst
    split at hst
    · rename_i he
      obtain ⟨q, hq, h1⟩ := Option.bind_eq_some_iff.1 hst
      obtain ⟨q', hq', rfl⟩ := Option.map_eq_some_iff.1 h1
      refine ⟨hs.lab, fun j => ?_, hs.past, hs.stage, hs.origin, hs.results, hs.recorded, hs.known⟩
      exact procs_set hs.procs hq hq' (program_interrupted he hq') j
    · cases hst
  | leave i dur =>
    simp only [CM.Run.step] at hst
    obtain ⟨q, hq, h1⟩ := Option.bind_eq_some_iff.1 hst
    split at h1
    · rename_i r hr
      split at h1
      · rename_i hc
        obtain ⟨l, h2, rfl⟩ := Option.map_eq_some_iff.1 h1
        have hp := hs.procs i
        rw [hq] at hp
        obtain ⟨d, sc, p, todo, rs, hpc, hran, hint⟩ := hp.some
        refine hs.worker h2 none ((i, q) :: s.past) (fun _ h => List.mem_cons_of_mem _ h) ?_ ?_ ?_
        · refine procOk_none fun pc' hpc' => ?_
          rcases Lab.step_cases h2 with ⟨h, _⟩ | ⟨_, h, _⟩ | ⟨i', c', pc, sh', pc'', he, hpc2, hw, rfl⟩
          · cases h
          · cases h
          cases he
          rcases Lab.getElem?_set_cases hpc' with ⟨_, rfl⟩ | ⟨h, _⟩
          · refine hw.not_command ?_
            rw [hpc] at hpc2
            cases hpc2
            rfl
          · exact (h rfl).elim
        · intro q' hq'
          rcases List.mem_cons.1 hq' with rfl | h
          · exact ⟨_, r, hran, hr⟩
          · exact hs.past q' h
        · intro d' sc' p' todo' rs' dur' st' hpc' he
          rw [hpc] at hpc'
          cases hpc'
          refine ⟨rfl, i, q, List.mem_cons_self .., hran, ?_, ?_⟩
          · cases r <;> simp [choiceOf] at he
            rw [hr, he.2]
          · cases r <;> simp [choiceOf] at he
            rw [← he.1]; exact hc
      · cases h1
    · cases h1

theorem exec_append (cfg : Config) (s : State) (a b : List Event) :
    exec cfg s (a ++ b) = (exec cfg s a).bind fun t => exec cfg t b := by
  induction a generalizing s with
  | nil => rfl
  | cons e es ih =>
    simp only [List.cons_append, exec, Option.bind_assoc]
    congr 1
    funext t
    exact ih t

theorem Reachable.step {cfg s e s'} (h : Reachable cfg s) (hs : CM.Run.step cfg s e = some s') : Reachable cfg s' := by
  obtain ⟨es, h⟩ := h
  exact ⟨es ++ [e], by rw [exec_append, h]; simp [exec, hs]⟩

theorem exec_inv {cfg} : ∀ {es s s'}, Inv cfg s → exec cfg s es = some s' → Inv cfg s'
  | [], _, _, h, he => by cases he; exact h
  | e :: es, s, s', h, he => by
    obtain ⟨t, h1, h2⟩ := Option.bind_eq_some_iff.1 he
    exact exec_inv (h.step h1) h2

theorem reachable_inv {cfg s} (h : Reachable cfg s) : Inv cfg s := by
  obtain ⟨es, h⟩ := h
  exact exec_inv (inv_init cfg) h

end CM.Run
