import Verif.Proofs.LabOutcomes
/-! Termination, interrupts, and runs in which nothing goes wrong. -/
namespace CM.Lab
open CM.Props CM.Spec

/-! ### Termination -/

/-- How many steps a thread can still take, at most, without taking another mutant. -/
def Pc.weight : Pc → Nat
  | .new => 4
  | .mustCopy _ => 3
  | .copying _ _ => 2
  | .prepared _ | .idle _ | .baselineDone _ _ | .failing _ _ => 1
  | .taken _ _ => 12
  | .logged _ _ => 11
  | .started _ _ => 10
  | .diffed _ _ => 9
  | .ready _ _ todo _ => 4 + 2 * todo.length
  | .command _ _ _ todo _ => 5 + 2 * todo.length
  | .reverted _ _ _ => 3
  | .recorded _ _ _ => 2
  | .finished _ | .failed _ => 0

def MainPc.weight (n : Nat) : MainPc → Nat
  | .setup => 4 * n + 17
  | .preparing => 4 * n + 13
  | .baseline => 4 * n + 1
  | .testing => 1
  | .returned _ => 0

def State.weight (cfg : Config) (s : State) : Nat :=
  s.main.weight cfg.nThreads + (s.workers.map Pc.weight).sum + 12 * s.sh.queue.length +
    if s.sh.interrupted then 0 else 1

theorem phases_length (cfg : Config) : cfg.phases.length ≤ 2 := by
  unfold Config.phases phasesFor
  split <;> simp

theorem WStep.weight {cfg sh c pc sh' pc'} (h : WStep cfg sh c pc sh' pc') :
    pc'.weight + 12 * sh'.queue.length < pc.weight + 12 * sh.queue.length := by
  have := phases_length cfg
  cases h
  case take d m q h => simp [Pc.weight, h]; omega
  case copied b d con h => cases b <;> simp [Pc.weight]
  case tell d sc => cases sc <;> simp [Pc.weight, Scenario.isMutant]; omega
  case tellFinished d sc rs text hm => cases sc <;> simp [Pc.weight, Scenario.isMutant]
  case apply h =>
    obtain ⟨_, rfl, _⟩ := h.frame
    rcases h.pc with rfl | rfl <;> simp [Pc.weight]; omega
  case revert h =>
    obtain ⟨_, rfl, _⟩ := h.frame
    rcases h.pc with rfl | rfl <;> simp [Pc.weight]
  case failRevert h =>
    obtain ⟨_, rfl, _⟩ := h.frame
    rcases h.pc with rfl | rfl <;> simp [Pc.weight]
  case exits d sc p todo rs dur status con hc hi hf =>
    simp only [Pc.weight]
    split <;> simp
    omega
  case startPhase d sc p todo rs con h => simp [Pc.weight]; omega
  all_goals (simp [Pc.weight]; try omega)

theorem spawn_weight (cfg s d) : (spawn cfg s d).weight cfg =
    1 + 4 * cfg.nThreads + 12 * s.sh.queue.length + if s.sh.interrupted then 0 else 1 := by
  have : (List.map Pc.weight (List.replicate cfg.nThreads Pc.new)).sum = 4 * cfg.nThreads := by
    simp [List.map_replicate, Pc.weight, Nat.mul_comm]
  simp only [State.weight, spawn, MainPc.weight, this]
  rfl

theorem step_weight {cfg s e s'} (hst : step cfg s e = some s') : s'.weight cfg < s.weight cfg := by
  rcases step_cases hst with ⟨_, hi, rfl⟩ | ⟨ok, _, hm⟩ | ⟨i, c, pc, sh', pc', he, hpc, hw, rfl⟩
  · simp [State.weight, hi]
  · cases mstep_rel hm
    case prepare h he =>
      simp only [State.weight, h, MainPc.weight, List.map_cons, List.map_nil, List.sum_cons, List.sum_nil]
      have : (if cfg.inPlace = true then Pc.prepared 0 else .mustCopy true).weight ≤ 3 := by
        split <;> simp [Pc.weight]
      omega
    case skipBaseline h d hw hb =>
      rw [spawn_weight]
      simp only [State.weight, h, MainPc.weight, hw]
      simp
      omega
    case passed h d o hw ho =>
      rw [spawn_weight]
      simp only [State.weight, h, MainPc.weight, hw, List.map_cons, List.map_nil, List.sum_cons,
        List.sum_nil, Pc.weight]
      omega
    case baseline h d hw hb =>
      simp [State.weight, h, MainPc.weight, hw, Pc.weight]
    all_goals
      simp [State.weight, MainPc.weight, *]
      try omega
  · have h1 := sum_set Pc.weight pc' hpc
    have h2 := hw.weight
    simp only [State.weight, hw.interrupted_eq]
    omega

theorem exec_length {cfg s es s'} (h : exec cfg s es = some s') :
    es.length + s'.weight cfg ≤ s.weight cfg := by
  induction es generalizing s with
  | nil => cases h; simp
  | cons e es ih =>
    obtain ⟨s1, h1, h2⟩ := Option.bind_eq_some_iff.1 h
    have := ih h2
    have := step_weight h1
    simp
    omega

/-- The thread has nothing more to do. -/
def Pc.waits : Pc → Bool
  | .prepared _ | .baselineDone _ _ | .finished _ | .failed _ => true
  | _ => false

theorem wstep_progress {cfg sh pc main} (hfits : Fits cfg main pc) (hw : pc.waits = false) :
    ∃ c r, wstep cfg sh pc c = some r := by
  have over : ∀ d p t next, ∃ r, overwrite sh d p t next .ok = some r := by
    intro d p t next
    unfold overwrite
    simp only
    split <;> exact ⟨_, rfl⟩
  have rev : ∀ d sc next, ∃ r, revert sh d sc next .ok = some r := by
    intro d sc next
    unfold revert
    split
    · exact ⟨_, rfl⟩
    · exact over _ _ _ _
  cases pc <;> simp only [Pc.waits] at hw <;> try (cases hw; done)
  case new => refine ⟨.ok, ?_⟩; simp only [wstep]; split <;> exact ⟨_, rfl⟩
  case mustCopy => exact ⟨.ok, _, rfl⟩
  case copying => refine ⟨.ok, ?_⟩; simp only [wstep]; split <;> exact ⟨_, rfl⟩
  case idle => refine ⟨.ok, ?_⟩; simp only [wstep]; split <;> exact ⟨_, rfl⟩
  case taken => refine ⟨.ok, ?_⟩; simp only [wstep]; split <;> exact ⟨_, rfl⟩
  case logged => exact ⟨.ok, _, rfl⟩
  case started => exact ⟨.ok, _, rfl⟩
  case diffed d sc =>
    cases sc with
    | baseline => cases main <;> simp [Fits] at hfits
    | mutant m => exact ⟨.ok, over _ _ _ _⟩
  case ready d sc todo rs =>
    refine ⟨.ok, ?_⟩
    cases todo with
    | nil => exact rev _ _ _
    | cons p todo => simp only [wstep]; split <;> exact ⟨_, rfl⟩
  case command =>
    refine ⟨.exits 0 .success, ?_⟩
    simp only [wstep]
    split
    · exact ⟨_, rfl⟩
    · split <;> exact ⟨_, rfl⟩
  case failing => exact ⟨.ok, rev _ _ _⟩
  case reverted => refine ⟨.ok, ?_⟩; simp only [wstep, recordOutcome]; split <;> exact ⟨_, rfl⟩
  case recorded => refine ⟨.ok, ?_⟩; simp only [wstep, tellFinished]; split <;> exact ⟨_, rfl⟩

theorem worker_progress {cfg : Config} {s : State} {i : Nat} {pc : Pc} (hs : Shape cfg s) (hpc : s.workers[i]? = some pc)
    (hw : pc.waits = false) : ∃ c s', step cfg s (.worker i c) = some s' := by
  obtain ⟨c, ⟨sh', pc'⟩, h⟩ := wstep_progress (sh := s.sh) (hs.fits i pc hpc) hw
  exact ⟨c, _, by simp [step, hpc, h]; rfl⟩

theorem main_progress {cfg s} (hs : Shape cfg s) (hm : ∀ r, s.main ≠ .returned r)
    (hw : ∀ pc ∈ s.workers, pc.waits = true) : ∃ s', step cfg s (.main true) = some s' := by
  have hcount := hs.count
  have hfits := hs.fits
  simp only [step, mstep]
  cases hmain : s.main with
  | setup => simp only [Bool.not_true, Bool.false_eq_true, if_false]; split <;> exact ⟨_, rfl⟩
  | preparing =>
    rw [hmain] at hcount hfits
    obtain ⟨pc, hpc⟩ := List.length_eq_one_iff.1 hcount
    have h1 := hfits 0 pc (by rw [hpc]; rfl)
    have h2 := hw pc (by rw [hpc]; simp)
    rw [hpc]
    cases pc <;> simp_all [Fits, Pc.waits]
    split <;> exact ⟨_, rfl⟩
  | baseline =>
    rw [hmain] at hcount hfits
    obtain ⟨pc, hpc⟩ := List.length_eq_one_iff.1 hcount
    have h1 := hfits 0 pc (by rw [hpc]; rfl)
    have h2 := hw pc (by rw [hpc]; simp)
    rw [hpc]
    cases pc <;> simp_all [Fits, Pc.waits]
    split <;> exact ⟨_, rfl⟩
  | testing =>
    rw [hmain] at hfits
    have : s.workers.all (fun pc => pc.isFinished || pc.isFailed) = true := by
      rw [List.all_eq_true]
      intro pc hpc
      obtain ⟨i, hi⟩ := List.getElem?_of_mem hpc
      have h1 := hfits i pc hi
      have h2 := hw pc hpc
      cases pc <;> simp_all [Fits, Pc.waits, Pc.isFinished, Pc.isFailed]
    simp only [this, if_true]
    split <;> exact ⟨_, rfl⟩
  | returned r => exact absurd hmain (hm r)

/-! ### Interrupts -/

/-- Nothing is recorded after an interrupt except what was complete. -/
theorem exec_interrupted {cfg s es s'} (hi : s.sh.interrupted = true) (h : exec cfg s es = some s') :
    s'.sh.interrupted = true := by
  refine exec_invariant (P := fun s => s.sh.interrupted = true) (fun _ => True) ?_ hi (by simp) h
  intro s e s' _ hi hst
  rcases step_cases hst with ⟨_, h, _⟩ | ⟨ok, _, hm⟩ | ⟨i, c, pc, sh', pc', he, hpc, hw, rfl⟩
  · rw [hi] at h; cases h
  · cases mstep_rel hm <;> exact hi
  · simp only [hw.interrupted_eq]; exact hi

/-- What a thread has after an interrupt, compared with what it had at the time. -/
def Frozen (s0 s : State) (i : Nat) : Prop := ∀ pc, s.workers[i]? = some pc →
  (pc.results = [] ∨ ∃ pc0, s0.workers[i]? = some pc0 ∧ pc0.results = pc.results ∧
    pc0.scenario = pc.scenario) ∧
  (∀ o, pc.toRecord = some o → ∃ pc0, s0.workers[i]? = some pc0 ∧ pc0.toRecord = some o)

theorem WStep.frozen {cfg sh c pc sh' pc'} (h : WStep cfg sh c pc sh' pc')
    (hi : sh.interrupted = true) :
    (pc'.results = [] ∨ (pc'.results = pc.results ∧ pc'.scenario = pc.scenario)) ∧
    ((∃ d sc, pc' = .ready d sc cfg.phases []) ∨
      ∀ o, pc'.toRecord = some o → pc.toRecord = some o) := by
  cases h
  case copied b d con h => cases b <;> exact ⟨.inl rfl, .inr fun _ h => by cases h⟩
  case tell d sc =>
    cases sc
    · exact ⟨.inl rfl, .inl ⟨_, _, rfl⟩⟩
    · exact ⟨.inl rfl, .inr fun _ h => by cases h⟩
  case tellFinished d sc rs text hm => cases sc <;> exact ⟨.inl rfl, .inr fun _ h => by cases h⟩
  case apply h =>
    rcases h.pc with rfl | rfl
    · exact ⟨.inl rfl, .inl ⟨_, _, rfl⟩⟩
    · exact ⟨.inl rfl, .inr fun _ h => by cases h⟩
  case revert h =>
    rcases h.pc with rfl | rfl
    · exact ⟨.inr ⟨rfl, rfl⟩, .inr fun _ h => h⟩
    · exact ⟨.inl rfl, .inr fun _ h => by cases h⟩
  case failRevert h =>
    rcases h.pc with rfl | rfl <;> exact ⟨.inl rfl, .inr fun _ h => by cases h⟩
  case exits d sc p todo rs dur status con hc hi' hf => rw [hi] at hi'; cases hi'
  all_goals first
    | exact ⟨.inr ⟨rfl, rfl⟩, .inr fun _ h => h⟩
    | exact ⟨.inl rfl, .inr fun _ h => by cases h⟩
    | exact ⟨.inr ⟨rfl, rfl⟩, .inr fun _ h => by cases h⟩

theorem phases_ne_nil (cfg : Config) : cfg.phases ≠ [] := by
  unfold Config.phases phasesFor
  split <;> simp

theorem exec_frozen {cfg s0 es s} (hi : s0.sh.interrupted = true) (h : exec cfg s0 es = some s) :
    (∀ i, Frozen s0 s i) ∧ ∃ new, s.sh.out.lab.outcomes = s0.sh.out.lab.outcomes ++ new ∧
      ∀ o ∈ new, ∃ pc ∈ s0.workers, pc.toRecord = some o := by
  have step' : ∀ s e s', True → (s.sh.interrupted = true ∧ (∀ i, Frozen s0 s i) ∧
      ∃ new, s.sh.out.lab.outcomes = s0.sh.out.lab.outcomes ++ new ∧
        ∀ o ∈ new, ∃ pc ∈ s0.workers, pc.toRecord = some o) → step cfg s e = some s' →
      (s'.sh.interrupted = true ∧ (∀ i, Frozen s0 s' i) ∧
      ∃ new, s'.sh.out.lab.outcomes = s0.sh.out.lab.outcomes ++ new ∧
        ∀ o ∈ new, ∃ pc ∈ s0.workers, pc.toRecord = some o) := by
    intro s e s' _ ⟨hi, hf, hnew⟩ hst
    have hi' : s'.sh.interrupted = true :=
      exec_interrupted (cfg := cfg) (es := [e]) hi (by simp [exec, hst])
    refine ⟨hi', ?_⟩
    rcases step_cases hst with ⟨_, h, _⟩ | ⟨ok, _, hm⟩ | ⟨i, c, pc, sh', pc', he, hpc, hw, rfl⟩
    · rw [hi] at h; cases h
    · have spawned : ∀ d i, Frozen s0 (Lab.spawn cfg s d) i := by
        intro d i pc hpc
        rw [spawn_worker hpc]
        exact ⟨.inl rfl, fun _ h => by cases h⟩
      cases mstep_rel hm
      case prepare h he =>
        refine ⟨?_, hnew⟩
        intro i pc hi
        cases i with
        | zero =>
          cases Option.some.inj hi
          refine ⟨.inl ?_, ?_⟩
          · split <;> rfl
          · intro o ho; split at ho <;> cases ho
        | succ i => cases hi
      case baseline h d hw hb =>
        refine ⟨?_, hnew⟩
        intro i pc hi
        cases i with
        | zero =>
          cases Option.some.inj hi
          exact ⟨.inl rfl, fun _ h => by cases h⟩
        | succ i => cases hi
      case skipBaseline h d hw hb => exact ⟨spawned d, hnew⟩
      case passed h d o hw ho => exact ⟨spawned d, hnew⟩
      all_goals exact ⟨hf, hnew⟩
    · refine ⟨?_, ?_⟩
      · intro j q hj
        rcases getElem?_set_cases hj with ⟨rfl, rfl⟩ | ⟨hji, hj⟩
        · obtain ⟨h1, h2⟩ := hw.frozen hi
          obtain ⟨h3, h4⟩ := hf j pc hpc
          refine ⟨?_, ?_⟩
          · rcases h1 with h1 | ⟨h1, h1'⟩
            · exact .inl h1
            · rw [h1, h1']; exact h3
          · rcases h2 with ⟨d, sc, rfl⟩ | h2
            · intro o ho
              have := phases_ne_nil cfg
              cases hp : cfg.phases with
              | nil => exact absurd hp this
              | cons p ps => rw [hp] at ho; cases ho
            · exact fun o ho => h4 o (h2 o ho)
        · exact hf j q hj
      · obtain ⟨new, h1, h2⟩ := hnew
        rcases hw.records with h | ⟨d, sc, rs, rfl, h, _⟩
        · exact ⟨new, by simp only [h]; exact h1, h2⟩
        · refine ⟨new ++ [⟨sc, rs⟩], by simp [add_outcomes h, h1], ?_⟩
          intro o ho
          rcases List.mem_append.1 ho with ho | ho
          · exact h2 o ho
          · rw [List.mem_singleton.1 ho]
            obtain ⟨pc0, h3, h4⟩ := (hf i _ hpc).2 ⟨sc, rs⟩ rfl
            exact ⟨pc0, List.mem_of_getElem? h3, h4⟩
  have := exec_invariant (P := fun s => s.sh.interrupted = true ∧ (∀ i, Frozen s0 s i) ∧
      ∃ new, s.sh.out.lab.outcomes = s0.sh.out.lab.outcomes ++ new ∧
        ∀ o ∈ new, ∃ pc ∈ s0.workers, pc.toRecord = some o) (fun _ => True) step' (es := es)
    ⟨hi, fun i pc hpc => ⟨.inr ⟨pc, hpc, rfl, rfl⟩, fun o ho => ⟨pc, hpc, ho⟩⟩, [], by simp, by simp⟩
    (by simp) h
  exact this.2

/-- Whether a thread can start another command after an interrupt. -/
def Pc.mayStart : Pc → Nat
  | .command _ _ _ _ _ | .failing _ _ | .failed _ | .finished _ => 0
  | _ => 1

def startsLeft (s : State) (i : Nat) : Nat := (s.workers[i]?.map Pc.mayStart).getD 1

theorem WStep.mayStart {cfg sh c pc sh' pc'} (h : WStep cfg sh c pc sh' pc')
    (hi : sh.interrupted = true) : pc'.mayStart ≤ pc.mayStart ∧
      (pc'.inCommand = true → pc'.mayStart = 0 ∧ pc.mayStart = 1) := by
  cases h
  case copied b d con h => cases b <;> simp [Pc.mayStart, Pc.inCommand]
  case tell d sc => cases sc <;> simp [Pc.mayStart, Pc.inCommand, Scenario.isMutant]
  case tellFinished d sc rs text hm => cases sc <;> simp [Pc.mayStart, Pc.inCommand, Scenario.isMutant]
  case apply h => rcases h.pc with rfl | rfl <;> simp [Pc.mayStart, Pc.inCommand]
  case revert h => rcases h.pc with rfl | rfl <;> simp [Pc.mayStart, Pc.inCommand]
  case failRevert h => rcases h.pc with rfl | rfl <;> simp [Pc.mayStart, Pc.inCommand]
  case exits d sc p todo rs dur status con hc hi' hf => rw [hi] at hi'; cases hi'
  all_goals simp [Pc.mayStart, Pc.inCommand]

theorem step_starts {cfg s e s'} (hshape : Shape cfg s) (hi : s.sh.interrupted = true) (hst : step cfg s e = some s')
    (i : Nat) : (if (s'.workers[i]?.map Pc.inCommand) = some true ∧
      (s.workers[i]?.map Pc.inCommand) ≠ some true then 1 else 0) + startsLeft s' i ≤ startsLeft s i := by
  rcases step_cases hst with ⟨_, h, _⟩ | ⟨ok, _, hm⟩ | ⟨j, c, pc, sh', pc', he, hpc, hw, rfl⟩
  · rw [hi] at h; cases h
  · have spawned : ∀ d, (((Lab.spawn cfg s d).workers[i]?.map Pc.inCommand) ≠ some true) ∧
        startsLeft (Lab.spawn cfg s d) i = 1 := by
      intro d
      simp only [startsLeft]
      cases h : (Lab.spawn cfg s d).workers[i]? with
      | none => simp
      | some pc => rw [spawn_worker h]; simp [Pc.inCommand, Pc.mayStart]
    have one : ∀ {pc}, s.workers = [pc] → pc.mayStart = 1 → startsLeft s i = 1 := by
      intro pc h h'
      simp only [startsLeft, h]
      cases i <;> simp [h']
    cases mstep_rel hm
    case prepare h he => 
      have hworkers : s.workers = [] := by have := hshape.count; rwa [h] at this
      simp only [startsLeft, hworkers]
      cases i with
      | zero =>
        cases cfg.inPlace <;> simp [Pc.inCommand, Pc.mayStart]
      | succ i => simp
    case baseline h d hw hb =>
      rw [one hw rfl]
      simp only [startsLeft]
      cases i <;> simp [Pc.inCommand, Pc.mayStart]
    case skipBaseline h d hw hb =>
      obtain ⟨h1, h2⟩ := spawned d
      rw [if_neg (fun h => h1 h.1), h2, one hw rfl]
      simp
    case passed h d o hw ho =>
      obtain ⟨h1, h2⟩ := spawned d
      rw [if_neg (fun h => h1 h.1), h2, one hw rfl]
      simp
    all_goals
      rw [if_neg (fun h => h.2 h.1)]
      simp [startsLeft]
  · by_cases hji : i = j
    · subst hji
      have hlt : i < s.workers.length := (List.getElem?_eq_some_iff.1 hpc).1
      obtain ⟨h1, h2⟩ := hw.mayStart hi
      simp only [startsLeft, List.getElem?_set_self hlt, hpc, Option.map_some, Option.getD_some]
      split
      · rename_i h
        obtain ⟨h3, h4⟩ := h2 (by simpa using h.1)
        omega
      · omega
    · have : (s.workers.set j pc')[i]? = s.workers[i]? := List.getElem?_set_ne (Ne.symm hji)
      simp only [startsLeft, this]
      rw [if_neg (fun h => h.2 h.1)]
      simp

theorem exec_starts {cfg s es s'} (hshape : Shape cfg s) (hi : s.sh.interrupted = true) (h : exec cfg s es = some s')
    (i : Nat) : commandStarts cfg i s es + startsLeft s' i ≤ startsLeft s i := by
  induction es generalizing s with
  | nil => cases h; simp [commandStarts]
  | cons e es ih =>
    obtain ⟨s1, h1, h2⟩ := Option.bind_eq_some_iff.1 h
    have hi1 : s1.sh.interrupted = true := exec_interrupted (cfg := cfg) (es := [e]) hi (by simp [exec, h1])
    have := ih (hshape.step h1) hi1 h2
    have := step_starts hshape hi h1 i
    simp only [commandStarts, h1]
    omega

/-- The run cannot end well: it is interrupted and there are commands to be run. -/
def Doomed (s : State) : Prop :=
  (∃ pc ∈ s.workers, pc.unfinished = true) ∨
  (s.sh.queue ≠ [] ∧
    match s.main with
    | .setup | .preparing | .testing => True
    | .baseline => ∀ pc ∈ s.workers, ∀ o,
        (pc.toRecord = some o ∨ (∃ d sc rs, pc = .recorded d sc rs ∧ o = ⟨sc, rs⟩) ∨
          ∃ d, pc = .baselineDone d o) → o.success = some true
    | .returned _ => False)

theorem WStep.unfinished {cfg sh c pc sh' pc'} (h : WStep cfg sh c pc sh' pc')
    (hi : sh.interrupted = true) (hu : pc.unfinished = true) : pc'.unfinished = true := by
  have hp := phases_ne_nil cfg
  cases h
  case copied b d con h => cases hu
  case tell d sc => cases sc <;> simp [Pc.unfinished, Scenario.isMutant, hp]
  case tellFinished d sc rs text hm => cases hu
  case apply h => rcases h.pc with rfl | rfl <;> simp [Pc.unfinished, hp]
  case revert h => cases hu
  case failRevert h => rcases h.pc with rfl | rfl <;> simp [Pc.unfinished]
  case exits d sc p todo rs dur status con hc hi' hf => rw [hi] at hi'; cases hi'
  all_goals first
    | rfl
    | (cases hu; done)

/-- What a thread with nothing left to run can become. -/
theorem WStep.toRecord_cases {cfg sh c pc sh' pc'} (h : WStep cfg sh c pc sh' pc')
    (hu : pc'.unfinished = false) (o)
    (ho : pc'.toRecord = some o ∨ (∃ d sc rs, pc' = .recorded d sc rs ∧ o = ⟨sc, rs⟩) ∨
          ∃ d, pc' = .baselineDone d o) (hi : sh.interrupted = true) :
    (pc.toRecord = some o ∨ (∃ d sc rs, pc = .recorded d sc rs ∧ o = ⟨sc, rs⟩) ∨
          ∃ d, pc = .baselineDone d o) := by
  have hp := phases_ne_nil cfg
  cases h
  case copied b d con h =>
    cases b <;> (rcases ho with ho | ⟨_, _, _, ho, _⟩ | ⟨_, ho⟩ <;> cases ho)
  case tell d sc =>
    cases sc
    · simp [Pc.unfinished, Scenario.isMutant, hp] at hu
    · rcases ho with ho | ⟨_, _, _, ho, _⟩ | ⟨_, ho⟩ <;> cases ho
  case tellFinished d sc rs text hm =>
    cases sc
    · rcases ho with ho | ⟨_, _, _, ho, _⟩ | ⟨_, ho⟩ <;> cases ho
      exact .inr (.inl ⟨d, _, rs, rfl, rfl⟩)
    · rcases ho with ho | ⟨_, _, _, ho, _⟩ | ⟨_, ho⟩ <;> cases ho
  case apply h =>
    rcases h.pc with rfl | rfl
    · simp [Pc.unfinished, hp] at hu
    · cases hu
  case revert h =>
    rcases h.pc with rfl | rfl
    · rcases ho with ho | ⟨_, _, _, ho, _⟩ | ⟨_, ho⟩ <;> cases ho
      exact .inl rfl
    · cases hu
  case noRevert =>
    rcases ho with ho | ⟨_, _, _, ho, _⟩ | ⟨_, ho⟩ <;> cases ho
    exact .inl rfl
  case failRevert h => rcases h.pc with rfl | rfl <;> cases hu
  case exits d sc p todo rs dur status con hc hi' hf => rw [hi] at hi'; cases hi'
  case record d sc rs out h =>
    rcases ho with ho | ⟨_, _, _, ho, ho'⟩ | ⟨_, ho⟩ <;> cases ho
    exact .inl (by rw [ho']; rfl)
  all_goals first
    | (cases hu; done)
    | (rcases ho with ho | ⟨_, _, _, ho, _⟩ | ⟨_, ho⟩ <;> cases ho; done)

/-- The run has failed or cannot end well. -/
def Hopeless (s : State) : Prop := (Doomed s ∧ ∀ r, s.main ≠ .returned r) ∨ s.main = .returned none

theorem Hopeless.step {cfg s e s'} (hshape : Shape cfg s) (hrec : Records cfg s)
    (hi : s.sh.interrupted = true) (hd : Hopeless s) (hst : step cfg s e = some s') :
    Hopeless s' := by
  have hi' : s'.sh.interrupted = true :=
    exec_interrupted (cfg := cfg) (es := [e]) hi (by simp [exec, hst])
  rcases step_cases hst with ⟨_, h, _⟩ | ⟨ok, _, hm⟩ | ⟨i, c, pc, sh', pc', he, hpc, hw, rfl⟩
  · rw [hi] at h; cases h
  · by_cases hn : s.main = .returned none
    · exfalso
      revert hm
      simp [mstep, hn]
    obtain ⟨hd, hmain⟩ := hd.resolve_right hn
    -- when the only thread is done, there must be mutants left
    have hq : ∀ {pc}, s.workers = [pc] → pc.unfinished = false → s.sh.queue ≠ [] := by
      intro pc hw hu
      rcases hd with ⟨q, hq, h⟩ | ⟨h, _⟩
      · rw [hw, List.mem_singleton] at hq
        rw [hq, hu] at h
        cases h
      · exact h
    cases mstep_rel hm
    case setupErr h => exact .inr rfl
    case prepareErr h d hw => exact .inr rfl
    case prepareFailed h d hw => exact .inr rfl
    case passedErr h d o hw => exact .inr rfl
    case baselineErr h d hw => exact .inr rfl
    case workerFailed h hw hf => exact .inr rfl
    case empty h he =>
      exfalso
      have hworkers : s.workers = [] := by have := hshape.count; rwa [h] at this
      rcases hd with ⟨q, hq, _⟩ | ⟨hne, _⟩
      · rw [hworkers] at hq; cases hq
      · apply hne
        cases hql : s.sh.queue with
        | nil => rfl
        | cons m q =>
          have := hshape.queue m (by simp [hql])
          rw [he] at this
          cases this
    case prepare h he =>
      have hworkers : s.workers = [] := by have := hshape.count; rwa [h] at this
      rcases hd with ⟨q, hq, _⟩ | ⟨hne, _⟩
      · rw [hworkers] at hq; cases hq
      · exact .inl ⟨.inr ⟨hne, trivial⟩, by simp⟩
    case baseline h d hw hb =>
      exact .inl ⟨.inl ⟨.taken d .baseline, by simp, rfl⟩, by simp⟩
    case skipBaseline h d hw hb => exact .inl ⟨.inr ⟨hq hw rfl, trivial⟩, by simp [Lab.spawn]⟩
    case passed h d o hw ho => exact .inl ⟨.inr ⟨hq hw rfl, trivial⟩, by simp [Lab.spawn]⟩
    case baselineFailed h d o hw ho =>
      exfalso
      rcases hd with ⟨q, hq, hu⟩ | ⟨_, hb⟩
      · rw [hw, List.mem_singleton] at hq
        rw [hq] at hu
        cases hu
      · rw [h] at hb
        exact ho (hb (.baselineDone d o) (by rw [hw]; simp) o (.inr (.inr ⟨d, rfl⟩)))
    case tested h hw =>
      exfalso
      have hne : s.workers ≠ [] := by
        intro h'
        have := hshape.count
        rw [h] at this
        have hn := nThreads_pos cfg
        rw [h'] at this
        simp at this
        omega
      rcases hd with ⟨q, hq, hu⟩ | ⟨hqne, _⟩
      · have := hw q hq
        cases q <;> simp [Pc.isFinished, Pc.unfinished] at this hu
      · obtain ⟨q, hq⟩ := List.exists_mem_of_ne_nil _ hne
        obtain ⟨j, hj⟩ := List.getElem?_of_mem hq
        have := hw q hq
        cases q <;> simp [Pc.isFinished] at this
        exact hqne (hrec.finished j _ hj)
  · have hlt : i < s.workers.length := (List.getElem?_eq_some_iff.1 hpc).1
    by_cases hn : s.main = .returned none
    · exact .inr hn
    obtain ⟨hd, hmain⟩ := hd.resolve_right hn
    refine .inl ⟨?_, hmain⟩
    have left' : pc'.unfinished = true → Doomed { s with sh := sh', workers := s.workers.set i pc' } :=
      fun h => .inl ⟨pc', List.mem_set hlt pc', h⟩
    by_cases hu' : pc'.unfinished = true
    · exact left' hu'
    rcases hd with ⟨q, hq, hu⟩ | ⟨hqne, hd⟩
    · obtain ⟨j, hj⟩ := List.getElem?_of_mem hq
      by_cases hji : j = i
      · subst hji
        rw [hpc] at hj
        cases hj
        exact absurd (hw.unfinished hi hu) hu'
      · exact .inl ⟨q, List.mem_of_getElem? (i := j)
          (by rw [List.getElem?_set_ne (Ne.symm hji)]; exact hj), hu⟩
    · have hq' : sh'.queue = s.sh.queue := by
        rcases hw.hand with ⟨d, m, _, rfl, _, _⟩ | ⟨h, _⟩ | ⟨h, _⟩
        · exact absurd rfl hu'
        · exact h
        · exact h
      refine .inr ⟨by simpa [hq'] using hqne, ?_⟩
      cases hm : s.main with
      | setup => trivial
      | preparing => trivial
      | testing => trivial
      | returned r => exact absurd hm (hmain r)
      | baseline =>
        rw [hm] at hd
        intro q hq o ho
        obtain ⟨j, hj⟩ := List.getElem?_of_mem hq
        rcases getElem?_set_cases hj with ⟨_, rfl⟩ | ⟨hji, hj⟩
        · exact hd pc (List.mem_of_getElem? hpc) o
            (hw.toRecord_cases (by simpa using hu') o ho hi)
        · exact hd q (List.mem_of_getElem? hj) o ho

theorem Hopeless.exec {cfg s es s'} (hr : Reachable cfg s) (hi : s.sh.interrupted = true)
    (hd : Hopeless s) (h : exec cfg s es = some s') : Hopeless s' := by
  induction es generalizing s with
  | nil => cases h; exact hd
  | cons e es ih =>
    obtain ⟨s1, h1, h2⟩ := Option.bind_eq_some_iff.1 h
    exact ih (hr.step h1) (exec_interrupted (cfg := cfg) (es := [e]) hi (by simp [Lab.exec, h1]))
      (hd.step (reachable_shape hr) (reachable_records hr) hi h1) h2

end CM.Lab
