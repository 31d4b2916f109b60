import Verif.Model.Timeouts
import Verif.Props.Outcome
/-! Time limits: C23, C24. -/
namespace CM.Props
open CM

/-! ### C23 -/

theorem ratMax_spec (a b : Rat) : a ≤ ratMax a b ∧ b ≤ ratMax a b ∧ (ratMax a b = a ∨ ratMax a b = b) := by
  unfold ratMax
  split
  · exact ⟨by assumption, Rat.le_refl, .inr rfl⟩
  · rename_i h
    exact ⟨Rat.le_refl, Rat.le_of_lt (Rat.not_le.1 h), .inl rfl⟩

/-- C23: an explicit `--timeout` is the limit of every test, with and without a baseline. -/
theorem C23_explicit_timeout (o : Options) (t : Rat) (h : o.testTimeout = some t) :
    (∀ b ts, Timeouts.fromBaseline b o = some ts → ts.test = some t) ∧
    (∀ ts, Timeouts.withoutBaseline o = some ts → ts.test = some t) ∧
    (Timeouts.forBaseline o).test = some t := by
  have e : ∀ d, testTimeout d o = some t := by intro d; simp [testTimeout, h]
  refine ⟨?_, ?_, h⟩
  · intro b ts hb
    simp only [Timeouts.fromBaseline, e, Option.bind_eq_bind, Option.bind_some, Option.bind_eq_some_iff] at hb
    obtain ⟨_, _, h2⟩ := hb
    simp only [Option.pure_def, Option.some.injEq] at h2
    rw [← h2]
  · intro ts hb
    simp only [Timeouts.withoutBaseline, e, Option.bind_eq_bind, Option.bind_some, Option.bind_eq_some_iff] at hb
    obtain ⟨_, _, h2⟩ := hb
    simp only [Option.pure_def, Option.some.injEq] at h2
    rw [← h2]

/-- The first result of this phase. -/
def FirstResult (b : ScenarioOutcome) (p : Phase) (r : PhaseResult) : Prop :=
  r.phase = p ∧ ∃ before after, b.phaseResults = before ++ r :: after ∧ ∀ x ∈ before, x.phase ≠ p

theorem firstResult_iff (b : ScenarioOutcome) (p : Phase) (r : PhaseResult) : b.phaseResult p = some r ↔ FirstResult b p r := by
  unfold ScenarioOutcome.phaseResult FirstResult
  rw [List.find?_eq_some_iff_append]
  simp

theorem secsOf_eq (n : Nat) : secsOf n = (n : Rat) / 1000000000 := rfl

/-- C23: without `--timeout`, after a baseline whose tests took `d` seconds, the limit of the tests of
mutants is the larger of the minimum and of the smallest whole number of seconds that is at least the
multiplier (5 unless given) times `d`. -/
theorem C23_auto_timeout (o : Options) (b : ScenarioOutcome) (r : PhaseResult) (ts : Timeouts)
    (h : o.testTimeout = none) (hr : FirstResult b .test r)
    (hts : Timeouts.fromBaseline b o = some ts) :
    ∃ (limit : Rat) (whole : Int),
      ts.test = some limit ∧
      -- the whole number of seconds, rounded up
      (r.duration : Rat) / 1000000000 * o.testTimeoutMultiplier.getD 5 ≤ whole ∧
      (whole : Rat) < (r.duration : Rat) / 1000000000 * o.testTimeoutMultiplier.getD 5 + 1 ∧
      -- the larger of that and the minimum
      o.minimumTestTimeout ≤ limit ∧ (whole : Rat) ≤ limit ∧ (limit = o.minimumTestTimeout ∨ limit = whole) := by
  rw [← firstResult_iff] at hr
  rw [← secsOf_eq]
  simp only [Timeouts.fromBaseline, hr, Option.map_some, Option.bind_eq_bind, Option.bind_eq_some_iff] at hts
  obtain ⟨_, _, limit, h2, h3⟩ := hts
  simp only [Option.pure_def, Option.some.injEq] at h3
  simp only [testTimeout, h, Option.map_eq_some_iff] at h2
  obtain ⟨w, hw, h2⟩ := h2
  unfold durationOfSecs at hw
  split at hw
  · cases hw
  · simp only [Option.some.injEq] at hw
    obtain ⟨m1, m2, m3⟩ := ratMax_spec o.minimumTestTimeout w
    rw [h2] at m1 m2 m3
    rw [← hw] at m2 m3
    exact ⟨limit, _, by rw [← h3], Rat.le_ceil, Rat.ceil_lt, m1, m2, m3⟩

/-- C23: so if the multiplier is at least one, every test of a mutant may take as long as in the
baseline. -/
theorem C23_at_least_baseline (o : Options) (b : ScenarioOutcome) (r : PhaseResult) (ts : Timeouts)
    (h : o.testTimeout = none) (hr : FirstResult b .test r)
    (hm : 1 ≤ o.testTimeoutMultiplier.getD 5)
    (hts : Timeouts.fromBaseline b o = some ts) :
    ∃ limit, ts.test = some limit ∧ (r.duration : Rat) / 1000000000 ≤ limit := by
  obtain ⟨limit, whole, h1, h2, _, _, h5, _⟩ := C23_auto_timeout o b r ts h hr hts
  refine ⟨limit, h1, ?_⟩
  rw [← secsOf_eq] at h2 ⊢
  have hd : 0 ≤ secsOf r.duration := by
    unfold secsOf
    rw [Rat.div_def]
    exact Rat.mul_nonneg (by exact_mod_cast Nat.zero_le _) (by decide +kernel)
  have : secsOf r.duration * 1 ≤ secsOf r.duration * o.testTimeoutMultiplier.getD 5 :=
    Rat.mul_le_mul_of_nonneg_left hm hd
  rw [Rat.mul_one] at this
  exact Rat.le_trans this (Rat.le_trans h2 h5)

/-- C23: with no baseline the limit is 300 seconds (if tests are run at all). -/
theorem C23_no_baseline (o : Options) (h : o.testTimeout = none) (hc : o.checkOnly = false) :
    ∃ ts, Timeouts.withoutBaseline o = some ts ∧ ts.test = some 300 := by
  unfold Timeouts.withoutBaseline
  have e : testTimeout none o = some 300 := by simp [testTimeout, h, hc]
  cases hb : buildTimeout none o with
  | none =>
    exfalso
    unfold buildTimeout at hb
    split at hb <;> cases hb
  | some v => rw [e]; exact ⟨_, rfl, rfl⟩

/-- The rule never fails: with a positive multiplier a limit is always found. -/
theorem C23_total (o : Options) (b : ScenarioOutcome)
    (hm : ∀ m, o.testTimeoutMultiplier = some m → 0 ≤ m)
    (hb : ∀ m, o.buildTimeoutMultiplier = some m → 0 ≤ m) :
    ∃ ts, Timeouts.fromBaseline b o = some ts := by
  have hd : ∀ n, 0 ≤ secsOf n := by
    intro n
    unfold secsOf
    rw [Rat.div_def]
    exact Rat.mul_nonneg (by exact_mod_cast Nat.zero_le _) (by decide +kernel)
  have h1 : ∃ v, buildTimeout ((b.phaseResult .build).map fun r => secsOf r.duration) o = some v := by
    unfold buildTimeout
    cases o.buildTimeout with
    | some t => exact ⟨_, rfl⟩
    | none =>
      cases b.phaseResult .build with
      | none => exact ⟨_, rfl⟩
      | some r =>
        cases hx : o.buildTimeoutMultiplier with
        | none => exact ⟨_, rfl⟩
        | some m =>
          refine ⟨some (secsOf r.duration * m), ?_⟩
          simp only [Option.map_some]
          unfold durationOfSecs
          rw [if_neg (Rat.not_lt.2 (Rat.mul_nonneg (hd _) (hb m hx)))]
          rfl
  have h2 : ∃ v, testTimeout ((b.phaseResult .test).map fun r => secsOf r.duration) o = some v := by
    unfold testTimeout
    cases o.testTimeout with
    | some t => exact ⟨_, rfl⟩
    | none =>
      cases b.phaseResult .test with
      | none =>
        simp only [Option.map_none]
        split <;> exact ⟨_, rfl⟩
      | some r =>
        have hm' : 0 ≤ o.testTimeoutMultiplier.getD 5 := by
          cases hx : o.testTimeoutMultiplier with
          | none => decide
          | some m => exact hm m hx
        have hp := Rat.mul_nonneg (hd r.duration) hm'
        have hc : ¬ ((((secsOf r.duration * o.testTimeoutMultiplier.getD 5).ceil : Int) : Rat) < 0) :=
          Rat.not_lt.2 (Rat.le_trans hp Rat.le_ceil)
        refine ⟨ratMax o.minimumTestTimeout ((secsOf r.duration * o.testTimeoutMultiplier.getD 5).ceil : Int), ?_⟩
        simp only [Option.map_some]
        unfold durationOfSecs
        rw [if_neg hc]
        rfl
  obtain ⟨v1, e1⟩ := h1
  obtain ⟨v2, e2⟩ := h2
  unfold Timeouts.fromBaseline
  rw [e1, e2]
  exact ⟨_, rfl⟩

/-- A baseline whose tests took 6.5 seconds. -/
def sampleBaseline : ScenarioOutcome :=
  ⟨.baseline, [⟨.build, 30000000000, .success, []⟩, ⟨.test, 6500000000, .success, []⟩]⟩

example : Timeouts.fromBaseline sampleBaseline {} = some ⟨none, some 33⟩ := by decide +kernel
example : Timeouts.fromBaseline sampleBaseline { testTimeoutMultiplier := some 1 } = some ⟨none, some 20⟩ := by
  decide +kernel

/-! ### C24 -/

/-- C24: a build (or check) of a mutant has a limit only if `--build-timeout` is given, or a build
multiplier is given and a baseline build was measured; and then it is that number, or the product. -/
theorem C24_build_limit (o : Options) (b : ScenarioOutcome) (ts : Timeouts)
    (hts : Timeouts.fromBaseline b o = some ts) (phase : Phase) (hp : phase ≠ .test) (limit : Rat) :
    ts.forPhase phase = some limit ↔
      o.buildTimeout = some limit ∨
      (o.buildTimeout = none ∧ ∃ m r, o.buildTimeoutMultiplier = some m ∧
        FirstResult b .build r ∧ limit = (r.duration : Rat) / 1000000000 * m) := by
  simp only [← firstResult_iff, ← secsOf_eq]
  have e : ts.forPhase phase = ts.build := by cases phase <;> first | rfl | exact absurd rfl hp
  rw [e]
  simp only [Timeouts.fromBaseline, Option.bind_eq_bind, Option.bind_eq_some_iff] at hts
  obtain ⟨bt, h1, _, _, h3⟩ := hts
  simp only [Option.pure_def, Option.some.injEq] at h3
  rw [← h3]
  show bt = some limit ↔ _
  unfold buildTimeout at h1
  cases hb : o.buildTimeout with
  | some t =>
    simp only [hb, Option.some.injEq] at h1
    rw [← h1]
    simp
  | none =>
    cases hr : b.phaseResult .build with
    | none =>
      simp only [hb, hr, Option.map_none, Option.some.injEq] at h1
      rw [← h1]
      simp
    | some r =>
      cases hm : o.buildTimeoutMultiplier with
      | none =>
        simp only [hb, hr, hm, Option.map_some, Option.some.injEq] at h1
        rw [← h1]
        simp
      | some m =>
        simp only [hb, hr, hm, Option.map_some, Option.map_eq_some_iff] at h1
        obtain ⟨v, h4, h5⟩ := h1
        unfold durationOfSecs at h4
        split at h4
        · cases h4
        · simp only [Option.some.injEq] at h4
          rw [← h5, ← h4]
          simp [eq_comm]

/-- C24: with the baseline skipped only `--build-timeout` sets a limit. -/
theorem C24_build_limit_no_baseline (o : Options) (ts : Timeouts)
    (hts : Timeouts.withoutBaseline o = some ts) (phase : Phase) (hp : phase ≠ .test) :
    ts.forPhase phase = o.buildTimeout := by
  have e : ts.forPhase phase = ts.build := by cases phase <;> first | rfl | exact absurd rfl hp
  rw [e]
  simp only [Timeouts.withoutBaseline, Option.bind_eq_bind, Option.bind_eq_some_iff] at hts
  obtain ⟨bt, h1, _, _, h3⟩ := hts
  simp only [Option.pure_def, Option.some.injEq] at h3
  rw [← h3]
  show bt = _
  unfold buildTimeout at h1
  cases hb : o.buildTimeout <;> simp only [hb, Option.some.injEq] at h1 <;> rw [← h1]

/-- C24: the baseline build has no limit, whatever the options; the baseline test has exactly the
explicit one, if any. -/
theorem C24_baseline_limits (o : Options) :
    (Timeouts.forBaseline o).forPhase .build = none ∧
    (Timeouts.forBaseline o).forPhase .check = none ∧
    (Timeouts.forBaseline o).forPhase .test = o.testTimeout := ⟨rfl, rfl, rfl⟩

example : (Timeouts.fromBaseline sampleBaseline { buildTimeoutMultiplier := some 2 }).bind (·.forPhase .build) = some 60 := by
  decide +kernel

end CM.Props
