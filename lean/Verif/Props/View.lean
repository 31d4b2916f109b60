import Verif.Proofs.View
import Verif.Spec.View
import Verif.Props.Lab
import Verif.Props.Message
/-! Property C86: what the progress display shows. -/
namespace CM.Props
open CM CM.Spec CM.Lab

/-! ### The counters -/

theorem countsOf_shown (v : SummaryOutcome) (told : List ScenarioOutcome) :
    shownCount (View.countsOf told) v = told.countP fun o => o.summary == some v := by
  have key : ∀ (told : List ScenarioOutcome) (c : View.Counts),
      shownCount (told.foldl (fun c o => match o.summary with
        | some k => c.add k
        | none => c) c) v = shownCount c v + told.countP fun o => o.summary == some v := by
    intro told
    induction told with
    | nil => intro c; rfl
    | cons o told ih =>
      intro c
      rw [List.foldl_cons, ih, List.countP_cons]
      cases hs : o.summary with
      | none => simp
      | some k =>
        have : shownCount (c.add k) v = shownCount c v + if k = v then 1 else 0 := by
          cases k <;> cases v <;> rfl
        rw [this]
        by_cases hk : k = v
        · simp [hk]; omega
        · simp [hk]
  refine (key told {}).trans ?_
  have : shownCount {} v = 0 := by cases v <;> rfl
  rw [this, Nat.zero_add]

/-- A baseline is not caught, missed or unviable. -/
theorem summary_baseline {o : ScenarioOutcome} {v} (ho : o.scenario = .baseline) (hv : o.summary = some v) :
    v = .timeout ∨ v = .success ∨ v = .failure := by
  unfold ScenarioOutcome.summary at hv
  rw [ho] at hv
  simp only at hv
  split at hv
  · cases hv; exact .inl rfl
  · obtain ⟨b, _, hv⟩ := Option.bind_eq_some_iff.1 hv
    cases hv
    cases b
    · exact .inr (.inr rfl)
    · exact .inr (.inl rfl)

/-- A baseline that passed did not time out. -/
theorem passed_no_timeout {cfg : Lab.Config} {o : ScenarioOutcome} (hc : Complete cfg.phases o.phaseResults)
    (hs : o.success = some true) : o.hasTimeout = false := by
  have all : ∀ r ∈ o.phaseResults, r.status.isSuccess = true := by
    rcases hc with h | ⟨rs0, r, rest, h1, _, _, h3⟩
    · exact h.2
    · unfold ScenarioOutcome.success ScenarioOutcome.lastPhaseResult at hs
      rw [h1] at hs
      simp at hs
      rw [hs] at h3; cases h3
  unfold ScenarioOutcome.hasTimeout
  rw [List.any_eq_false]
  intro r hr
  have := all r hr
  unfold Exit.isSuccess at this
  rw [eq_of_beq this]
  decide

theorem jsonCount_eq {cfg : Lab.Config} {s : Lab.State} (h : Records cfg s) (v : SummaryOutcome) (hv : v ∈ barWords.map (·.1)) :
    jsonCount s.sh.out.lab v = countVerdict v s.sh.out.lab.outcomes ∧
    s.sh.out.lab.totalMutants = countMutants s.sh.out.lab.outcomes := by
  obtain ⟨_, h1, h2, h3, h4, h5, _⟩ := addAll_spec h.lab
  simp only [Nat.zero_add] at h1 h2 h3 h4 h5
  refine ⟨?_, h1⟩
  cases v
  case missedMutant => exact h2
  case caughtMutant => exact h3
  case timeout => exact h4
  case unviable => exact h5
  all_goals (simp [barWords] at hv)

theorem countP_about (p : SummaryOutcome → Bool) (ws : List Pc) :
    (ws.filterMap Pc.untold).countP (fun o => o.scenario.isMutant && o.summary.any p) = ws.countP (AboutToReport p) := by
  induction ws with
  | nil => rfl
  | cons pc ws ih =>
    cases pc
    case recorded d sc rs =>
      rw [List.filterMap_cons, List.countP_cons]
      show (ScenarioOutcome.mk sc rs :: ws.filterMap Pc.untold).countP _ = _
      rw [List.countP_cons, ih]
      cases sc <;> rfl
    all_goals
      rw [List.filterMap_cons, List.countP_cons]
      exact ih

/-- What is counted, when only outcomes of mutants have the verdict. -/
theorem counts_of_told {cfg : Lab.Config} {s : View.State} (hi : View.Inv cfg s) (hr : Records cfg s.lab) (v : SummaryOutcome)
    (hv : v ∈ barWords.map (·.1)) (hb : ∀ o ∈ s.lab.sh.out.lab.outcomes, o.scenario = .baseline → o.summary ≠ some v) :
    (shownCount s.counts v + s.lab.workers.countP (AboutToReport (· == v)) ≤ jsonCount s.lab.sh.out.lab v ∧
      s.lab.sh.console.done + s.lab.workers.countP (AboutToReport fun _ => true) ≤ s.lab.sh.out.lab.totalMutants) ∧
    ((∀ pc ∈ s.lab.workers, pc.isFailed = false) →
      shownCount s.counts v + s.lab.workers.countP (AboutToReport (· == v)) = jsonCount s.lab.sh.out.lab v ∧
      s.lab.sh.console.done + s.lab.workers.countP (AboutToReport fun _ => true) = s.lab.sh.out.lab.totalMutants) := by
  obtain ⟨told, lost, t1, t2, t3, t4⟩ := hi.told
  obtain ⟨j1, j2⟩ := jsonCount_eq hr v hv
  have hsub : ∀ o ∈ told, o ∈ s.lab.sh.out.lab.outcomes := fun o ho => t2.symm.subset (by simp [ho])
  have hun : ∀ o ∈ s.lab.workers.filterMap Pc.untold, o ∈ s.lab.sh.out.lab.outcomes :=
    fun o ho => t2.symm.subset (List.mem_append.2 (.inl (List.mem_append.2 (.inr ho))))
  have e1 : shownCount s.counts v = countVerdict v told := by
    rw [t1, countsOf_shown]
    unfold countVerdict
    refine List.countP_congr fun o ho => ?_
    constructor
    · intro h
      rw [h, Bool.and_true]
      cases hsc : o.scenario with
      | mutant m => rfl
      | baseline => exact (hb o (hsub o ho) hsc (eq_of_beq h)).elim
    · intro h
      exact (Bool.and_eq_true_iff.1 h).2
  have e2 : s.lab.workers.countP (AboutToReport (· == v)) = countVerdict v (s.lab.workers.filterMap Pc.untold) := by
    rw [← countP_about]
    unfold countVerdict
    refine List.countP_congr fun o _ => ?_
    cases o.summary <;> simp
  have e3 : s.lab.workers.countP (AboutToReport fun _ => true) = countMutants (s.lab.workers.filterMap Pc.untold) := by
    rw [← countP_about]
    unfold countMutants
    refine List.countP_congr fun o ho => ?_
    cases hsc : o.scenario with
    | baseline => simp [Scenario.isMutant]
    | mutant m =>
      have hmut : o.scenario.isMutant = true := by rw [hsc]; rfl
      obtain ⟨_, _, _, _, _, _, _, hs⟩ := addAll_spec hr.lab
      have := hs o (hun o ho) hmut
      obtain ⟨k, hk⟩ := Option.ne_none_iff_exists'.1 this
      simp [hk, Scenario.isMutant]
  have e4 : countVerdict v s.lab.sh.out.lab.outcomes =
      countVerdict v told + countVerdict v (s.lab.workers.filterMap Pc.untold) + countVerdict v lost := by
    unfold countVerdict
    rw [t2.countP_eq, List.countP_append, List.countP_append]
  have e5 : countMutants s.lab.sh.out.lab.outcomes =
      countMutants told + countMutants (s.lab.workers.filterMap Pc.untold) + countMutants lost := by
    unfold countMutants
    rw [t2.countP_eq, List.countP_append, List.countP_append]
  rw [e1, e2, e3, j1, j2, t4, e4, e5]
  refine ⟨⟨by omega, by omega⟩, fun hf => ?_⟩
  rw [t3 hf]
  exact ⟨rfl, rfl⟩

theorem tested_baseline {cfg : Lab.Config} {s : Lab.State} (hr : Records cfg s) (ht : Tested cfg s.sh.out.lab.outcomes)
    (v : SummaryOutcome) (hv : v ∈ barWords.map (·.1)) : ∀ o ∈ s.sh.out.lab.outcomes, o.scenario = .baseline → o.summary ≠ some v := by
  intro o ho hb hsum
  obtain ⟨bs, ms, h1, h2, h3⟩ := ht
  have hpass : o.success = some true := by
    rw [h1] at ho
    rcases List.mem_append.1 ho with ho | ho
    · split at h3
      · obtain ⟨o', rfl, _, h⟩ := h3
        rw [List.mem_singleton.1 ho]; exact h
      · rw [h3] at ho; cases ho
    · have := h2 o ho
      rw [hb] at this; cases this
  have hnt := passed_no_timeout (cfg := cfg) (hr.complete o ho) hpass
  have : o.summary = some .success := by
    unfold ScenarioOutcome.summary
    rw [hb]
    simp [hnt, hpass]
  rw [this] at hsum
  cases hsum
  simp [barWords] at hv

/-- **C86**: while mutants are tested, the numbers shown are those of `outcomes.json`, but for what threads are just about to
report, and what was recorded by threads that failed. -/
theorem C86_counts (cfg : Lab.Config) (hj : cfg.JobsOk) (s : View.State) (h : View.Reachable cfg s) (hm : s.lab.main = .testing)
    (v : SummaryOutcome) (hv : v ∈ barWords.map (·.1)) :
    (shownCount s.counts v + s.lab.workers.countP (AboutToReport (· == v)) ≤ jsonCount s.lab.sh.out.lab v ∧
      s.lab.sh.console.done + s.lab.workers.countP (AboutToReport fun _ => true) ≤ s.lab.sh.out.lab.totalMutants) ∧
    ((∀ pc ∈ s.lab.workers, pc.isFailed = false) →
      shownCount s.counts v + s.lab.workers.countP (AboutToReport (· == v)) = jsonCount s.lab.sh.out.lab v ∧
      s.lab.sh.console.done + s.lab.workers.countP (AboutToReport fun _ => true) = s.lab.sh.out.lab.totalMutants) := by
  obtain ⟨hl, hi⟩ := View.reachable_inv hj h
  have hr := reachable_records hl
  have ho := hr.order
  rw [hm] at ho
  exact counts_of_told hi hr v hv (tested_baseline hr ho v hv)

/-- **C86**: at the end of a run without error whose baseline did not fail they are those of `outcomes.json`. -/
theorem C86_counts_at_end (cfg : Lab.Config) (hj : cfg.JobsOk) (s : View.State) (h : View.Reachable cfg s) (l : LabOutcome)
    (hm : s.lab.main = .returned (some l)) (hb : ∀ o ∈ l.outcomes, o.scenario = .baseline → o.success = some true)
    (v : SummaryOutcome) (hv : v ∈ barWords.map (·.1)) :
    shownCount s.counts v = jsonCount l v ∧ s.lab.sh.console.done = l.totalMutants := by
  obtain ⟨hl, hi⟩ := View.reachable_inv hj h
  have hr := reachable_records hl
  have ho := hr.order
  rw [hm] at ho
  rcases ho with ⟨_, rfl, hz⟩ | ⟨rfl, hf, ⟨_, o, ho, hbase, hs⟩ | ⟨ht, _, hfin⟩⟩
  · obtain ⟨told, lost, t1, t2, _, t4⟩ := hi.told
    rw [hz] at t2
    have hnil : told = [] := by
      cases told with
      | nil => rfl
      | cons o os => have := t2.length_eq; simp at this
    rw [t1, t4, hnil]
    refine ⟨?_, rfl⟩
    cases v <;> rfl
  · exact (hs (hb o (by rw [ho]; exact List.mem_singleton.2 rfl) hbase)).elim
  · have hz : ∀ p, s.lab.workers.countP (AboutToReport p) = 0 := by
      intro p
      refine List.countP_eq_zero.2 fun pc hpc => ?_
      have := hfin pc hpc
      cases pc <;> first | (cases this; done) | exact fun h => by cases h
    have := (counts_of_told hi hr v hv (tested_baseline hr ht v hv)).2 hf
    rw [hz, hz] at this
    exact this

/-! ### The last line -/

/-- **C86**: the last line names the mutants done and all, each verdict with a number that is not zero, the time, and when
three are done also the time that remains. -/
theorem C86_line (time : Int → Text) (elapsed : Int) (testing : Rat) (c : Console) (n : View.Counts) (hs : c.labStarted = true) :
    View.bar time elapsed testing c n =
      commas ([decimal c.done ++ "/".toList ++ decimal c.nMutants ++ " mutants tested".toList] ++
        ((barWords.filter fun w => shownCount n w.1 ≠ 0).map fun w => decimal (shownCount n w.1) ++ " ".toList ++ w.2) ++
        [time elapsed ++ " elapsed".toList] ++
        if 3 ≤ c.done then ["about ".toList ++ time (View.remainingSeconds testing c.done c.nMutants) ++ " remaining".toList] else []) := by
  have hp : ∀ n : Nat, (n > 0) = (n ≠ 0) := fun n => by simp [Nat.pos_iff_ne_zero]
  have h3 : (c.done > 2) = (3 ≤ c.done) := rfl
  unfold View.bar
  rw [if_pos hs]
  simp only [hp, h3, barWords, List.filter_cons, List.filter_nil, shownCount]
  by_cases a : n.missed = 0 <;> by_cases b : n.timeouts = 0 <;> by_cases d : n.caught = 0 <;> by_cases e : n.unviable = 0 <;>
    by_cases f : 3 ≤ c.done <;> simp [a, b, d, e, f, commas, List.append_assoc]

/-- **C86**: the time that remains is the mean time for a mutant times the number that are left, rounded up: to seconds up to
five minutes, and above to minutes, by at most a minute and a half. -/
theorem C86_remaining (elapsed : Rat) (done total : Nat) (he : 0 ≤ elapsed) (hd : 0 < done) (ht : done ≤ total) :
    let estimate : Rat := elapsed / done * ((total - done : Nat) : Rat)
    let shown : Rat := (View.remainingSeconds elapsed done total : Rat)
    0 ≤ estimate ∧ estimate ≤ shown ∧ shown < estimate + 90 ∧ (estimate ≤ 300 → shown < estimate + 1) ∧
      (300 < estimate → View.remainingSeconds elapsed done total % 60 = 0) := by
  intro estimate shown
  have hd' : (0 : Rat) < (done : Rat) := by exact_mod_cast hd
  have hcast : ((total - done : Nat) : Rat) = (total : Rat) - done := by
    have : ((total - done : Nat) : Rat) + done = total := by
      rw [← Rat.natCast_add, Nat.sub_add_cancel ht]
    grind
  have heq : elapsed * ((total : Rat) - done) / done = estimate := by
    show _ = elapsed / done * ((total - done : Nat) : Rat)
    rw [hcast]
    grind
  have hpos : 0 ≤ estimate := by
    have h1 : 0 ≤ elapsed / done := by
      rw [Rat.div_def]
      exact Rat.mul_nonneg he (Rat.le_of_lt (Rat.inv_pos.2 hd'))
    have h2 : (0 : Rat) ≤ ((total - done : Nat) : Rat) := by exact_mod_cast Nat.zero_le _
    exact Rat.mul_nonneg h1 h2
  by_cases h300 : estimate > 300
  · have hr : View.remainingSeconds elapsed done total = ((estimate + 30) / 60).ceil * 60 := by
      unfold View.remainingSeconds
      simp only [heq, if_pos h300]
      have : ((((estimate + 30) / 60).ceil : Rat) * 60) = (((((estimate + 30) / 60).ceil * 60 : Int)) : Rat) := by
        rw [Rat.intCast_mul]; rfl
      rw [this, Rat.ceil_intCast]
    have hs : shown = (((estimate + 30) / 60).ceil : Rat) * 60 := by
      show ((View.remainingSeconds elapsed done total : Int) : Rat) = _
      rw [hr, Rat.intCast_mul]; rfl
    have l1 := Rat.le_ceil (x := (estimate + 30) / 60)
    have l2 := Rat.ceil_lt (x := (estimate + 30) / 60)
    refine ⟨hpos, ?_, ?_, ?_, ?_⟩
    · rw [hs]; grind
    · rw [hs]; grind
    · intro h; grind
    · intro _; rw [hr]; omega
  · have hr : View.remainingSeconds elapsed done total = estimate.ceil := by
      unfold View.remainingSeconds
      simp only [heq, if_neg h300]
    have hs : shown = (estimate.ceil : Rat) := by
      show ((View.remainingSeconds elapsed done total : Int) : Rat) = _
      rw [hr]
    have l1 := Rat.le_ceil (x := estimate)
    have l2 := Rat.ceil_lt (x := estimate)
    refine ⟨hpos, ?_, ?_, ?_, ?_⟩
    · rw [hs]; exact l1
    · rw [hs]; grind
    · intro _; rw [hs]; exact l2
    · intro h; exact (h300 h).elim

/-! ### The scenarios -/

theorem zip_filter {α β} (d : DirId) : ∀ (a : List (DirId × α)) (b : List (DirId × β)), a.map (·.1) = b.map (·.1) →
    ((a.zip b).map fun x => (x.1.1, x.1.2, x.2.2)).filter (fun r => r.1 = d) =
      ((a.filter fun e => e.1 = d).zip (b.filter fun e => e.1 = d)).map fun x => (x.1.1, x.1.2, x.2.2)
  | [], [], _ => rfl
  | [], _ :: _, h => by cases h
  | _ :: _, [], h => by cases h
  | x :: a, y :: b, h => by
    obtain ⟨h1, h2⟩ := List.cons.inj h
    have ih := zip_filter d a b h2
    have h1 : x.1 = y.1 := h1
    simp only [List.zip_cons_cons, List.map_cons, List.filter_cons, ← h1]
    by_cases hx : x.1 = d
    · simp [hx, ih]
    · simp [hx, ih]

/-- **C86**: for each thread that is testing a scenario there is exactly one row with its directory, and it shows the scenario,
and the phase if a command is running; for one that is not, there is none, unless it failed. -/
theorem C86_rows (cfg : Lab.Config) (hj : cfg.JobsOk) (s : View.State) (h : View.Reachable cfg s)
    (hm : ∀ r, s.lab.main ≠ .returned r) (pc : Pc) (hpc : pc ∈ s.lab.workers) (d : DirId) (hd : pc.dir = some d) (hf : pc.isFailed = false)
    (hf' : ∀ sc, pc ≠ .failing d sc) :
    s.rows.filter (fun r => r.1 = d) = (Testing pc).toList.map fun x => (d, x.1, x.2) := by
  obtain ⟨hl, hi⟩ := View.reachable_inv hj h
  obtain ⟨i, hget⟩ := List.getElem?_of_mem hpc
  have hc := (reachable_console hj hl).ok i pc hget
  have hr := hi.rows i pc d hget hd hf hm
  unfold View.State.rows
  rw [zip_filter d _ _ (hi.aligned hm)]
  unfold View.rowsOf at hr
  rw [hr]
  cases pc
  case failing d' sc => cases hd; exact (hf' sc rfl).elim
  case failed => cases hf
  case command d' sc p todo rs =>
    cases hd
    have hc : (s.lab.sh.console.scenarios.filter fun e => e.1 = d) = [(d, some p)] := hc
    rw [hc]; rfl
  case new => cases hd
  case mustCopy => cases hd
  case started d' sc =>
    cases hd
    have hc : (s.lab.sh.console.scenarios.filter fun e => e.1 = d) = [(d, none)] := hc
    rw [hc]; rfl
  case diffed d' sc =>
    cases hd
    have hc : (s.lab.sh.console.scenarios.filter fun e => e.1 = d) = [(d, none)] := hc
    rw [hc]; rfl
  case ready d' sc _ _ =>
    cases hd
    have hc : (s.lab.sh.console.scenarios.filter fun e => e.1 = d) = [(d, none)] := hc
    rw [hc]; rfl
  case reverted d' sc _ =>
    cases hd
    have hc : (s.lab.sh.console.scenarios.filter fun e => e.1 = d) = [(d, none)] := hc
    rw [hc]; rfl
  case recorded d' sc _ =>
    cases hd
    have hc : (s.lab.sh.console.scenarios.filter fun e => e.1 = d) = [(d, none)] := hc
    rw [hc]; rfl
  all_goals rfl

/-- **C86**: and there is no other row, except with the directory of a thread that failed. -/
theorem C86_no_other_rows (cfg : Lab.Config) (hj : cfg.JobsOk) (s : View.State) (h : View.Reachable cfg s)
    (hm : ∀ r, s.lab.main ≠ .returned r) (d : DirId) (sc : Scenario) (p : Option Phase) (hrow : (d, sc, p) ∈ s.rows) :
    ∃ pc ∈ s.lab.workers, pc.dir = some d ∧ (Testing pc = some (sc, p) ∨ pc = .failing d sc ∨ pc.isFailed = true) := by
  obtain ⟨hl, hi⟩ := View.reachable_inv hj h
  have hmem : (d, sc) ∈ s.names := by
    unfold View.State.rows at hrow
    obtain ⟨⟨a, b⟩, hx, he⟩ := List.mem_map.1 hrow
    obtain ⟨h1, _⟩ := List.of_mem_zip hx
    cases he
    exact h1
  obtain ⟨i, pc, hpc, hdir, hs⟩ := hi.only hm _ hmem
  refine ⟨pc, List.mem_of_getElem? hpc, hdir, ?_⟩
  by_cases hf : pc.isFailed = true
  · exact .inr (.inr hf)
  · have hf : pc.isFailed = false := by simpa using hf
    by_cases hfl : ∃ sc', pc = .failing d sc'
    · obtain ⟨sc', rfl⟩ := hfl
      have hr := hi.rows i _ d hpc hdir hf hm
      have : (d, sc) ∈ View.rowsOf s.names d := List.mem_filter.2 ⟨hmem, by simp⟩
      rw [hr] at this
      simp [View.shown] at this
      rw [this]
      exact .inr (.inl rfl)
    · have := C86_rows cfg hj s h hm pc (List.mem_of_getElem? hpc) d hdir hf fun sc' hx => hfl ⟨sc', hx⟩
      have hx : (d, sc, p) ∈ s.rows.filter (fun r => r.1 = d) := List.mem_filter.2 ⟨hrow, by simp⟩
      rw [this] at hx
      obtain ⟨y, hy, he⟩ := List.mem_map.1 hx
      obtain ⟨a, b⟩ := y
      cases he
      exact .inl (by simpa using hy)

/-- **C86**: a line shows the phase, the name of the mutant with its place, the time, and below it the last line of the log. -/
theorem C86_row_text (secs : Text) (tail : Option Text) (sc : Scenario) (p : Option Phase) (n : Text) (hn : calledAs sc = some n) :
    View.row secs tail sc p =
      some (phaseColumn p ++ n ++ " ... ".toList ++ secs ++ (tail.elim [] fun l => "\n└        ".toList ++ l)) := by
  unfold View.row
  rw [styled_calledAs, hn]
  have h : ∀ (a b c : Text), joinWith " ".toList [a, b, c] = a ++ " ".toList ++ (b ++ " ".toList ++ c) := fun _ _ _ => rfl
  have h4 : ∀ (x a b c : Text), joinWith " ".toList [x, a, b, c] = x ++ " ".toList ++ (a ++ " ".toList ++ (b ++ " ".toList ++ c)) :=
    fun _ _ _ _ => rfl
  have hp : ∀ p : Phase, padTo 8 p.name ++ " ".toList = phaseColumn (some p) := by
    intro p; cases p <;> decide +kernel
  have e : ∀ x : Text, " ".toList ++ ("...".toList ++ (" ".toList ++ x)) = " ... ".toList ++ x := by
    intro x
    rw [← List.append_assoc, ← List.append_assoc]
    exact congrArg (· ++ x) (by decide +kernel)
  have key : joinWith " ".toList ((p.toList.map fun p => padTo 8 p.name) ++ [n, "...".toList, secs]) =
      phaseColumn p ++ n ++ " ... ".toList ++ secs := by
    cases p with
    | none => exact (h _ _ _).trans (by rw [List.append_assoc, List.append_assoc, e]; rw [show phaseColumn none = [] from rfl, List.nil_append, List.append_assoc])
    | some p => exact (h4 _ _ _ _).trans (by rw [hp, List.append_assoc n, List.append_assoc "...".toList, e]; simp only [List.append_assoc])
  cases tail with
  | none => exact congrArg some (congrArg (· ++ []) key)
  | some l => exact congrArg some (congrArg (· ++ ("\n└        ".toList ++ l)) key)

/-- **C86**: what is displayed changes nothing: every execution of the system of C30 is one of this. -/
theorem C86_adds_nothing (cfg : Lab.Config) (es : List Lab.Event) :
    (View.exec cfg (View.init cfg) es).map (·.lab) = Lab.exec cfg (Lab.init cfg) es := by
  have key : ∀ (es : List Lab.Event) (s : View.State), (View.exec cfg s es).map (·.lab) = Lab.exec cfg s.lab es := by
    intro es
    induction es with
    | nil => intro s; rfl
    | cons e es ih =>
      intro s
      show ((View.step cfg s e).bind fun s => View.exec cfg s es).map (·.lab) =
        (Lab.step cfg s.lab e).bind fun l => Lab.exec cfg l es
      cases hl : Lab.step cfg s.lab e with
      | none =>
        have : View.step cfg s e = none := by unfold View.step; rw [hl]; rfl
        rw [this]; rfl
      | some l =>
        obtain ⟨t, ht⟩ : ∃ t, View.step cfg s e = some t := by
          unfold View.step; rw [hl]; exact ⟨_, rfl⟩
        have := View.step_lab ht
        rw [hl] at this
        cases this
        rw [ht]
        exact ih t
  exact key es _

/-- The display in the middle of the run of C30. -/
def displayed (cfg : Lab.Config) (es : List Lab.Event) : Option (List (Option Text) × Text) :=
  (View.exec cfg (View.init cfg) es).map fun s =>
    (s.rows.map fun r => View.row "1.0s".toList none r.2.1 r.2.2,
      View.bar (fun n => decimal n.toNat ++ "s".toList) 7 4 s.lab.sh.console s.counts)

example : displayed Sample.cfg (Sample.run.take 7) = some ([some "build    Unmutated baseline ... 1.0s".toList],
    "0/2 mutants tested, 7s elapsed".toList) := by decide +kernel
example : displayed Sample.cfg (Sample.run.take 32) = some (
    [some "build    src/lib.rs:1:18: replace f -> bool with true ... 1.0s".toList,
      some "test     src/m.rs:1:16: replace g -> u8 with 0 ... 1.0s".toList],
    "0/2 mutants tested, 7s elapsed".toList) := by decide +kernel
example : displayed Sample.cfg (Sample.run.take 36) = some (
    [some "build    src/lib.rs:1:18: replace f -> bool with true ... 1.0s".toList],
    "1/2 mutants tested, 1 caught, 7s elapsed".toList) := by decide +kernel
example : displayed Sample.cfg Sample.run = some ([], "2/2 mutants tested, 1 MISSED, 1 caught, 7s elapsed".toList) := by
  decide +kernel
/-- A baseline that timed out is counted as a timeout, though no mutant was tested. -/
example : displayed Sample.cfg (Sample.begin_ .timeout) = some ([], "0/2 mutants tested, 1 timeout, 7s elapsed".toList) := by
  decide +kernel
example : View.remainingSeconds 10 3 10 = 24 ∧ View.remainingSeconds 1000 3 10 = 2400 := by decide +kernel

end CM.Props
