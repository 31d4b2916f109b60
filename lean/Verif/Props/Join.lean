import Verif.Proofs.Loss
import Verif.Props.Lab
/-! C88: how a run ends in which threads fail; C89: what is lost. -/
namespace CM.Props
open CM CM.Lab CM.Join CM.Spec

/-! ### C88 -/

/-- **C88**: when the worker threads have been joined, all of them have ended, and the run ends with the panic of the first
thread that panicked; without a panic, with the error of the first one that failed; and with an outcome only if all returned
`Ok`. -/
theorem C88_first_failure (cfg : Config) (s s' : Join.State) (ok : Bool) (why : Ending) (h : Join.Reachable cfg s)
    (ht : s.lab.main = .testing) (hst : Join.step cfg s (.main ok why) = some s') :
    (∀ pc ∈ s.lab.workers, pc.isFinished = true ∨ pc.isFailed = true) ∧
    (∀ k, s'.result = some (.panic k) ↔ First IsPanic (endings s) (.panic k)) ∧
    (∀ e, s'.result = some (.error e) ↔
      (∀ x ∈ endings s, ¬ IsPanic x) ∧ First (· ≠ .ok) (endings s) (.error e)) ∧
    (s'.result = some .ok ↔ ∀ x ∈ endings s, x = .ok) := by
  obtain ⟨l, hm, hwhy, rfl⟩ := main_step hst
  have hall : ∀ pc ∈ s.lab.workers, pc.isFinished = true ∨ pc.isFailed = true := by
    unfold mstep at hm
    rw [ht] at hm
    simp only at hm
    split at hm
    · rename_i hw; simpa using hw
    · cases hm
  have hret : ∃ r, l.main = .returned r := by
    cases mstep_rel hm
    case workerFailed => exact ⟨_, rfl⟩
    case tested => exact ⟨_, rfl⟩
    all_goals (rename_i hs; first | (rw [ht] at hs; cases hs; done) | skip)
    all_goals simp_all
  obtain ⟨r, hret⟩ := hret
  have hres : (s.mainStep why l).result = some (joinThreads (endings s)).2 := by
    simp [State.mainStep, hret, ht, endings]
  refine ⟨hall, ?_, ?_, ?_⟩
  · intro k; rw [hres, Option.some.injEq, join_panic]
  · intro e; rw [hres, Option.some.injEq, join_error]
  · rw [hres, Option.some.injEq, join_ok]

/-- **C88**: without a panic every error of a thread is printed, once and in the order of the threads, except that
interruption is not; it is never printed here. -/
theorem C88_printed (cfg : Config) (s s' : Join.State) (ok : Bool) (why : Ending) (h : Join.Reachable cfg s)
    (ht : s.lab.main = .testing) (hst : Join.step cfg s (.main ok why) = some s') :
    Err.interrupted ∉ s'.printed ∧
    ((∀ x ∈ endings s, ¬ IsPanic x) →
      s'.printed.map Ending.error = (endings s).filter fun x => x ≠ .ok ∧ x ≠ .error .interrupted) := by
  obtain ⟨l, hm, hwhy, rfl⟩ := main_step hst
  have hret : ∃ r, l.main = .returned r := by
    cases mstep_rel hm
    case workerFailed => exact ⟨_, rfl⟩
    case tested => exact ⟨_, rfl⟩
    all_goals (rename_i hs; first | (rw [ht] at hs; cases hs; done) | skip)
    all_goals simp_all
  obtain ⟨r, hret⟩ := hret
  have hpr : (s.mainStep why l).printed = (joinThreads (endings s)).1 := by
    simp [State.mainStep, hret, ht, endings]
  rw [hpr]
  refine ⟨join_quiet _, fun hnp => ?_⟩
  rw [join_printed hnp]
  revert hnp
  generalize endings s = l
  intro hnp
  induction l with
  | nil => rfl
  | cons x l ih =>
    have ih := ih fun x hx => hnp x (by simp [hx])
    cases x with
    | ok => simpa using ih
    | panic k => exact absurd trivial (hnp (.panic k) (by simp))
    | error e => cases e <;> simp_all

/-- **C88**: how a thread has ended: it holds a panic exactly if it panicked, an error exactly if it failed otherwise, and
nothing as long as nothing has failed. The state of `Lab` and this one agree on whether there was a panic, and on whether the
run returns an outcome. -/
theorem C88_endings (cfg : Config) (s : Join.State) (h : Join.Reachable cfg s) :
    (∀ (i : Nat) pc, s.lab.workers[i]? = some pc →
      (s.held i = .ok ↔ ¬ Failing pc) ∧ (IsPanic (s.held i) → pc.isFailed = true)) ∧
    ((∃ (i : Nat) (k : Option Panic), i < s.lab.workers.length ∧ s.held i = .panic k) ↔ s.lab.sh.panicked ≠ none) ∧
    (s.result = none ↔ ∀ r, s.lab.main ≠ .returned r) ∧
    (s.result = some .ok ↔ ∃ l, s.lab.main = .returned (some l)) := by
  obtain ⟨es, h⟩ := h
  have ht := trace h
  refine ⟨?_, ?_, ?_, ?_⟩
  · intro i pc hi
    have hh := ht.holds i pc hi
    by_cases hf : Failing pc
    · by_cases hfl : ∃ d sc, pc = .failing d sc
      · obtain ⟨e, he⟩ := hh.failing hfl
        simp [he, hf, IsPanic]
      · have hpf : pc.isFailed = true := by cases pc <;> first | rfl | exact hf.elim | exact absurd ⟨_, _, rfl⟩ hfl
        exact ⟨⟨fun hok => absurd hok (hh.failed hpf), fun hn => absurd hf hn⟩, fun _ => hpf⟩
    · have := hh.fine hf
      simp [this, hf, IsPanic]
  · rw [← ht.panics]
    constructor
    · rintro ⟨i, k, _, hk⟩; exact ⟨i, k, hk⟩
    · rintro ⟨i, k, hk⟩
      refine ⟨i, k, ?_, hk⟩
      apply Classical.byContradiction
      intro hlt
      have := ht.beyond i (List.getElem?_eq_none (by omega))
      rw [hk] at this; cases this
  · constructor
    · intro hn r hr
      obtain ⟨x, hx, _⟩ := ht.returned r hr
      rw [hn] at hx; cases hx
    · intro hn; exact (ht.running hn).1
  · constructor
    · intro hok
      apply Classical.byContradiction
      intro hn
      by_cases hret : ∃ r, s.lab.main = .returned r
      · obtain ⟨r, hr⟩ := hret
        obtain ⟨x, hx, hxr⟩ := ht.returned r hr
        rw [hok] at hx
        cases hx
        cases r with
        | none => exact absurd rfl (hxr.1 rfl)
        | some l => exact hn ⟨l, hr⟩
      · rw [(ht.running fun r hr => hret ⟨r, hr⟩).1] at hok
        cases hok
    · rintro ⟨l, hl⟩
      obtain ⟨x, hx, hxr⟩ := ht.returned _ hl
      rw [hx, hxr.2 (by simp)]

/-- **C88**: the error that a thread ends with is that of an operation of this thread that failed: the one that made it fail,
or reverting after that. -/
theorem C88_own_error (cfg : Config) (es : List Join.Event) (s : Join.State) (h : Join.exec cfg (Join.init cfg) es = some s)
    (i n : Nat) (hi : s.held i = .error (.other n)) : FailedWith cfg es i (.other n) := (trace h).own i n hi

/-- **C88**: "interrupted" is the error of a thread or of the run only if ctrl-C was pressed. -/
theorem C88_interrupted (cfg : Config) (s : Join.State) (h : Join.Reachable cfg s)
    (hi : s.result = some (.error .interrupted) ∨ ∃ i, s.held i = .error .interrupted) : s.lab.sh.interrupted = true := by
  obtain ⟨es, h⟩ := h
  rcases hi with hi | ⟨i, hi⟩
  · exact (trace h).result hi
  · exact (trace h).interrupted i hi

/-- **C88**: if nothing fails but the checks for ctrl-C, then a run ends with an outcome or with "interrupted" (code 1), and
nothing is printed about threads. -/
theorem C88_only_interrupts (cfg : Config) (hj : cfg.JobsOk) (hc : cfg.Consistent)
    (hfiles : ∀ m ∈ cfg.mutants, (cfg.base m.sourceFile.path).isSome)
    (hnames : ∀ m ∈ cfg.mutants, m.name true ≠ none) (es : List Join.Event) (s : Join.State)
    (he : ∀ ev ∈ es, OnlyInterrupts ev) (h : Join.exec cfg (Join.init cfg) es = some s) :
    s.printed = [] ∧ ∀ x, s.result = some x → x = .ok ∨ (x = .error .interrupted ∧ x.exitCode = some 1) := by
  have := calm hj hc hfiles hnames he h
  refine ⟨this.printed, fun x hx => ?_⟩
  rcases this.result with h1 | h1 | h1 <;> rw [hx] at h1 <;> cases h1
  · exact .inl rfl
  · exact .inr ⟨rfl, rfl⟩

/-- **C88**: the code is 101 if a run ends with a panic and 1 if it ends with an error; a panic has one of two causes: a thread
could not read a log as text, or the time limits could not be computed. -/
theorem C88_panics (cfg : Config) (hj : cfg.JobsOk) (hnames : ∀ m ∈ cfg.mutants, m.name true ≠ none)
    (es : List Join.Event) (s : Join.State) (h : Join.exec cfg (Join.init cfg) es = some s) (x : Ending)
    (hx : s.result = some x) :
    (IsPanic x ↔ x.exitCode = some 101) ∧ ((∃ e, x = .error e) ↔ x.exitCode = some 1) ∧
    (x.exitCode = some 101 → (∃ i e, Join.Event.worker i .logUnreadable e ∈ es) ∨ Join.Event.main false (.panic none) ∈ es) := by
  cases x with
  | ok => simp [IsPanic, Ending.exitCode]
  | error e => simp [IsPanic, Ending.exitCode]
  | panic k =>
    refine ⟨by simp [IsPanic, Ending.exitCode], by simp [Ending.exitCode], fun _ => ?_⟩
    rcases (panic_events h hj hnames).2 k hx with ⟨_, h1⟩ | ⟨_, h1⟩
    · exact .inl h1
    · exact .inr h1

/-- The runs are those of `Lab`, so that what is proved there holds here. -/
theorem C88_adds_nothing (cfg : Config) (s : Join.State) (h : Join.Reachable cfg s) : Lab.Reachable cfg s.lab := reachable_lab h

/-! Two threads that are building a mutant each. -/

/-- With an error that is not used. -/
def withErr : Lab.Event → Join.Event
  | .interrupt => .interrupt
  | .main ok => .main ok (.error (.other 0))
  | .worker i c => .worker i c (.other 0)

def bothBuild : List Join.Event := (Sample.begin_ .success ++
  [.main true, Sample.ok 1, Sample.ok 0, Sample.ok 0, Sample.ok 0] ++ Sample.start 1 ++ Sample.start 0).map withErr

/-- How a run goes on from there: what the threads end with, what is printed, how it ends, the code. -/
def goesOn (cfg : Config) (es : List Join.Event) : Option (List Ending × List Err × Option Ending × Option Nat) :=
  (Join.exec cfg (Join.init cfg) (bothBuild ++ es ++ [.main true .ok])).map fun s =>
    (endings s, s.printed, s.result, s.result.bind Ending.exitCode)

/-- Thread 1 fails before thread 0 does: the error is that of thread 0. -/
example : goesOn Sample.cfg [.worker 1 .fail (.other 7), .worker 1 .ok (.other 0), .worker 0 .fail (.other 5),
      .worker 0 .ok (.other 0)] =
    some ([.error (.other 5), .error (.other 7)], [.other 5, .other 7], some (.error (.other 5)), some 1) := by
  decide +kernel
/-- Reverting fails after the command was interrupted. -/
example : goesOn Sample.cfg [.interrupt, .worker 1 .fail .interrupted, .worker 1 (.writeFails none) (.other 8),
      .worker 0 (.exits 1 .success) (.other 0), .worker 0 .ok (.other 0)] =
    some ([.error .interrupted, .error (.other 8)], [.other 8], some (.error .interrupted), some 1) := by
  decide +kernel
/-- A log that cannot be read, in thread 1: all else is forgotten. -/
example : goesOn { Sample.cfg with print := { showAllLogs := true, printCaught := true } }
      ([.worker 0 .fail (.other 5), .worker 0 .ok (.other 0)] ++
      [Sample.ends 1 .success, Sample.ok 1, Sample.ends 1 (.failure 101), Sample.ok 1, Sample.ok 1].map withErr ++
      [.worker 1 .logUnreadable (.other 0)]) =
    some ([.error (.other 5), .panic (some .unreadableLog)], [.other 5], some (.panic (some .unreadableLog)),
      some 101) := by decide +kernel
/-- Nothing fails but the checks. -/
example : goesOn Sample.cfg [.interrupt, .worker 0 .fail .interrupted, .worker 0 .ok (.other 0),
      .worker 1 (.exits 1 .success) (.other 0), .worker 1 .ok (.other 0)] =
    some ([.error .interrupted, .error .interrupted], [], some (.error .interrupted), some 1) := by decide +kernel
/-- Without ctrl-C no check fails. -/
example : goesOn Sample.cfg [.worker 0 .fail .interrupted] = none := by decide +kernel

/-! ### C89 -/

/-- **C89**: when the threads have been joined and one of them has finished, the queue is empty and every mutant is recorded
except for at most one for each failed thread: a mutant that this thread had. Threads without a directory and those that
panicked because of a log lose none. -/
theorem C89_lost (cfg : Config) (es : List Join.Event) (s : Join.State) (h : Join.exec cfg (Join.init cfg) es = some s)
    (ht : s.lab.main = .testing) (hend : ∀ pc ∈ s.lab.workers, pc.isFinished = true ∨ pc.isFailed = true)
    (hfin : ∃ pc ∈ s.lab.workers, pc.isFinished = true) :
    s.lab.sh.queue = [] ∧ ∃ f : Nat → Option Mutant,
      (recordedMutants s.lab.sh.out.lab.outcomes ++ (List.range s.lab.workers.length).filterMap f).Perm cfg.mutants ∧
      ∀ i m, f i = some m → (∃ d, s.lab.workers[i]? = some (.failed (some d))) ∧
        s.held i ≠ .panic (some .unreadableLog) ∧ HadMutant cfg es i m := by
  have hrec := reachable_records (lab_of_exec h)
  have hq : s.lab.sh.queue = [] := by
    obtain ⟨pc, hpc, hf⟩ := hfin
    obtain ⟨i, hi⟩ := List.getElem?_of_mem hpc
    cases pc <;> first | (cases hf; done) | exact hrec.finished i _ hi
  refine ⟨hq, ?_⟩
  obtain ⟨f, hp, hf⟩ := lost h
  refine ⟨f, ?_, hf⟩
  have hhand : s.lab.workers.filterMap Pc.inHand = [] := by
    rw [List.filterMap_eq_nil_iff]
    intro pc hpc
    rcases hend pc hpc with h1 | h1 <;> cases pc <;> first | rfl | cases h1
  rw [hhand, hq] at hp
  simpa using hp

/-- **C89**, as a number. -/
theorem C89_count (cfg : Config) (s : Join.State) (h : Join.Reachable cfg s) (ht : s.lab.main = .testing)
    (hend : ∀ pc ∈ s.lab.workers, pc.isFinished = true ∨ pc.isFailed = true)
    (hfin : ∃ pc ∈ s.lab.workers, pc.isFinished = true) :
    cfg.mutants.length ≤ (recordedMutants s.lab.sh.out.lab.outcomes).length +
      s.lab.workers.countP fun pc => pc.isFailed := by
  obtain ⟨es, h⟩ := h
  obtain ⟨_, f, hp, hf⟩ := C89_lost cfg es s h ht hend hfin
  have := hp.length_eq
  rw [List.length_append] at this
  have hle : ((List.range s.lab.workers.length).filterMap f).length ≤ s.lab.workers.countP fun pc => pc.isFailed := by
    have h1 : ((List.range s.lab.workers.length).filterMap f).length =
        (List.range s.lab.workers.length).countP fun i => (f i).isSome := by
      generalize List.range s.lab.workers.length = l
      induction l with
      | nil => rfl
      | cons i l ih => cases hfi : f i <;> simp [hfi, ih]
    have h2 : (List.range s.lab.workers.length).countP (fun i => (f i).isSome) ≤
        (List.range s.lab.workers.length).countP fun i => (s.lab.workers[i]?.map Pc.isFailed).getD false := by
      apply List.countP_mono_left
      intro i _ hi
      obtain ⟨m, hm⟩ := Option.isSome_iff_exists.1 hi
      obtain ⟨⟨d, hd⟩, _⟩ := hf i m hm
      simp [hd, Pc.isFailed]
    have h3 : ∀ l : List Pc, (List.range l.length).countP (fun i => (l[i]?.map Pc.isFailed).getD false) =
        l.countP fun pc => pc.isFailed := by
      intro l
      have : l.map Pc.isFailed = (List.range l.length).map fun i => (l[i]?.map Pc.isFailed).getD false := by
        apply List.ext_getElem?
        intro i
        by_cases hi : i < l.length
        · simp [hi]
        · simp [Nat.not_lt.1 hi]
      have h4 := congrArg (List.countP id) this
      rw [List.countP_map, List.countP_map] at h4
      exact h4.symm
    rw [h1, ← h3]
    exact h2
  omega

/-- Thread 0 fails and thread 1 goes on: the mutant that thread 0 had is lost. -/
example : (Join.exec Sample.cfg (Join.init Sample.cfg) (bothBuild ++ [.worker 0 .fail (.other 5), .worker 0 .ok (.other 0)] ++
      (Sample.rest 1 .success ++ [Sample.ok 1]).map withErr)).map (fun s =>
        ((s.lab.main, s.lab.workers), (recordedMutants s.lab.sh.out.lab.outcomes, s.lab.sh.queue))) =
    some ((.testing, [.failed (some 2), .finished 1]), ([sampleMutant], [])) := by decide +kernel

end CM.Props
