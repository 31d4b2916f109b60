import Verif.Proofs.LabFine
import Verif.Model.Shuffle
/-! Properties of a whole test run, under every schedule of the threads, every result of the commands,
every failure of an operation and every moment of an interrupt: C04, C27-C33, C60, C66, C68; and C13
for runs. -/
namespace CM.Props
open CM CM.Lab CM.Spec

/-! ### Concrete runs for the cases beside the theorems -/

namespace Sample

/-- A second mutant, in another file. -/
def mutant2 : Mutant where
  sourceFile := { package := ⟨"p".toList, "0.1.0".toList, [], []⟩,
                  path := ["src".toList, "m.rs".toList], code := "fn g() -> u8 { h() }\n".toList,
                  isTop := false }
  function := some ⟨"g".toList, "-> u8".toList, ⟨⟨1, 1⟩, ⟨1, 21⟩⟩⟩
  span := ⟨⟨1, 16⟩, ⟨1, 19⟩⟩
  replacement := "0".toList
  genre := .fnValue

/-- The files of the two mutants, with LF line ends, and another file. -/
def tree : Tree := fun p =>
  if p = sampleMutant.sourceFile.path then some sampleMutant.sourceFile.code
  else if p = mutant2.sourceFile.path then some mutant2.sourceFile.code
  else if p = ["Cargo.toml".toList] then some "[package]\n".toList
  else none

/-- The same, but the first file has a CRLF line end. -/
def crlfTree : Tree := fun p =>
  if p = sampleMutant.sourceFile.path then some "fn f() -> bool { a() }\r\n".toList
  else tree p

def cfg : Config := { mutants := [sampleMutant, mutant2], jobs := some 2, tree := tree }
def inPlaceCfg : Config := { cfg with inPlace := true, jobs := none }
def crlfCfg : Config := { inPlaceCfg with tree := crlfTree }

theorem cfg_consistent : cfg.Consistent := by
  refine ⟨?_, fun _ _ => .inr rfl⟩
  intro m hm
  simp only [cfg, List.mem_cons, List.not_mem_nil, or_false] at hm
  rcases hm with rfl | rfl
  · exact ⟨sampleMutant.sourceFile.code, by decide, by decide⟩
  · exact ⟨mutant2.sourceFile.code, by decide, by decide⟩

theorem cfg_noCrlf : cfg.NoCrlf := by
  intro m hm
  simp only [cfg, List.mem_cons, List.not_mem_nil, or_false] at hm
  rcases hm with rfl | rfl <;> decide

theorem crlf_consistent : crlfCfg.Consistent := by
  refine ⟨?_, fun _ _ => .inr rfl⟩
  intro m hm
  simp only [crlfCfg, inPlaceCfg, cfg, List.mem_cons, List.not_mem_nil, or_false] at hm
  rcases hm with rfl | rfl
  · exact ⟨"fn f() -> bool { a() }\r\n".toList, by decide, by decide⟩
  · exact ⟨mutant2.sourceFile.code, by decide, by decide⟩

def ok (i : Nat) : Event := .worker i .ok
def ends (i : Nat) (st : Exit) : Event := .worker i (.exits 1 st)

/-- Copying and a baseline that ends with `st`. -/
def begin_ (st : Exit) : List Event :=
  [.main true, ok 0, ok 0, .main true, ok 0, ok 0, ok 0, ends 0 .success, ok 0, ends 0 st,
   ok 0, ok 0, ok 0]

/-- The same in place, without copying. -/
def beginInPlace (st : Exit) : List Event :=
  [.main true, .main true, ok 0, ok 0, ok 0, ends 0 .success, ok 0, ends 0 st, ok 0, ok 0, ok 0]

/-- A thread takes up a mutant and starts to build it. -/
def start (i : Nat) : List Event := [ok i, ok i, ok i, ok i, ok i, ok i]
/-- The build succeeds, the tests end with `st`, the thread reverts and records. -/
def rest (i : Nat) (st : Exit) : List Event :=
  [ends i .success, ok i, ends i st, ok i, ok i, ok i]

/-- A whole run with two threads whose steps interleave. -/
def run : List Event :=
  begin_ .success ++ [.main true, ok 1, ok 0, ok 0, ok 0] ++ start 1 ++ start 0 ++
    rest 0 (.failure 101) ++ rest 1 .success ++ [ok 0, ok 1, .main true]

end Sample

/-! ### C30 -/

/-- C30: in every state of every run, at most `max(1, jobs)` threads test scenarios; no two of them
have the same directory; with `--in-place` there is at most one and its directory is the source tree
(number 0), otherwise no directory is the source tree. -/
theorem C30_jobs_and_directories (cfg : Config) (hj : cfg.JobsOk) (s : State) (h : Reachable cfg s) :
    s.workers.length ≤ max 1 (cfg.jobs.getD 1) ∧
    (∀ (i j : Nat) pc pc' d, s.workers[i]? = some pc → s.workers[j]? = some pc' → i ≠ j →
      pc.dir = some d → pc'.dir ≠ some d) ∧
    (cfg.inPlace = true → s.workers.length ≤ 1) ∧
    (∀ (i : Nat) pc d, s.workers[i]? = some pc → pc.dir = some d → (d = 0 ↔ cfg.inPlace = true)) := by
  have hd := reachable_dirs hj h
  refine ⟨?_, ?_, hd.one, ?_⟩
  · have := (reachable_shape h).mainOf
    unfold Config.nThreads at this
    omega
  · intro i j pc pc' d hi hj' hne h1 h2
    exact hne (hd.distinct i j pc pc' d hi hj' h1 h2)
  · intro i pc d hi hdir
    have := hd.ok i pc d hi hdir
    unfold DirOk at this
    split at this
    · simp [*]
    · simp only [*]
      constructor
      · intro h; omega
      · intro h; cases h

/-- Two threads that run commands at the same time, in two directories. -/
example : ((exec Sample.cfg (init Sample.cfg) (Sample.begin_ .success ++
      [.main true, Sample.ok 1, Sample.ok 0, Sample.ok 0, Sample.ok 0] ++ Sample.start 1 ++
      Sample.start 0)).map fun s => (s.workers.map Pc.dir, s.workers.map Pc.inCommand)) =
    some ([some 2, some 1], [true, true]) := by decide +kernel

/-! ### C68 -/

/-- C68: without `--in-place`, in every state of every run — whatever fails and whenever it is
interrupted — the source tree is what it was. -/
theorem C68_source_untouched (cfg : Config) (hj : cfg.JobsOk) (hc : cfg.Consistent) (s : State)
    (h : Reachable cfg s) (hp : cfg.inPlace = false) : s.sh.dirs 0 = cfg.tree :=
  (reachable_inv hj hc h).content.source hp

/-! ### C04 -/

/-- The threads at `i` in `s` and in `s'` have the same directory, which holds no mutation at these
times according to their place in the program. -/
structure Idle (s s' : State) (i : Nat) (d : Nat) : Prop where
  before : ∃ pc, s.workers[i]? = some pc ∧ pc.dir = some d ∧ pc.mayBeMutated = false ∧
    pc.isCopying = false
  after : ∃ pc, s'.workers[i]? = some pc ∧ pc.dir = some d ∧ pc.mayBeMutated = false ∧
    pc.isCopying = false

/-- No write of a source file fails. -/
def NoWriteFails (es : List Event) : Prop := ∀ i t, Event.worker i (.writeFails t) ∉ es

/-- Full statement of C04: at any later time at which no mutation should be there, including after an
error, the directory holds what it held before. -/
def C04_full : Prop :=
  ∀ (cfg : Config), cfg.JobsOk → cfg.Consistent → ∀ es es' s s' i d,
    exec cfg (init cfg) es = some s → exec cfg s es' = some s' → NoWriteFails (es ++ es') →
    Idle s s' i d → s'.sh.dirs d = s.sh.dirs d

theorem content_clean {strict cfg t pc} (h : ContentOk strict cfg t pc) (hs : strict)
    (hm : pc.mayBeMutated = false) (hcp : pc.isCopying = false) (hd : ∃ d, pc.dir = some d) :
    SameUpToCrlf cfg t := by
  obtain ⟨d, hd⟩ := hd
  cases pc <;> first
    | exact h
    | exact h hs
    | (cases hm; done)
    | (cases hcp; done)
    | (cases hd; done)

/-- C04 in general: whenever no mutation should be in the directory of a thread, it holds the original
tree, except that CRLF line ends may have become LF in files that have mutants. Missing: with CRLF
line ends the full statement is false, see `C04_full_false`. -/
theorem C04_restored_up_to_crlf_partial (cfg : Config) (hj : cfg.JobsOk) (hc : cfg.Consistent) (es : List Event)
    (s : State) (h : exec cfg (init cfg) es = some s) (hw : NoWriteFails es) (i d : Nat) (pc : Pc)
    (hpc : s.workers[i]? = some pc) (hd : pc.dir = some d) (hm : pc.mayBeMutated = false)
    (hcp : pc.isCopying = false) : SameUpToCrlf cfg (s.sh.dirs d) :=
  content_clean ((exec_inv hj hc hw h).content.workers i pc d hpc hd) trivial hm hcp ⟨d, hd⟩

/-- C04 for files without CRLF line ends: the directory is exactly what it was before, whatever the
commands did and whichever operations failed, other than writing source files. -/
theorem C04_restored_partial (cfg : Config) (hj : cfg.JobsOk) (hc : cfg.Consistent) (hn : cfg.NoCrlf)
    (es es' : List Event) (s s' : State) (i d : Nat)
    (h : exec cfg (init cfg) es = some s) (h' : exec cfg s es' = some s')
    (hw : NoWriteFails (es ++ es')) (hi : Idle s s' i d) : s'.sh.dirs d = s.sh.dirs d := by
  have hw1 : NoWriteFails es := fun i t hm => hw i t (List.mem_append_left _ hm)
  have hx : exec cfg (init cfg) (es ++ es') = some s' := by rw [exec_append, h]; exact h'
  obtain ⟨pc, a1, a2, a3, a4⟩ := hi.before
  obtain ⟨pc', b1, b2, b3, b4⟩ := hi.after
  rw [Clean.eq_base hc hn (C04_restored_up_to_crlf_partial cfg hj hc es s h hw1 i d pc a1 a2 a3 a4),
    Clean.eq_base hc hn (C04_restored_up_to_crlf_partial cfg hj hc _ s' hx hw i d pc' b1 b2 b3 b4)]

/-- When a run has ended, in any way, and no write of a source file failed, the source tree is what it
was, up to CRLF line ends, also with `--in-place`. -/
theorem C04_source_restored_up_to_crlf_partial (cfg : Config) (hj : cfg.JobsOk) (hc : cfg.Consistent)
    (es : List Event) (s : State) (h : exec cfg (init cfg) es = some s) (hw : NoWriteFails es)
    (r : Option LabOutcome) (hr : s.main = .returned r) :
    if cfg.inPlace then SameUpToCrlf cfg (s.sh.dirs 0) else s.sh.dirs 0 = cfg.tree := by
  have hinv := exec_inv hj hc hw h
  split
  · rename_i hp
    rcases hinv.content.held hp with h | ⟨i, pc, hpc, hd⟩
    · exact h
    · have hf := hinv.shape.fits i pc hpc
      rw [hr] at hf
      refine content_clean (hinv.content.workers i pc 0 hpc hd) trivial ?_ ?_ ⟨0, hd⟩
      · cases pc <;> first | rfl | exact hf.elim
      · cases pc <;> first | rfl | exact hf.elim
  · rename_i hp
    exact hinv.content.source (by simpa using hp)

/-- The same, exactly, for files without CRLF line ends. -/
theorem C04_source_restored_partial (cfg : Config) (hj : cfg.JobsOk) (hc : cfg.Consistent)
    (hn : cfg.NoCrlf) (es : List Event) (s : State) (h : exec cfg (init cfg) es = some s)
    (hw : NoWriteFails es) (r : Option LabOutcome) (hr : s.main = .returned r) :
    s.sh.dirs 0 = cfg.tree := by
  have := C04_source_restored_up_to_crlf_partial cfg hj hc es s h hw r hr
  split at this
  · rename_i hp
    rw [Clean.eq_base hc hn this, Config.base, if_pos hp]
  · exact this

/-- The full statement fails: with `--in-place`, a file with CRLF line ends has LF line ends after one
of its mutants has been tested. -/
theorem C04_full_false : ¬ C04_full := by
  intro hfull
  let es := Sample.beginInPlace .success ++ [.main true, Sample.ok 0]
  let es' := Sample.start 0 ++ Sample.rest 0 .success
  have h1 : (exec Sample.crlfCfg (init Sample.crlfCfg) es).isSome := by decide +kernel
  obtain ⟨s, hs⟩ := Option.isSome_iff_exists.1 h1
  have h2 : ((exec Sample.crlfCfg (init Sample.crlfCfg) (es ++ es')).isSome) := by decide +kernel
  obtain ⟨s', hs'⟩ := Option.isSome_iff_exists.1 h2
  have hx := hs'
  rw [exec_append, hs] at hx
  have w1 : ((exec Sample.crlfCfg (init Sample.crlfCfg) es).map fun s => s.workers) = some [.idle 0] := by
    decide +kernel
  have w2 : ((exec Sample.crlfCfg (init Sample.crlfCfg) (es ++ es')).map fun s => s.workers) =
      some [.idle 0] := by decide +kernel
  rw [hs] at w1
  rw [hs'] at w2
  have w1' : s.workers = [.idle 0] := Option.some.inj w1
  have w2' : s'.workers = [.idle 0] := Option.some.inj w2
  have := hfull Sample.crlfCfg (by intro _; decide) Sample.crlf_consistent es es' s s' 0 0 hs hx
    (by simp [NoWriteFails, es, es', Sample.beginInPlace, Sample.start, Sample.rest, Sample.ok, Sample.ends])
    ⟨⟨.idle 0, by rw [w1']; rfl, rfl, rfl, rfl⟩, ⟨.idle 0, by rw [w2']; rfl, rfl, rfl, rfl⟩⟩
  have c1 : ((exec Sample.crlfCfg (init Sample.crlfCfg) es).map fun s =>
      s.sh.dirs 0 sampleMutant.sourceFile.path) = some (some "fn f() -> bool { a() }\r\n".toList) := by
    decide +kernel
  have c2 : ((exec Sample.crlfCfg (init Sample.crlfCfg) (es ++ es')).map fun s =>
      s.sh.dirs 0 sampleMutant.sourceFile.path) = some (some "fn f() -> bool { a() }\n".toList) := by
    decide +kernel
  rw [hs] at c1
  rw [hs'] at c2
  simp only [Option.map_some, Option.some.injEq] at c1 c2
  rw [this, c1] at c2
  exact absurd c2 (by decide)

/-- A run in place: the source tree has the mutation during the command and not afterwards. -/
example : ((exec Sample.inPlaceCfg (init Sample.inPlaceCfg) (Sample.beginInPlace .success ++
      [.main true, Sample.ok 0] ++ Sample.start 0)).map fun s =>
        s.sh.dirs 0 sampleMutant.sourceFile.path) = some (some "fn f() -> bool { true /* ~ changed by cargo-mutants ~ */ }\n".toList) ∧
    ((exec Sample.inPlaceCfg (init Sample.inPlaceCfg) (Sample.beginInPlace .success ++
      [.main true, Sample.ok 0] ++ Sample.start 0 ++ [.interrupt, Sample.ends 0 .success, Sample.ok 0,
        .main true])).map fun s => (s.main, s.sh.dirs 0 sampleMutant.sourceFile.path)) =
      some (.returned none, some "fn f() -> bool { a() }\n".toList) := by decide +kernel

/-! ### C29 -/

/-- Full statement of C29. -/
def C29_full : Prop :=
  ∀ (cfg : Config), cfg.JobsOk → cfg.Consistent → ∀ s, Reachable cfg s → ∀ (i d : Nat) sc p todo rs,
    s.workers[i]? = some (.command d sc p todo rs) →
    s.sh.dirs d = match sc with
      | .baseline => cfg.base
      | .mutant m => withFile cfg.base m.sourceFile.path m.mutated

/-- C29 for the baseline: whenever one of its commands runs, nothing has been changed. -/
theorem C29_baseline_sees_original (cfg : Config) (hj : cfg.JobsOk) (s : State)
    (h : Reachable cfg s) (i d : Nat) (p todo rs)
    (hpc : s.workers[i]? = some (.command d .baseline p todo rs)) : s.sh.dirs d = cfg.base := by
  refine (reachable_pristine hj h (.inr (.inr ?_))).2 i _ d hpc rfl rfl
  have := (reachable_shape h).fits i _ hpc
  cases hm : s.main <;> simp [hm, Fits] at this
  rfl

/-- C29 for mutants in general: the directory holds the original tree, except for CRLF line ends of
files that have mutants, with just this mutant's file changed to its mutated text. Missing: exactness
with CRLF line ends, where the full statement is false. -/
theorem C29_one_mutation_up_to_crlf_partial (cfg : Config) (hj : cfg.JobsOk) (hc : cfg.Consistent) (s : State)
    (h : Reachable cfg s) (i d : Nat) (m : Mutant) (p todo rs)
    (hpc : s.workers[i]? = some (.command d (.mutant m) p todo rs)) :
    m ∈ cfg.mutants ∧ ∃ t, SameUpToCrlf cfg t ∧ (t m.sourceFile.path).isSome ∧
      s.sh.dirs d = withFile t m.sourceFile.path m.mutated := by
  have hinv := reachable_inv hj hc h
  refine ⟨?_, hinv.content.workers i _ d hpc rfl⟩
  have := (reachable_shape h).fits i _ hpc
  cases hm : s.main <;> simp [hm, Fits] at this
  exact this

/-- C29 for files without CRLF line ends: the directory holds exactly the original tree with this
mutant's file changed to its mutated text. -/
theorem C29_one_mutation_partial (cfg : Config) (hj : cfg.JobsOk) (hc : cfg.Consistent)
    (hn : cfg.NoCrlf) (s : State) (h : Reachable cfg s) (i d : Nat) (m : Mutant) (p todo rs)
    (hpc : s.workers[i]? = some (.command d (.mutant m) p todo rs)) :
    s.sh.dirs d = withFile cfg.base m.sourceFile.path m.mutated := by
  obtain ⟨_, t, h1, _, h2⟩ := C29_one_mutation_up_to_crlf_partial cfg hj hc s h i d m p todo rs hpc
  rw [h2, Clean.eq_base hc hn h1]

/-- The full statement fails: the commands for a mutant of one file see another file with its CRLF line
ends changed, since an earlier mutant of that file was reverted. -/
theorem C29_full_false : ¬ C29_full := by
  intro hfull
  let es := Sample.beginInPlace .success ++ [.main true, Sample.ok 0] ++ Sample.start 0 ++
    Sample.rest 0 .success ++ Sample.start 0
  have h1 : (exec Sample.crlfCfg (init Sample.crlfCfg) es).isSome := by decide +kernel
  obtain ⟨s, hs⟩ := Option.isSome_iff_exists.1 h1
  have w1 : ((exec Sample.crlfCfg (init Sample.crlfCfg) es).map fun s => s.workers) =
      some [.command 0 (.mutant Sample.mutant2) .build [.test] []] := by decide +kernel
  rw [hs] at w1
  have w1' : s.workers = [.command 0 (.mutant Sample.mutant2) .build [.test] []] := Option.some.inj w1
  have := hfull Sample.crlfCfg (by intro _; decide) Sample.crlf_consistent s ⟨es, hs⟩ 0 0 _ _ _ _
    (by rw [w1']; rfl)
  have c1 : ((exec Sample.crlfCfg (init Sample.crlfCfg) es).map fun s =>
      s.sh.dirs 0 sampleMutant.sourceFile.path) = some (some "fn f() -> bool { a() }\n".toList) := by
    decide +kernel
  rw [hs] at c1
  simp only [Option.map_some, Option.some.injEq] at c1
  rw [this] at c1
  exact absurd c1 (by decide)

/-- What the two threads of a run with `--jobs 2` see. -/
example : ((exec Sample.cfg (init Sample.cfg) (Sample.begin_ .success ++
      [.main true, Sample.ok 1, Sample.ok 0, Sample.ok 0, Sample.ok 0] ++ Sample.start 1 ++
      Sample.start 0)).map fun s => (s.workers.map Pc.scenario,
        [s.sh.dirs 2 sampleMutant.sourceFile.path, s.sh.dirs 1 Sample.mutant2.sourceFile.path,
         s.sh.dirs 1 sampleMutant.sourceFile.path])) =
    some ([some (.mutant Sample.mutant2), some (.mutant sampleMutant)],
      [some "fn f() -> bool { a() }\n".toList, some "fn g() -> u8 { h() }\n".toList,
       some "fn f() -> bool { true /* ~ changed by cargo-mutants ~ */ }\n".toList]) := by decide +kernel

/-! ### C28 -/

/-- The result of a phase that is there, or any other. -/
def resultOf (rs : List PhaseResult) (p : Phase) : PhaseResult :=
  (rs.find? fun r => decide (r.phase = p)).getD ⟨p, 0, .success, []⟩

theorem resultOf_phase (rs : List PhaseResult) (p : Phase) : (resultOf rs p).phase = p := by
  unfold resultOf
  cases hf : rs.find? fun r => decide (r.phase = p) with
  | none => rfl
  | some r => simpa using List.find?_some hf

/-- A run of the phase loop as observed here is one as in the properties of single scenarios. -/
theorem complete_executed {checkOnly : Bool} {rs : List PhaseResult}
    (h : Complete (phasesFor checkOnly) rs) : ∃ result : Phase → PhaseResult,
      (∀ p, (result p).phase = p) ∧
      runPhases (fun p => some (result p)) (phasesFor checkOnly) = some rs := by
  refine ⟨resultOf rs, resultOf_phase rs, ?_⟩
  rcases h with ⟨h1, h2⟩ | ⟨rs0, r, rest, rfl, h1, h2, h3⟩
  · cases checkOnly with
    | true =>
      rcases rs with _ | ⟨a, _ | ⟨b, rs⟩⟩ <;> simp [phasesFor] at h1
      have := h2 a (by simp)
      simp [runPhases, phasesFor, resultOf, ← h1, this]
    | false =>
      rcases rs with _ | ⟨a, _ | ⟨b, _ | ⟨c, rs⟩⟩⟩ <;> simp [phasesFor] at h1
      have ha := h2 a (by simp)
      have hb := h2 b (by simp)
      simp [runPhases, phasesFor, resultOf, ← h1.1, ← h1.2, ha, hb]
  · cases checkOnly with
    | true =>
      rcases rs0 with _ | ⟨a, rs0⟩ <;> simp [phasesFor] at h1
      simp [runPhases, phasesFor, resultOf, ← h1.1, h3]
    | false =>
      rcases rs0 with _ | ⟨a, _ | ⟨b, rs0⟩⟩ <;> simp [phasesFor] at h1
      · simp [runPhases, phasesFor, resultOf, ← h1.1, h3]
      · have ha := h2 a (by simp)
        simp [runPhases, phasesFor, resultOf, ← h1.1, ← h1.2.1, h3, ha]

/-- C28: when all threads have finished, each mutant has exactly one recorded outcome (as often as it
is in the list), and besides there is only the outcome of the baseline, at the beginning. -/
theorem C28_each_tested_once (cfg : Config) (s : State) (h : Reachable cfg s)
    (hm : s.main = .testing) (hf : ∀ pc ∈ s.workers, pc.isFinished = true) :
    (recordedMutants s.sh.out.lab.outcomes).Perm cfg.mutants ∧
    ∃ bs ms, s.sh.out.lab.outcomes = bs ++ ms ∧ (∀ o ∈ ms, o.scenario.isMutant = true) ∧
      (if cfg.runBaseline then ∃ o, bs = [o] ∧ o.scenario = .baseline else bs = []) ∧
      ms.length = cfg.mutants.length := by
  have hrec := reachable_records h
  have hshape := reachable_shape h
  have hne : s.workers ≠ [] := by
    intro h'
    have := hshape.count
    rw [hm, h'] at this
    have hn := nThreads_pos cfg
    simp at this
    omega
  have hfin : ∀ pc ∈ s.workers, ∃ d, pc = .finished d := by
    intro pc hpc
    have := hf pc hpc
    cases pc <;> simp [Pc.isFinished] at this
    exact ⟨_, rfl⟩
  have hq : s.sh.queue = [] := by
    obtain ⟨pc, hpc⟩ := List.exists_mem_of_ne_nil _ hne
    obtain ⟨d, rfl⟩ := hfin pc hpc
    obtain ⟨i, hi⟩ := List.getElem?_of_mem hpc
    exact hrec.finished i d hi
  have hhand : s.workers.filterMap Pc.inHand = [] := by
    rw [List.filterMap_eq_nil_iff]
    intro pc hpc
    obtain ⟨d, rfl⟩ := hfin pc hpc
    rfl
  obtain ⟨lost, h1, h2⟩ := hrec.account
  have hl : lost = [] := h2 (by
    intro pc hpc
    obtain ⟨d, rfl⟩ := hfin pc hpc
    rfl)
  rw [hhand, hq, hl] at h1
  simp only [List.append_nil] at h1
  refine ⟨h1, ?_⟩
  have := hrec.order
  rw [hm] at this
  obtain ⟨bs, ms, h3, h4, h5⟩ := this
  refine ⟨bs, ms, h3, h4, ?_, ?_⟩
  · split at h5
    · rename_i hb
      rw [if_pos hb]
      obtain ⟨o, h6, h7, _⟩ := h5
      exact ⟨o, h6, h7⟩
    · rename_i hb
      rw [if_neg hb]
      exact h5
  · rw [← h1.length_eq, h3]
    have hb : recordedMutants bs = [] := by
      split at h5
      · obtain ⟨o, rfl, h7, _⟩ := h5
        simp [recordedMutants, h7]
      · rw [h5]; rfl
    have hms : ∀ l : List ScenarioOutcome, (∀ o ∈ l, o.scenario.isMutant = true) →
        (recordedMutants l).length = l.length := by
      intro l hl
      induction l with
      | nil => rfl
      | cons o l ih =>
        have := hl o (by simp)
        cases ho : o.scenario with
        | baseline => rw [ho] at this; cases this
        | mutant m =>
          have ih := ih fun o ho => hl o (by simp [ho])
          simp only [recordedMutants, List.filterMap_cons, ho, List.length_cons] at ih ⊢
          omega
    have : recordedMutants (bs ++ ms) = recordedMutants ms := by
      unfold recordedMutants at hb ⊢
      rw [List.filterMap_append, hb, List.nil_append]
    rw [this, hms ms h4]

/-- C28: at any time, no mutant has more outcomes than it is in the list, and what is recorded are
results of its commands as the phase loop produces them (so that C09-C12 apply). -/
theorem C28_recorded_are_executed (cfg : Config) (s : State) (h : Reachable cfg s) :
    (∀ m, (recordedMutants s.sh.out.lab.outcomes).count m ≤ cfg.mutants.count m) ∧
    (∀ o ∈ s.sh.out.lab.outcomes, ∀ m, o.scenario = .mutant m → Executed cfg.checkOnly o) ∧
    LabOutcome.addAll {} s.sh.out.lab.outcomes = some s.sh.out.lab := by
  have hrec := reachable_records h
  refine ⟨?_, ?_, hrec.lab⟩
  · intro m
    obtain ⟨lost, h1, _⟩ := hrec.account
    have := h1.count_eq m
    simp only [List.count_append] at this
    omega
  · intro o ho m hm
    obtain ⟨result, h1, h2⟩ := complete_executed (hrec.complete o ho)
    exact ⟨m, result, hm, h1, h2⟩

/-- Recording an outcome, interrupted at any point, leaves `outcomes.json` as it was, or empty, or
with all that is remembered. -/
theorem writeAll_take_json {f g : OutputFiles} {o : ScenarioOutcome} {ws k}
    (hws : addOutcomeWrites o = some ws) (h : f.writeAll (ws.take k) = some g) :
    g.outcomesJson = f.outcomesJson ∨ g.outcomesJson = none ∨ g.outcomesJson = some g.lab := by
  have big : ∀ ls : List OutputWrite, (∀ w ∈ ls, (∃ l n, w = .appendName l n) ∨ ∃ l, w = .appendNewline l) →
      ∀ f g : OutputFiles, f.writeAll ls = some g → g.outcomesJson = f.outcomesJson ∧ g.lab = f.lab := by
    intro ls
    induction ls with
    | nil => intro _ f g h; cases h; exact ⟨rfl, rfl⟩
    | cons w ls ih =>
      intro hw f g h
      obtain ⟨f1, h1, h2⟩ := Option.bind_eq_some_iff.1 h
      obtain ⟨a, b⟩ := ih (fun w h => hw w (by simp [h])) f1 g h2
      rcases hw w (by simp) with ⟨l, n, rfl⟩ | ⟨l, rfl⟩ <;> cases h1 <;>
        exact ⟨by rw [a, append_json], by rw [b, append_lab]⟩
  obtain ⟨tail, rfl, ht⟩ : ∃ tail, ws = [.remember o, .truncateJson, .writeJson] ++ tail ∧
      ∀ w ∈ tail, (∃ l n, w = .appendName l n) ∨ ∃ l, w = .appendNewline l := by
    rcases writes_shape hws with rfl | ⟨l, n, rfl⟩
    · exact ⟨[], rfl, by simp⟩
    · exact ⟨[.appendName l n, .appendNewline l], rfl, by simp⟩
  match k with
  | 0 => cases h; exact .inl rfl
  | 1 =>
    obtain ⟨f1, h1, h2⟩ := Option.bind_eq_some_iff.1 h
    cases h2
    obtain ⟨lab, _, rfl⟩ := Option.map_eq_some_iff.1 h1
    exact .inl rfl
  | 2 =>
    obtain ⟨f1, h1, h2⟩ := Option.bind_eq_some_iff.1 h
    cases h2
    exact .inr (.inl rfl)
  | k + 3 =>
    obtain ⟨f1, h1, h2⟩ := Option.bind_eq_some_iff.1 h
    obtain ⟨lab, _, rfl⟩ := Option.map_eq_some_iff.1 h1
    have h2 : OutputFiles.writeAll { f with lab := lab, outcomesJson := some lab } (tail.take k) =
        some g := h2
    obtain ⟨a, b⟩ := big _ (fun w hw => ht w (List.mem_of_mem_take hw)) _ _ h2
    exact .inr (.inr (by rw [a, b]))

theorem reachable_json {cfg s} (h : Reachable cfg s) (j : LabOutcome)
    (hj : s.sh.out.outcomesJson = some j) : LabOutcome.addAll {} j.outcomes = some j := by
  have := reachable_invariant (cfg := cfg)
    (P := fun s => Reachable cfg s ∧
      ∀ j, s.sh.out.outcomesJson = some j → LabOutcome.addAll {} j.outcomes = some j)
    ⟨⟨[], rfl⟩, fun j hj => by cases hj⟩ ?_ h
  · exact this.2 j hj
  intro s e s' ⟨hr, hs⟩ hst
  have hr' : Reachable cfg s' := by
    obtain ⟨es, hes⟩ := hr
    exact ⟨es ++ [e], by rw [exec_append, hes]; simp [exec, hst]⟩
  refine ⟨hr', ?_⟩
  have hlab := (reachable_records hr').lab
  have key : ∀ {f g : OutputFiles} {o : ScenarioOutcome} {ws k}, addOutcomeWrites o = some ws →
      f.writeAll (ws.take k) = some g → s.sh.out = f → s'.sh.out = g →
      ∀ j, s'.sh.out.outcomesJson = some j → LabOutcome.addAll {} j.outcomes = some j := by
    intro f g o ws k hws hw hf hg j hj
    subst hf; subst hg
    rcases writeAll_take_json hws hw with h | h | h
    · exact hs j (by rw [← h]; exact hj)
    · rw [h] at hj; cases hj
    · rw [h] at hj; cases hj; exact hlab
  rcases step_cases hst with ⟨_, _, rfl⟩ | ⟨ok, _, hm⟩ | ⟨i, c, pc, sh', pc', _, hpc, hw, rfl⟩
  · exact hs
  · cases mstep_rel hm <;> exact hs
  · cases hw
    case record d sc rs out h =>
      obtain ⟨ws, hws, hout⟩ := Option.bind_eq_some_iff.1 h
      exact key (k := ws.length) hws (by rw [List.take_length]; exact hout) rfl rfl
    case recordErr d sc rs out ws k hws h _ => exact key hws h rfl rfl
    all_goals first
      | exact hs
      | (rename_i h; obtain ⟨_, rfl, _⟩ := h.frame; exact hs)

/-- C10 in a run: at every moment, whatever the threads do and wherever one has failed, the counts that
are shown and the counts in `outcomes.json` are the true counts of the outcomes beside them. -/
theorem C10_counts_in_run (cfg : Config) (s : State) (h : Reachable cfg s) (l : LabOutcome)
    (hl : l = s.sh.out.lab ∨ s.sh.out.outcomesJson = some l) :
    l.totalMutants = (recordedMutants l.outcomes).length ∧
    l.missed = numberWith .missedMutant l.outcomes ∧
    l.caught = numberWith .caughtMutant l.outcomes ∧
    l.timeout = numberWith .timeout l.outcomes ∧
    l.unviable = numberWith .unviable l.outcomes ∧
    l.success = numberWith .success l.outcomes ∧
    l.totalMutants = l.missed + l.caught + l.timeout + l.unviable + l.success +
      numberWith .failure l.outcomes := by
  have hadd : LabOutcome.addAll {} l.outcomes = some l := by
    rcases hl with rfl | hl
    · exact (reachable_records h).lab
    · exact reachable_json h l hl
  obtain ⟨_, h1, h2, h3, h4, h5, h6⟩ := C10_counts _ l hadd
  refine ⟨?_, h2, h3, h4, h5, h6, C10_total_is_sum _ l hadd⟩
  rw [h1]
  clear hadd h1 h2 h3 h4 h5 h6 hl
  induction l.outcomes with
  | nil => rfl
  | cons o os ih =>
    unfold recordedMutants at ih ⊢
    rw [List.filter_cons]
    obtain ⟨sc, rs⟩ := o
    cases sc with
    | baseline => exact ih
    | mutant m => exact congrArg (· + 1) ih

/-- C13 in a run: as long as no thread has failed, the files in the output directory are the ones that
recording the outcomes one after the other gives, so `C13_lists_agree` applies. -/
theorem C13_lists_agree_in_run (cfg : Config) (s : State) (h : Reachable cfg s)
    (hf : ∀ pc ∈ s.workers, pc.isFailed = false) :
    s.sh.out.missedTxt = (namesWith .missedMutant s.sh.out.lab.outcomes).flatMap (· ++ "\n".toList) ∧
    s.sh.out.caughtTxt = (namesWith .caughtMutant s.sh.out.lab.outcomes).flatMap (· ++ "\n".toList) ∧
    s.sh.out.timeoutTxt = (namesWith .timeout s.sh.out.lab.outcomes).flatMap (· ++ "\n".toList) ∧
    s.sh.out.unviableTxt = (namesWith .unviable s.sh.out.lab.outcomes).flatMap (· ++ "\n".toList) := by
  obtain ⟨h1, h2, h3, h4, _⟩ := C13_lists_agree _ _ ((reachable_records h).files hf)
  exact ⟨h1, h2, h3, h4⟩

/-- The whole run: two threads, one mutant caught and one missed, recorded in the order of completion. -/
example : ((exec Sample.cfg (init Sample.cfg) Sample.run).map fun s =>
      ((recordedMutants s.sh.out.lab.outcomes, s.workers.map Pc.isFinished),
        (s.sh.out.lab.caught, s.sh.out.lab.missed, s.sh.out.lab.exitCode))) =
    some (([Sample.mutant2, sampleMutant], [true, true]), (1, 1, some 2)) := by decide +kernel

/-! ### C32 -/

theorem no_mutants_no_workers {cfg s} (h : Reachable cfg s) (he : cfg.mutants = []) :
    s.workers = [] := by
  refine reachable_invariant (cfg := cfg) (P := fun s => s.workers = []) rfl ?_ h
  intro s e s' hs hst
  rcases step_cases hst with ⟨_, _, rfl⟩ | ⟨ok, _, hm⟩ | ⟨i, c, pc, sh', pc', _, hpc, _, rfl⟩
  · exact hs
  · cases mstep_rel hm
    case prepare h hne => exact absurd he hne
    all_goals first
      | exact hs
      | (rename_i hw _; rw [hs] at hw; cases hw)
  · rw [hs] at hpc; cases hpc

theorem returned_no_failed {cfg s l} (h : Reachable cfg s) (hr : s.main = .returned (some l)) :
    ∀ pc ∈ s.workers, pc.isFailed = false := by
  have := (reachable_records h).order
  rw [hr] at this
  rcases this with ⟨he, _⟩ | ⟨_, hf, _⟩
  · rw [no_mutants_no_workers h he]
    simp
  · exact hf

theorem failed_stays {cfg s e s'} (hshape : Shape cfg s) (h : ∃ pc ∈ s.workers, pc.isFailed = true)
    (hst : step cfg s e = some s') : ∃ pc ∈ s'.workers, pc.isFailed = true := by
  obtain ⟨pc, hpc, hf⟩ := h
  have only : ∀ {q}, s.workers = [q] → q.isFailed = true := by
    intro q hq
    rw [hq, List.mem_singleton] at hpc
    rw [← hpc]
    exact hf
  rcases step_cases hst with ⟨_, _, rfl⟩ | ⟨ok, _, hm⟩ | ⟨i, c, q, sh', q', _, hq, hw, rfl⟩
  · exact ⟨pc, hpc, hf⟩
  · cases mstep_rel hm
    case prepare h he =>
      have := hshape.count
      rw [h] at this
      simp only at this
      rw [this] at hpc
      cases hpc
    case baseline h d hw hb => cases only hw
    case skipBaseline h d hw hb => cases only hw
    case passed h d o hw ho => cases only hw
    all_goals exact ⟨pc, hpc, hf⟩
  · obtain ⟨j, hj⟩ := List.getElem?_of_mem hpc
    have hji : j ≠ i := by
      rintro rfl
      rw [hq] at hj
      cases hj
      cases pc <;> first | (cases hf; done) | (cases hw; done)
    exact ⟨pc, List.mem_of_getElem? (i := j) (by rw [List.getElem?_set_ne (Ne.symm hji)]; exact hj), hf⟩

/-- C32: once a thread has failed (with an error or a panic), whatever happens later the run does not
return an outcome: if it returns, it returns an error. -/
theorem C32_failure_is_reported (cfg : Config) (s s' : State) (es : List Event) (h : Reachable cfg s)
    (hf : ∃ pc ∈ s.workers, pc.isFailed = true) (hx : exec cfg s es = some s')
    (r : Option LabOutcome) (hr : s'.main = .returned r) : r = none := by
  have key : ∀ es s, Reachable cfg s → (∃ pc ∈ s.workers, pc.isFailed = true) →
      exec cfg s es = some s' → ∃ pc ∈ s'.workers, pc.isFailed = true := by
    intro es
    induction es with
    | nil => intro s _ hf hx; cases hx; exact hf
    | cons e es ih =>
      intro s h hf hx
      obtain ⟨s1, h1, h2⟩ := Option.bind_eq_some_iff.1 hx
      exact ih s1 (h.step h1) (failed_stays (reachable_shape h) hf h1) h2
  obtain ⟨pc, hpc, hfail⟩ := key es s h hf hx
  cases r with
  | none => rfl
  | some l =>
    have := returned_no_failed (h.exec hx) hr pc hpc
    rw [this] at hfail
    cases hfail

/-- C32: a run that returns an outcome without baseline failure has recorded an outcome for every
mutant; and the exit code is then not 4. -/
theorem C32_outcome_is_complete (cfg : Config) (s : State) (h : Reachable cfg s) (l : LabOutcome)
    (hr : s.main = .returned (some l))
    (hb : ∀ o ∈ l.outcomes, o.scenario = .baseline → o.success = some true) :
    (recordedMutants l.outcomes).Perm cfg.mutants ∧ l.exitCode ≠ some 4 := by
  have hrec := reachable_records h
  have horder := hrec.order
  rw [hr] at horder
  have hne4 : l.exitCode ≠ some 4 := by
    have hl : LabOutcome.addAll {} l.outcomes = some l := by
      rcases horder with ⟨_, rfl, _⟩ | ⟨rfl, _⟩
      · rfl
      · exact hrec.lab
    intro h4
    obtain ⟨o, ho, h1, h2⟩ := (C11_exit_code _ l 4 hl h4).1.1 rfl
    obtain ⟨pr, h2, h3⟩ := h2
    have := hb o ho h1
    simp [ScenarioOutcome.success, ScenarioOutcome.lastPhaseResult, h2, Exit.isSuccess, h3] at this
  rcases horder with ⟨he, rfl, _⟩ | ⟨rfl, hf, hcase⟩
  · rw [he]
    exact ⟨List.Perm.refl _, hne4⟩
  · refine ⟨?_, hne4⟩
    rcases hcase with ⟨_, o, ho, h1, h2⟩ | ⟨_, hne, hfin⟩
    · exact absurd (hb o (by rw [ho]; simp) h1) h2
    · have hfin' : ∀ pc ∈ s.workers, ∃ d, pc = .finished d := by
        intro pc hpc
        have := hfin pc hpc
        cases pc <;> simp [Pc.isFinished] at this
        exact ⟨_, rfl⟩
      obtain ⟨pc, hpc⟩ := List.exists_mem_of_ne_nil _ hne
      obtain ⟨d, rfl⟩ := hfin' pc hpc
      obtain ⟨i, hi⟩ := List.getElem?_of_mem hpc
      have hq := hrec.finished i d hi
      have hhand : s.workers.filterMap Pc.inHand = [] := by
        rw [List.filterMap_eq_nil_iff]
        intro pc hpc
        obtain ⟨d, rfl⟩ := hfin' pc hpc
        rfl
      obtain ⟨lost, h1, h2⟩ := hrec.account
      rw [hhand, hq, h2 hf] at h1
      simpa using h1

/-- C32, the other direction: if nothing goes wrong — no operation fails, nobody interrupts, logs are
text — then no thread fails and the run does not return an error. -/
theorem C32_no_error_without_cause (cfg : Config) (hj : cfg.JobsOk) (hc : cfg.Consistent)
    (hfiles : ∀ m ∈ cfg.mutants, (cfg.base m.sourceFile.path).isSome)
    (hnames : ∀ m ∈ cfg.mutants, m.name true ≠ none) (es : List Event) (s : State)
    (hfine : ∀ e ∈ es, e.Fine) (hl : ∀ i, Event.worker i .logUnreadable ∉ es)
    (h : exec cfg (init cfg) es = some s) :
    (∀ pc ∈ s.workers, pc.isFailed = false) ∧ s.main ≠ .returned none := by
  have := exec_well hj hc hfiles hnames hfine hl h
  refine ⟨?_, this.main⟩
  intro pc hpc
  obtain ⟨i, hi⟩ := List.getElem?_of_mem hpc
  exact (this.workers i pc hi).1

/-- A run in which one thread fails to start a command while the other one completes. -/
example : ((exec Sample.cfg (init Sample.cfg) (Sample.begin_ .success ++
      [.main true, Sample.ok 1, Sample.ok 0, Sample.ok 0, Sample.ok 0] ++ Sample.start 1 ++
      Sample.start 0 ++ [.worker 1 .fail, Sample.ok 1] ++ Sample.rest 0 .success ++
      [Sample.ok 0, .main true])).map fun s => (s.main, recordedMutants s.sh.out.lab.outcomes)) =
    some (.returned none, [Sample.mutant2]) := by decide +kernel
example : (∀ e ∈ Sample.run, e.Fine) ∧ (∀ i, Event.worker i .logUnreadable ∉ Sample.run) := by
  constructor
  · simp [Sample.run, Sample.begin_, Sample.start, Sample.rest, Sample.ok, Sample.ends, Event.Fine]
  · simp [Sample.run, Sample.begin_, Sample.start, Sample.rest, Sample.ok, Sample.ends]

/-! ### C31 -/

/-- C31: unless the baseline is skipped, at any time at which a thread has a mutant or an outcome of a
mutant is recorded, the first recorded outcome is that of the baseline and it is a success. -/
theorem C31_baseline_first (cfg : Config) (s : State) (h : Reachable cfg s)
    (hb : cfg.runBaseline = true)
    (hm : (∃ pc ∈ s.workers, ∃ m, pc.scenario = some (.mutant m)) ∨
      recordedMutants s.sh.out.lab.outcomes ≠ []) :
    ∃ o rest, s.sh.out.lab.outcomes = o :: rest ∧ o.scenario = .baseline ∧ o.success = some true ∧
      ∀ o' ∈ rest, o'.scenario.isMutant = true := by
  have hrec := reachable_records h
  have hshape := reachable_shape h
  have ht : Tested cfg s.sh.out.lab.outcomes := by
    rcases hm with ⟨pc, hpc, m, hsc⟩ | hne
    · obtain ⟨i, hi⟩ := List.getElem?_of_mem hpc
      have hf := hshape.fits i pc hi
      have hmain : s.main = .testing := by
        cases hmn : s.main <;> rw [hmn] at hf
        all_goals (exfalso; cases pc <;> simp_all [Fits, Pc.scenario])
      have := hrec.order
      rwa [hmain] at this
    · have := hrec.order
      have single : ∀ o : ScenarioOutcome, o.scenario = .baseline → recordedMutants [o] = [] := by
        intro o ho
        simp [recordedMutants, ho]
      cases hmn : s.main with
      | setup => rw [hmn] at this; simp only at this; rw [this] at hne; exact absurd rfl hne
      | preparing => rw [hmn] at this; simp only at this; rw [this] at hne; exact absurd rfl hne
      | testing => rw [hmn] at this; exact this
      | baseline =>
        exfalso
        have hcount := hshape.count
        rw [hmn] at this hcount
        simp only at this hcount
        obtain ⟨pc, hpc⟩ := List.length_eq_one_iff.1 hcount
        have hf := hshape.fits 0 pc (by rw [hpc]; rfl)
        have hst := this 0 pc (by rw [hpc]; rfl)
        rw [hmn] at hf
        apply hne
        cases pc <;> simp only [BaselineStage, Fits] at hst hf <;> first
          | (rw [hst]; rfl)
          | (rw [hst]; exact single _ hf)
          | exact hf.elim
          | skip
        rcases hst with hst | ⟨o, hst, ho⟩
        · rw [hst]; rfl
        · rw [hst]; exact single _ ho
      | returned r =>
        rw [hmn] at this
        cases r with
        | none =>
          rcases this with h | h | ⟨o, h, ho⟩
          · exact h
          · rw [h] at hne; exact absurd rfl hne
          · rw [h] at hne; exact absurd (single o ho) hne
        | some l =>
          rcases this with ⟨_, _, h⟩ | ⟨rfl, _, h⟩
          · rw [h] at hne; exact absurd rfl hne
          · rcases h with ⟨_, o, h, ho, _⟩ | ⟨h, _⟩
            · rw [h] at hne; exact absurd (single o ho) hne
            · exact h
  obtain ⟨bs, ms, h1, h2, h3⟩ := ht
  rw [if_pos hb] at h3
  obtain ⟨o, rfl, h4, h5⟩ := h3
  exact ⟨o, ms, h1, h4, h5, h2⟩

/-- C31: if the run returns an outcome and the baseline did not succeed, nothing else is recorded and
the exit code is 4. -/
theorem C31_failed_baseline_exit_code (cfg : Config) (s : State) (h : Reachable cfg s)
    (l : LabOutcome) (hr : s.main = .returned (some l)) (o : ScenarioOutcome)
    (ho : o ∈ s.sh.out.lab.outcomes) (hb : o.scenario = .baseline) (hf : o.success ≠ some true) :
    l.outcomes = [o] ∧ l.exitCode = some 4 := by
  have hrec := reachable_records h
  have := hrec.order
  rw [hr] at this
  rcases this with ⟨_, rfl, he⟩ | ⟨rfl, hfail, hcase⟩
  · rw [he] at ho; cases ho
  · have hone : s.sh.out.lab.outcomes = [o] := by
      rcases hcase with ⟨_, o', ho', _, _⟩ | ⟨⟨bs, ms, h1, h2, h3⟩, _⟩
      · rw [ho'] at ho
        rw [ho', List.mem_singleton.1 ho]
      · exfalso
        rw [h1] at ho
        rcases List.mem_append.1 ho with ho | ho
        · split at h3
          · obtain ⟨o', rfl, h4, h5⟩ := h3
            rw [List.mem_singleton.1 ho] at hf
            exact hf h5
          · rw [h3] at ho; cases ho
        · have := h2 o ho
          rw [hb] at this
          cases this
    refine ⟨hone, ?_⟩
    have hlab := hrec.lab
    obtain ⟨code, hcode⟩ := C11_exit_code_defined s.sh.out.lab.outcomes s.sh.out.lab hlab (by
      intro o ho
      exact (hrec.complete o ho).ne_nil)
    rw [hcode]
    have hn : o.phaseResults ≠ [] := (hrec.complete o ho).ne_nil
    have hs : ∃ pr, o.phaseResults.getLast? = some pr ∧ pr.status ≠ .success := by
      cases hl : o.phaseResults.getLast? with
      | none => rw [List.getLast?_eq_none_iff] at hl; exact absurd hl hn
      | some r =>
        refine ⟨r, rfl, fun hr => hf ?_⟩
        simp [ScenarioOutcome.success, ScenarioOutcome.lastPhaseResult, hl, hr, Exit.isSuccess]
    rw [(C11_exit_code _ _ code hlab hcode).1.2 ⟨o, ho, hb, hs⟩]

/-- Full statement of C31's last part: when nothing goes wrong outside, except that cargo commands may
print anything, and the baseline does not succeed, then the run ends with exit code 4. -/
def C31_full : Prop :=
  ∀ (cfg : Config), cfg.JobsOk → cfg.Consistent →
    (∀ m ∈ cfg.mutants, (cfg.base m.sourceFile.path).isSome) → (∀ m ∈ cfg.mutants, m.name true ≠ none) →
    ∀ es s, (∀ e ∈ es, e.Fine) → exec cfg (init cfg) es = some s → ∀ r, s.main = .returned r →
    ∀ o ∈ s.sh.out.lab.outcomes, o.scenario = .baseline → o.success ≠ some true →
    ∃ l, r = some l ∧ l.exitCode = some 4

/-- C31 when the log of the baseline can be read as text. Missing: other logs, for which the full
statement is false. -/
theorem C31_exit_code_partial (cfg : Config) (hj : cfg.JobsOk) (hc : cfg.Consistent)
    (hfiles : ∀ m ∈ cfg.mutants, (cfg.base m.sourceFile.path).isSome)
    (hnames : ∀ m ∈ cfg.mutants, m.name true ≠ none) (es : List Event) (s : State)
    (hfine : ∀ e ∈ es, e.Fine) (hl : ∀ i, Event.worker i .logUnreadable ∉ es)
    (h : exec cfg (init cfg) es = some s) (r : Option LabOutcome) (hr : s.main = .returned r)
    (o : ScenarioOutcome) (ho : o ∈ s.sh.out.lab.outcomes) (hb : o.scenario = .baseline)
    (hf : o.success ≠ some true) : ∃ l, r = some l ∧ l.exitCode = some 4 := by
  cases r with
  | none => exact absurd hr (C32_no_error_without_cause cfg hj hc hfiles hnames es s hfine hl h).2
  | some l => exact ⟨l, rfl, (C31_failed_baseline_exit_code cfg s ⟨es, h⟩ l hr o ho hb hf).2⟩

/-- The full statement fails: a failing baseline whose log is not UTF-8 makes the program panic when it
shows the log, and the exit code is not 4. -/
theorem C31_full_false : ¬ C31_full := by
  intro hfull
  let es := [.main true, Sample.ok 0, Sample.ok 0, .main true, Sample.ok 0, Sample.ok 0, Sample.ok 0,
    Sample.ends 0 (.failure 101), Sample.ok 0, Sample.ok 0, .worker 0 .logUnreadable, .main true]
  have h1 : (exec Sample.cfg (init Sample.cfg) es).isSome := by decide +kernel
  obtain ⟨s, hs⟩ := Option.isSome_iff_exists.1 h1
  have m1 : ((exec Sample.cfg (init Sample.cfg) es).map fun s => s.main) = some (.returned none) := by
    decide +kernel
  have o1 : ((exec Sample.cfg (init Sample.cfg) es).map fun s => s.sh.out.lab.outcomes) =
      some [⟨.baseline, [⟨.build, 1, .failure 101, []⟩]⟩] := by decide +kernel
  rw [hs] at m1 o1
  simp only [Option.map_some, Option.some.injEq] at m1 o1
  have hmem : ∀ m ∈ Sample.cfg.mutants, m = sampleMutant ∨ m = Sample.mutant2 := by
    intro m hm
    simpa [Sample.cfg] using hm
  obtain ⟨l, h2, _⟩ := hfull Sample.cfg (by intro h; cases h) Sample.cfg_consistent
    (by intro m hm; rcases hmem m hm with rfl | rfl <;> decide)
    (by intro m hm; rcases hmem m hm with rfl | rfl <;> decide) es s
    (by simp [es, Sample.ok, Sample.ends, Event.Fine]) hs none m1
    ⟨.baseline, [⟨.build, 1, .failure 101, []⟩]⟩ (by rw [o1]; simp) rfl (by decide)
  cases h2

/-- A failing baseline, and the end of that run. -/
example : ((exec Sample.cfg (init Sample.cfg) (Sample.begin_ (.failure 101) ++ [.main true])).map
      fun s => match s.main with
        | .returned (some l) => (l.outcomes.length, l.exitCode)
        | _ => (0, none)) = some (1, some 4) := by decide +kernel

/-! ### C27 -/

/-- C27: after an interrupt, every outcome that is still recorded is of a scenario all of whose commands
had completed before; and no thread gets a result of a command: the results it has are none, or those
that it had at the interrupt for the same scenario. -/
theorem C27_nothing_new_recorded (cfg : Config) (s s' : State) (es : List Event)
    (hi : s.sh.interrupted = true) (hx : exec cfg s es = some s') :
    (∃ new, s'.sh.out.lab.outcomes = s.sh.out.lab.outcomes ++ new ∧
      ∀ o ∈ new, ∃ pc ∈ s.workers, pc.outcome = some o) ∧
    ∀ (i : Nat) pc', s'.workers[i]? = some pc' → pc'.results = [] ∨
      ∃ pc, s.workers[i]? = some pc ∧ pc.results = pc'.results ∧ pc.scenario = pc'.scenario := by
  obtain ⟨h1, new, h2, h3⟩ := exec_frozen hi hx
  refine ⟨⟨new, h2, ?_⟩, fun i pc' hpc => (h1 i pc' hpc).1⟩
  intro o ho
  obtain ⟨pc, hpc, hrec⟩ := h3 o ho
  refine ⟨pc, hpc, ?_⟩
  cases pc <;> simp [Pc.toRecord] at hrec
  case ready d sc todo rs =>
    cases todo with
    | nil => exact congrArg some (by simpa [Pc.toRecord] using hrec)
    | cons p todo => simp [Pc.toRecord] at hrec
  case reverted d sc rs => exact congrArg some hrec

/-- C27: after an interrupt each thread starts at most one more command, and none if it is in a command
(which then returns an error, see `C27_error_unless_complete`). -/
theorem C27_command_starts (cfg : Config) (s s' : State) (es : List Event) (h : Reachable cfg s)
    (hi : s.sh.interrupted = true) (hx : exec cfg s es = some s') (i : Nat) :
    commandStarts cfg i s es ≤ 1 ∧
    ((s.workers[i]?.map Pc.inCommand) = some true → commandStarts cfg i s es = 0) := by
  have := exec_starts (reachable_shape h) hi hx i
  refine ⟨?_, ?_⟩
  · have h1 : startsLeft s i ≤ 1 := by
      unfold startsLeft
      cases s.workers[i]? with
      | none => simp
      | some pc => cases pc <;> simp [Pc.mayStart]
    omega
  · intro hc
    have h1 : startsLeft s i = 0 := by
      unfold startsLeft
      cases hpc : s.workers[i]? with
      | none => rw [hpc] at hc; cases hc
      | some pc =>
        rw [hpc] at hc
        cases pc <;> simp [Pc.inCommand] at hc
        rfl
    omega

/-- C27: if a run returns an outcome after an interrupt, then at the interrupt all commands had
completed: it had already returned; or no thread was in a scenario with commands to be run, and either
no mutants were left or the baseline had not succeeded. -/
theorem C27_error_unless_complete (cfg : Config) (s s' : State) (es : List Event) (h : Reachable cfg s)
    (hi : s.sh.interrupted = true) (hx : exec cfg s es = some s') (l : LabOutcome)
    (hr : s'.main = .returned (some l)) :
    (∃ l, s.main = .returned (some l)) ∨
    ((∀ pc ∈ s.workers, pc.unfinished = false) ∧
      (s.sh.queue = [] ∨
        (s.main = .baseline ∧ ∃ pc ∈ s.workers, ∃ o, pc.outcome = some o ∧ o.success ≠ some true))) := by
  have hnot : ¬ Hopeless s := by
    intro hd
    rcases hd.exec h hi hx with ⟨_, hmain⟩ | hmain
    · exact hmain _ hr
    · rw [hmain] at hr; cases hr
  cases hm : s.main with
  | returned r =>
    cases r with
    | none => exact absurd (.inr hm) hnot
    | some l => exact .inl ⟨l, rfl⟩
  | _ =>
    refine .inr ?_
    have hnd : ¬ Doomed s := fun hd => hnot (.inl ⟨hd, by simp [hm]⟩)
    refine ⟨?_, ?_⟩
    · intro pc hpc
      cases hu : pc.unfinished with
      | false => rfl
      | true => exact absurd (.inl ⟨pc, hpc, hu⟩) hnd
    · apply Classical.byContradiction
      intro hcon
      apply hnd
      refine .inr ⟨fun hq => hcon (.inl hq), ?_⟩
      rw [hm]
      try trivial
      try
        intro pc hpc o ho
        apply Classical.byContradiction
        intro hne
        refine hcon (.inr ⟨rfl, pc, hpc, o, ?_, hne⟩)
        rcases ho with ho | ⟨d, sc, rs, rfl, rfl⟩ | ⟨d, rfl⟩
        · cases pc <;> simp [Pc.toRecord] at ho
          case ready d sc todo rs =>
            cases todo with
            | nil => exact congrArg some (by simpa [Pc.toRecord] using ho)
            | cons p todo => simp [Pc.toRecord] at ho
          case reverted d sc rs => exact congrArg some ho
        · rfl
        · rfl

/-- An interrupt while one thread is in a command and the other one is about to record. -/
example :
    let before := Sample.begin_ .success ++
      [.main true, Sample.ok 1, Sample.ok 0, Sample.ok 0, Sample.ok 0] ++ Sample.start 1 ++
      Sample.start 0 ++ [Sample.ends 0 .success, Sample.ok 0, Sample.ends 0 .success, Sample.ok 0]
    let after := [Sample.ok 0, Sample.ok 0, Sample.ends 1 .success, Sample.ok 1, Sample.ok 0, .main true]
    ((exec Sample.cfg (init Sample.cfg) (before ++ [.interrupt] ++ after)).map fun s =>
      (s.main, recordedMutants s.sh.out.lab.outcomes)) = some (.returned none, [Sample.mutant2]) := by
  decide +kernel
/-- An interrupt after the last command: the run still ends well. -/
example : ((exec Sample.cfg (init Sample.cfg) (Sample.begin_ .success ++
      [.main true, Sample.ok 1, Sample.ok 0, Sample.ok 0, Sample.ok 0] ++ Sample.start 1 ++
      Sample.start 0 ++ Sample.rest 0 (.failure 101) ++ Sample.rest 1 .success ++
      [.interrupt, Sample.ok 0, Sample.ok 1, .main true])).map fun s =>
        match s.main with
        | .returned (some l) => l.exitCode
        | _ => none) = some (some 2) := by decide +kernel

/-! ### C33 -/

/-- C33: no run is longer than a bound that depends only on the number of mutants and threads, whatever
the schedule (an event for each operation; commands end). -/
theorem C33_bounded (cfg : Config) (es : List Event) (s : State)
    (h : exec cfg (init cfg) es = some s) :
    es.length ≤ 12 * cfg.mutants.length + 4 * cfg.nThreads + 18 := by
  have := exec_length h
  simp [State.weight, init, MainPc.weight] at this
  omega

/-- C33: there is no infinite run. -/
theorem C33_no_infinite_run (cfg : Config) :
    ¬ ∃ (f : Nat → State) (e : Nat → Event), f 0 = init cfg ∧ ∀ n, step cfg (f n) (e n) = some (f (n + 1)) := by
  rintro ⟨f, e, h0, hstep⟩
  have : ∀ n, exec cfg (f 0) ((List.range n).map e) = some (f n) := by
    intro n
    induction n with
    | zero => rfl
    | succ n ih =>
      rw [List.range_succ, List.map_append, exec_append, ih]
      simp [exec, hstep n]
  have h1 := this (12 * cfg.mutants.length + 4 * cfg.nThreads + 19)
  rw [h0] at h1
  have := C33_bounded cfg _ _ h1
  simp at this

/-- C33: until the run has returned, every thread that has not ended can take a step, and if all have
ended the main thread can. -/
theorem C33_progress (cfg : Config) (s : State) (h : Reachable cfg s)
    (hr : ∀ r, s.main ≠ .returned r) :
    (∀ (i : Nat) pc, s.workers[i]? = some pc → pc.waits = false →
      ∃ c s', step cfg s (.worker i c) = some s') ∧
    ((∀ pc ∈ s.workers, pc.waits = true) → ∃ s', step cfg s (.main true) = some s') ∧
    ∃ e s', e ≠ .interrupt ∧ step cfg s e = some s' := by
  have hs := reachable_shape h
  refine ⟨fun i pc hpc hw => worker_progress hs hpc hw, main_progress hs hr, ?_⟩
  by_cases hall : ∀ pc ∈ s.workers, pc.waits = true
  · obtain ⟨s', h'⟩ := main_progress hs hr hall
    exact ⟨_, s', by simp, h'⟩
  · simp only [Classical.not_forall] at hall
    obtain ⟨pc, hpc, hw⟩ := hall
    obtain ⟨i, hi⟩ := List.getElem?_of_mem hpc
    obtain ⟨c, s', h'⟩ := worker_progress hs hi (by simpa using hw)
    exact ⟨_, s', by simp, h'⟩

example : Sample.run.length = 45 ∧ 12 * Sample.cfg.mutants.length + 4 * Sample.cfg.nThreads + 18 = 50 := by
  decide

/-! ### C60 -/

/-- C60: in every state of every run no lookup in the console has failed, no more mutants are done than
there are, the remaining time can be estimated, and each thread's directory is found as long as it
needs it. -/
theorem C60_console_never_fails (cfg : Config) (hj : cfg.JobsOk) (s : State) (h : Reachable cfg s) :
    s.sh.panicked ≠ some .console ∧
    s.sh.console.done ≤ cfg.mutants.length ∧
    s.sh.console.remaining ≠ none ∧
    (∀ (i : Nat) b d, s.workers[i]? = some (.copying b d) →
      s.sh.console.copyProgressOk d = true ∧ s.sh.console.finishCopy d ≠ none) ∧
    (∀ (i : Nat) d sc p todo rs, s.workers[i]? = some (.ready d sc (p :: todo) rs) →
      s.sh.console.phaseStarted d p ≠ none) ∧
    (∀ (i : Nat) d sc p todo rs, s.workers[i]? = some (.command d sc p todo rs) →
      s.sh.console.phaseFinished d p ≠ none) := by
  have hc := reachable_console hj h
  refine ⟨hc.panic, ?_, ?_, ?_, ?_, ?_⟩
  · have := hc.count
    omega
  · unfold Console.remaining
    split
    · rename_i hl
      have hd : s.sh.console.done ≠ 0 := by
        simp at hl
        omega
      obtain ⟨h1, h2⟩ := hc.done hd
      have := hc.count
      rw [if_pos (by simp [h1, h2]; omega)]
      simp
    · simp
  · intro i b d hpc
    obtain ⟨h1, _⟩ : d ∈ s.sh.console.copies ∧ _ := hc.ok i _ hpc
    simp [Console.copyProgressOk, Console.finishCopy, h1]
  · intro i d sc p todo rs hpc
    obtain ⟨c', h1, _⟩ := Console.phaseStarted_ok p (hc.ok i _ hpc)
    rw [h1]
    simp
  · intro i d sc p todo rs hpc
    obtain ⟨c', h1, _⟩ := Console.phaseFinished_ok (hc.ok i _ hpc)
    rw [h1]
    simp

/-! ### C66 -/

theorem swapIfInBounds_perm {α} (xs : Array α) (i j : Nat) : (xs.swapIfInBounds i j).Perm xs := by
  unfold Array.swapIfInBounds
  split
  · split
    · exact Array.swap_perm _ _
    · exact Array.Perm.refl _
  · exact Array.Perm.refl _

theorem shuffleFrom_perm {α} (r : Nat → Nat) (xs : Array α) (i n : Nat) :
    (shuffleFrom r xs i n).Perm xs := by
  induction n generalizing xs i with
  | zero => exact Array.Perm.refl _
  | succ n ih => exact (ih _ _).trans (swapIfInBounds_perm _ _ _)

/-- C66: whatever the random numbers, the mutants in the queue are the selected ones, as often; with
`--no-shuffle` in the same order. -/
theorem C66_shuffle_keeps_mutants {α} (noShuffle : Bool) (r : Nat → Nat) (mutants : List α) :
    (orderMutants noShuffle r mutants).Perm mutants ∧
    (noShuffle = true → orderMutants noShuffle r mutants = mutants) := by
  constructor
  · unfold orderMutants
    split
    · have := shuffleFrom_perm r mutants.toArray 1 (mutants.length - 1)
      rw [Array.perm_iff_toList_perm] at this
      exact this
    · exact List.Perm.refl _
  · rintro rfl
    rfl

theorem _root_.CM.Lab.WStep.scenario_none {cfg sh c pc sh' pc'} (h : WStep cfg sh c pc sh' pc')
    (hn : pc.scenario = none) :
    (∃ d m, pc = .idle d ∧ pc' = .taken d (.mutant m)) ∨ pc'.scenario = none := by
  cases h
  case take d m q h => exact .inl ⟨d, m, rfl, rfl⟩
  case copied b d con h => cases b <;> exact .inr rfl
  all_goals first
    | exact .inr rfl
    | cases hn

/-- C66: the threads take the mutants in the order of the queue: what has been taken up, in the order of
taking up, followed by what is left, is the list of mutants. -/
theorem C66_taken_in_order (cfg : Config) (es : List Event) (s : State)
    (h : exec cfg (init cfg) es = some s) : takenUp cfg (init cfg) es ++ s.sh.queue = cfg.mutants := by
  have key : ∀ es s0, Reachable cfg s0 → exec cfg s0 es = some s →
      takenUp cfg s0 es ++ s.sh.queue = s0.sh.queue := by
    intro es
    induction es with
    | nil => intro s0 _ h; cases h; rfl
    | cons e es ih =>
      intro s0 hr h
      obtain ⟨s1, h1, h2⟩ := Option.bind_eq_some_iff.1 h
      simp only [takenUp, h1, List.append_assoc]
      rw [ih s1 (hr.step h1) h2]
      have hshape := reachable_shape hr
      rcases step_cases h1 with ⟨rfl, _, rfl⟩ | ⟨ok, rfl, hm⟩ | ⟨i, c, pc, sh', pc', rfl, hpc, hw, rfl⟩
      · rfl
      · have : s1.sh.queue = s0.sh.queue := by cases mstep_rel hm <;> rfl
        simpa using this
      · have hlt : i < s0.workers.length := (List.getElem?_eq_some_iff.1 hpc).1
        simp only [hpc, List.getElem?_set_self hlt, Option.bind_some]
        rcases hw.hand with ⟨d, m, rfl, rfl, hq, _⟩ | ⟨hq, hrest⟩ | ⟨hq, d, sc, rs, rfl, _⟩
        · simp [Pc.scenario, hq]
        · have hnone : pc.scenario = none → pc'.scenario = none := by
            intro hn
            rcases hw.scenario_none hn with ⟨d, m, rfl, rfl⟩ | h
            · rcases hrest.2 with h | h <;> simp [Pc.inHand, Pc.isFailed] at h
            · exact h
          simp only [hq]
          cases hsc : pc.scenario with
          | some sc => simp
          | none =>
            rw [hnone hsc]
            simp
        · simp [Pc.scenario, hq]
  exact key es (init cfg) ⟨[], rfl⟩ h

example : takenUp Sample.cfg (init Sample.cfg) Sample.run = [sampleMutant, Sample.mutant2] := by
  decide +kernel
example : fastShuffle (fun i => i * 7 + 3) [1, 2, 3, 4] = [4, 1, 3, 2] := by decide +kernel

end CM.Props
