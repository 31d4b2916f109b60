import Verif.Spec.Dirt
import Verif.Proofs.Dirt
import Verif.Props.Lab
/-! Property C90: what commands write. -/
namespace CM.Props
open CM CM.Spec CM.Lab

/-- **C90**: whatever commands write, records, lists, messages and the course of the run are those of a run in which they
write nothing; so what is proved about those holds. -/
theorem C90_same_records (cfg : Config) (hj : cfg.JobsOk) (hc : cfg.Consistent)
    (hf : ∀ m ∈ cfg.mutants, (cfg.base m.sourceFile.path).isSome) (s : Dirt.State) (h : Dirt.Reachable cfg s) :
    ∃ c, Lab.Reachable cfg c ∧ SameButFiles s.lab c := by
  obtain ⟨c, hs⟩ := Dirt.reachable_sim hj hc hf h
  exact ⟨c, hs.reach, by rw [hs.eq]; rfl, by rw [hs.eq]; rfl, c.sh.dirs, by rw [hs.eq]; rfl⟩

/-- **C90**: the source tree is not changed unless `--in-place` is given, and no two threads have the same directory; so
commands of a thread do not change what those of another one see. -/
theorem C90_own_directories (cfg : Config) (hj : cfg.JobsOk) (hc : cfg.Consistent)
    (hf : ∀ m ∈ cfg.mutants, (cfg.base m.sourceFile.path).isSome) (s : Dirt.State) (h : Dirt.Reachable cfg s) :
    (cfg.inPlace = false → s.lab.sh.dirs 0 = cfg.tree) ∧
    ∀ (i j : Nat) pc pc' d, s.lab.workers[i]? = some pc → s.lab.workers[j]? = some pc' → i ≠ j →
      pc.dir = some d → pc'.dir ≠ some d := by
  obtain ⟨c, hs⟩ := Dirt.reachable_sim hj hc hf h
  have hw : c.workers = s.lab.workers := by rw [hs.eq]; rfl
  refine ⟨fun hp => ?_, ?_⟩
  · rw [← (reachable_inv hj hc hs.reach).content.source hp]
    funext p
    refine hs.same 0 p ?_
    cases hb : s.byCommand 0 p with
    | false => rfl
    | true =>
      have := hs.ran (hs.only 0 p hb)
      rw [hp] at this
      cases this
  · rw [← hw]
    exact (C30_jobs_and_directories cfg hj c hs.reach).2.1

/-- **C90**: when a command for a mutant is running, each file of its directory is as it is if commands write nothing (that
is, as C29 says), or holds what a command wrote there. -/
theorem C90_commands_see (cfg : Config) (hj : cfg.JobsOk) (hc : cfg.Consistent)
    (hf : ∀ m ∈ cfg.mutants, (cfg.base m.sourceFile.path).isSome) (es : List Dirt.Event) (s : Dirt.State)
    (h : Dirt.exec cfg (Dirt.init cfg) es = some s) (i d : Nat) (sc : Scenario) (p todo rs)
    (hpc : s.lab.workers[i]? = some (.command d sc p todo rs)) :
    ∃ t : Tree, (match sc with
        | .baseline => t = cfg.base
        | .mutant m => m ∈ cfg.mutants ∧ ∃ t0, SameUpToCrlf cfg t0 ∧ t = withFile t0 m.sourceFile.path m.mutated) ∧
      ∀ path, s.lab.sh.dirs d path = t path ∨ Dirt.Event.writes d path (s.lab.sh.dirs d path) ∈ es := by
  obtain ⟨c, hs⟩ := Dirt.reachable_sim hj hc hf ⟨es, h⟩
  have hw : c.workers = s.lab.workers := by rw [hs.eq]; rfl
  rw [← hw] at hpc
  refine ⟨c.sh.dirs d, ?_, fun path => ?_⟩
  · cases sc with
    | baseline => exact C29_baseline_sees_original cfg hj c hs.reach i d p todo rs hpc
    | mutant m =>
      obtain ⟨h1, t, h2, _, h3⟩ := C29_one_mutation_up_to_crlf_partial cfg hj hc c hs.reach i d m p todo rs hpc
      exact ⟨h1, t, h2, h3⟩
  · cases hb : s.byCommand d path with
    | false => exact .inl (hs.same d path hb)
    | true => exact .inr (Dirt.byCommand_text es s h d path hb)

/-- **C90**: a mutant is written anew whatever earlier commands wrote to its file: from applying it until reverting it the file
holds the mutated text, and then until the next mutant the original one, unless a command wrote it since then. -/
theorem C90_written_anew (cfg : Config) (hj : cfg.JobsOk) (hc : cfg.Consistent)
    (hf : ∀ m ∈ cfg.mutants, (cfg.base m.sourceFile.path).isSome) (es : List Dirt.Event) (s : Dirt.State)
    (h : Dirt.exec cfg (Dirt.init cfg) es = some s) (i : Nat) (pc : Pc) (hpc : s.lab.workers[i]? = some pc)
    (x : DirId × Path × Text) (hx : ownText pc = some x) :
    s.lab.sh.dirs x.1 x.2.1 = some x.2.2 ∨ WrittenSince cfg es i x (s.lab.sh.dirs x.1 x.2.1) := by
  refine Dirt.exec_snoc_ind cfg (fun es s => ∀ (i : Nat) pc, s.lab.workers[i]? = some pc → ∀ x, ownText pc = some x →
    s.lab.sh.dirs x.1 x.2.1 = some x.2.2 ∨ WrittenSince cfg es i x (s.lab.sh.dirs x.1 x.2.1)) ?_ ?_ es s h i pc hpc x hx
  · intro i pc hpc
    cases hpc
  intro es s e s' hex ih hst i pc hpc x hx
  have later : ∀ {now e}, WrittenSince cfg es i x now → WrittenSince cfg (es ++ [e]) i x now := by
    rintro now e ⟨es1, es2, s1, pc1, rfl, h⟩
    exact ⟨es1, es2 ++ [e], s1, pc1, by simp, h⟩
  have keep : ∀ {e} {f : DirId → Tree} pc, s.lab.workers[i]? = some pc → ownText pc = some x →
      f x.1 x.2.1 = s.lab.sh.dirs x.1 x.2.1 → f x.1 x.2.1 = some x.2.2 ∨ WrittenSince cfg (es ++ [e]) i x (f x.1 x.2.1) := by
    intro e f pc hpc hx hf
    rw [hf]
    exact (ih i pc hpc x hx).imp id later
  cases e with
  | writes d0 p0 t =>
    have hst : (if d0 ∈ s.ran then some _ else none) = some s' := hst
    split at hst
    · cases hst
      dsimp only at hpc ⊢
      by_cases hd : x.1 = d0 ∧ x.2.1 = p0
      · obtain ⟨rfl, rfl⟩ := hd
        refine .inr ⟨es, [], s, pc, ?_, hex, hpc, hx⟩
        simp [Dirt.setFile]
      · exact keep pc hpc hx (Dirt.setFile_ne _ _ hd)
    · cases hst
  | lab e =>
    obtain ⟨l, hl, hs'⟩ := Option.map_eq_some_iff.1 (show (Lab.step cfg s.lab e).map _ = some s' from hst)
    have hlab : s'.lab = l := by
      subst hs'
      cases e with
      | worker i c => dsimp only; split <;> rfl
      | interrupt => rfl
      | main _ => rfl
    rw [hlab] at hpc ⊢
    clear hs' hlab hst
    rcases step_cases hl with ⟨rfl, _, rfl⟩ | ⟨ok, rfl, hm⟩ | ⟨j, ch, q, sh', q', rfl, hq, hw, rfl⟩
    · exact keep pc hpc hx rfl
    · have hpc := Dirt.own_main (mstep_rel hm) hpc hx
      exact keep pc hpc hx (by rw [(Dirt.mstep_dirs cfg s.lab ok s.lab.sh.dirs).2 l hm])
    · rcases getElem?_set_cases hpc with ⟨rfl, rfl⟩ | ⟨hji, hp⟩
      · rcases Dirt.own_step hw hx with h1 | ⟨h1, h2⟩
        · exact .inl h1
        · exact keep q hq h1 (by rw [h2])
      · refine keep pc hp hx ?_
        have hdis := (C90_own_directories cfg hj hc hf s ⟨es, hex⟩).2 i j pc q x.1 hp hq hji (Dirt.own_dir hx)
        show sh'.dirs x.1 x.2.1 = _
        rw [hw.dirs_frame _ hdis]

/-- **C90**: a directory in which no command has been started yet holds for its first mutant exactly the tree with this
mutant, as C29 says. -/
theorem C90_first_use_partial (cfg : Config) (hj : cfg.JobsOk) (hc : cfg.Consistent)
    (hf : ∀ m ∈ cfg.mutants, (cfg.base m.sourceFile.path).isSome) (s : Dirt.State) (h : Dirt.Reachable cfg s)
    (i d : Nat) (m : Mutant) (todo rs) (hpc : s.lab.workers[i]? = some (.ready d (.mutant m) todo rs)) (hd : d ∉ s.ran) :
    ∃ t0, SameUpToCrlf cfg t0 ∧ s.lab.sh.dirs d = withFile t0 m.sourceFile.path m.mutated := by
  obtain ⟨c, hs⟩ := Dirt.reachable_sim hj hc hf h
  have hw : c.workers = s.lab.workers := by rw [hs.eq]; rfl
  rw [← hw] at hpc
  obtain ⟨t, h1, _, h2⟩ := (reachable_inv hj hc hs.reach).content.workers i _ d hpc rfl
  refine ⟨t, h1, ?_⟩
  rw [← h2]
  funext p
  refine hs.same d p ?_
  cases hb : s.byCommand d p with
  | false => rfl
  | true => exact absurd (hs.only d p hb) hd

/-- The full claim: when the first command for a mutant is about to start, its directory holds the tree with this mutant and
nothing that commands for other scenarios wrote. -/
def C90_full : Prop :=
  ∀ (cfg : Config), cfg.JobsOk → cfg.Consistent → (∀ m ∈ cfg.mutants, (cfg.base m.sourceFile.path).isSome) →
    ∀ s, Dirt.Reachable cfg s → ∀ (i d : Nat) (m : Mutant), s.lab.workers[i]? = some (.ready d (.mutant m) cfg.phases []) →
      ∃ t0, SameUpToCrlf cfg t0 ∧ s.lab.sh.dirs d = withFile t0 m.sourceFile.path m.mutated

namespace DirtSample

def junk : Path := ["state.txt".toList]

theorem files : ∀ m ∈ Sample.cfg.mutants, (Sample.cfg.base m.sourceFile.path).isSome := by
  intro m hm
  simp only [Sample.cfg, List.mem_cons, List.not_mem_nil, or_false] at hm
  rcases hm with rfl | rfl <;> decide

/-- The tests of the baseline write a file; the first thread goes on in the same directory. -/
def leftOver : List Dirt.Event :=
  (Sample.begin_ .success).map .lab ++ [.writes 1 junk (some "1".toList)] ++
    ([.main true, Sample.ok 0, Sample.ok 0, Sample.ok 0, Sample.ok 0, Sample.ok 0, Sample.ok 0] : List Lab.Event).map .lab

/-- A command for a mutant changes that mutant's file. -/
def overwritten : List Dirt.Event :=
  leftOver ++ [.lab (Sample.ok 0), .writes 1 sampleMutant.sourceFile.path (some "!".toList)]

/-- The same, and then it is reverted and recorded. -/
def reverted : List Dirt.Event := overwritten ++ (Sample.rest 0 .success).map .lab

theorem leftOver_runs : ((Dirt.exec Sample.cfg (Dirt.init Sample.cfg) leftOver).map fun s =>
    (s.lab.workers[0]?, s.lab.sh.dirs 1 junk)) =
      some (some (.ready 1 (.mutant sampleMutant) [.build, .test] []), some "1".toList) := by decide +kernel

theorem overwritten_runs : ((Dirt.exec Sample.cfg (Dirt.init Sample.cfg) overwritten).map fun s =>
    (s.lab.workers[0]?, s.lab.sh.dirs 1 sampleMutant.sourceFile.path)) =
      some (some (.command 1 (.mutant sampleMutant) .build [.test] []), some "!".toList) := by decide +kernel

theorem reverted_runs : ((Dirt.exec Sample.cfg (Dirt.init Sample.cfg) reverted).map fun s =>
    (s.lab.workers[0]?, s.lab.sh.dirs 1 sampleMutant.sourceFile.path, s.lab.sh.dirs 1 junk)) =
      some (some (.idle 1), some sampleMutant.sourceFile.code, some "1".toList) := by decide +kernel

end DirtSample

/-- The full claim fails: a file that the tests of the baseline wrote is there for the first mutant, since the directory is
used again as it is. -/
theorem C90_isolated_false : ¬ C90_full := by
  intro hfull
  obtain ⟨s, hs, he⟩ := Option.map_eq_some_iff.1 DirtSample.leftOver_runs
  injection he with h1 h2
  obtain ⟨t0, ht, hd⟩ := hfull Sample.cfg (by intro h; cases h) Sample.cfg_consistent DirtSample.files s ⟨_, hs⟩ 0 1 sampleMutant h1
  rw [hd] at h2
  have hne : DirtSample.junk ≠ sampleMutant.sourceFile.path := by decide
  simp only [withFile, if_neg hne] at h2
  rcases ht DirtSample.junk with hb | ⟨⟨m, hm, hp⟩, _⟩
  · rw [hb] at h2
    exact absurd h2 (by decide +kernel)
  · revert hp
    simp only [Sample.cfg, List.mem_cons, List.not_mem_nil, or_false] at hm
    rcases hm with rfl | rfl <;> decide

/-- A command of the sample run has changed the mutant's file: the theorem says that it was written since then. -/
example : ∃ s, Dirt.exec Sample.cfg (Dirt.init Sample.cfg) DirtSample.overwritten = some s ∧
    WrittenSince Sample.cfg DirtSample.overwritten 0 (1, sampleMutant.sourceFile.path, sampleMutant.mutated)
      (some "!".toList) := by
  obtain ⟨s, hs, he⟩ := Option.map_eq_some_iff.1 DirtSample.overwritten_runs
  injection he with h1 h2
  refine ⟨s, hs, ?_⟩
  rcases C90_written_anew Sample.cfg (by intro h; cases h) Sample.cfg_consistent DirtSample.files _ s hs 0 _ h1 _ rfl with h | h
  · dsimp only at h
    rw [h2] at h
    exact absurd h (by decide +kernel)
  · dsimp only at h
    rwa [h2] at h

/-- What commands of the sample run see: all but the written file is as it should be. -/
example : ∃ s, Dirt.exec Sample.cfg (Dirt.init Sample.cfg) DirtSample.overwritten = some s ∧
    ∃ t : Tree, (sampleMutant ∈ Sample.cfg.mutants ∧ ∃ t0, SameUpToCrlf Sample.cfg t0 ∧
        t = withFile t0 sampleMutant.sourceFile.path sampleMutant.mutated) ∧
      ∀ path, s.lab.sh.dirs 1 path = t path ∨ Dirt.Event.writes 1 path (s.lab.sh.dirs 1 path) ∈ DirtSample.overwritten := by
  obtain ⟨s, hs, he⟩ := Option.map_eq_some_iff.1 DirtSample.overwritten_runs
  injection he with h1 h2
  exact ⟨s, hs, C90_commands_see Sample.cfg (by intro h; cases h) Sample.cfg_consistent DirtSample.files _ s hs 0 1
    (.mutant sampleMutant) .build [.test] [] h1⟩

/-- After the sample run the source tree is as before. -/
example : ∃ s, Dirt.exec Sample.cfg (Dirt.init Sample.cfg) DirtSample.reverted = some s ∧ s.lab.sh.dirs 0 = Sample.cfg.tree ∧
    s.lab.sh.dirs 1 sampleMutant.sourceFile.path = some sampleMutant.sourceFile.code := by
  obtain ⟨s, hs, he⟩ := Option.map_eq_some_iff.1 DirtSample.reverted_runs
  injection he with h1 h2
  injection h2 with h2 h3
  exact ⟨s, hs, (C90_own_directories Sample.cfg (by intro h; cases h) Sample.cfg_consistent DirtSample.files s ⟨_, hs⟩).1 rfl, h2⟩

/-- The second thread's directory is its own, so its first mutant is alone there although the baseline left a file. -/
example : ((Dirt.exec Sample.cfg (Dirt.init Sample.cfg) (DirtSample.leftOver ++
      ([Sample.ok 1, Sample.ok 1, Sample.ok 1, Sample.ok 1, Sample.ok 1, Sample.ok 1, Sample.ok 1, Sample.ok 1] : List Lab.Event).map .lab)).map
    fun s => (s.lab.workers[1]?, s.ran.contains 2, s.lab.sh.dirs 2 DirtSample.junk)) =
      some (some (.ready 2 (.mutant Sample.mutant2) [.build, .test] []), false, none) := by decide +kernel

end CM.Props
