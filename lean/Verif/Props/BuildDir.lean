import Verif.Spec.BuildDir
import Verif.Props.Program
import Verif.Props.CopyTree
import Verif.Props.Manifest
/-! What the commands are run on: C80. -/
namespace CM.Props
open CM CM.Spec CM.Copy

theorem read_file {d : Dest} {p : Path} {c : Text} : d.read p = some c ↔ d p = some (.file c) := by
  unfold Dest.read
  cases h : d p with
  | none => simp
  | some k => cases k <;> simp

/-- What a copy that could be made holds. -/
theorem disk_copy {k : Program.Disk} {o : Options} {t : Lab.Tree} (hk : ProperEntries k.entries) (hp : Prints k)
    (h : k.copy o = some t) :
    (∀ p c, ¬ Adapted p → (t p = some c ↔ At (.dir k.entries) p (.file c) ∧
      ¬ Excluded o.copyVcs o.gitignore k.ignored (.dir k.entries) p)) ∧
    (∃ text v text', At (.dir k.entries) ["Cargo.toml".toList] (.file text) ∧ k.parse text = some v ∧
      t ["Cargo.toml".toList] = some text' ∧ k.parse text' = some (fixedManifest k.dir v)) ∧
    (t [".cargo".toList, "config.toml".toList] = none ∧ (∀ text, At (.dir k.entries) [".cargo".toList, "config.toml".toList] (.file text) →
        Excluded o.copyVcs o.gitignore k.ignored (.dir k.entries) [".cargo".toList, "config.toml".toList]) ∨
      ∃ text v text', At (.dir k.entries) [".cargo".toList, "config.toml".toList] (.file text) ∧ k.parse text = some v ∧
        t [".cargo".toList, "config.toml".toList] = some text' ∧ k.parse text' = some (fixedConfig k.dir v)) := by
  unfold Program.Disk.copy at h
  obtain ⟨d', h1, rfl⟩ := Option.map_eq_some_iff.1 h
  obtain ⟨d, h2, h3, ⟨text, v, text', h4, h5, h6, h7⟩, h10⟩ := C58_build_dir k.parse k.print k.dir hp o k.ignored _ d' h1
  obtain ⟨d0, h8, h9⟩ := C57_copy o k.ignored k.entries (.dir hk)
  rw [h2] at h8
  cases h8
  refine ⟨?_, ⟨text, v, text', ((h9 _ _).1 h4).1, h5, read_file.2 h6, h7⟩, ?_⟩
  · intro p c hn
    rw [read_file, h3 p (fun h => hn (.inl h)) (fun h => hn (.inr h)), h9]
    exact ⟨fun ⟨a, _, b⟩ => ⟨a, b⟩, fun ⟨a, b⟩ => ⟨a, nofun, b⟩⟩
  · rcases h10 with ⟨h11, h12⟩ | ⟨text, v, text', h11, h12, h13, h14⟩
    · refine .inl ⟨by unfold Dest.read; rw [show d' [".cargo".toList, "config.toml".toList] = none from h12], ?_⟩
      intro text hat
      refine Classical.byContradiction fun hex => ?_
      have := (h9 _ _).2 ⟨hat, nofun, hex⟩
      rw [show d [".cargo".toList, "config.toml".toList] = none from h11] at this
      cases this
    · exact .inr ⟨text, v, text', ((h9 _ _).1 h11).1, h12, read_file.2 h13, h14⟩

/-- **C80**: the copy that the code makes does not change files with mutants, so that what is proved about runs under this
assumption holds. -/
theorem C80_copy_keeps_sources (w : World) (x : Program.Machine) (k : Program.Disk) (o : Options) (hk : ProperEntries k.entries)
    (hp : Prints k) (hr : ReadsDisk w k) (hx : CopiesDisk x w k o) (ms : List Mutant)
    (hms : ∀ m ∈ ms, PlainPath m.sourceFile.path ∧ ¬ Adapted m.sourceFile.path) : CopiesSources w x ms := by
  intro m hm
  obtain ⟨h1, h2⟩ := hms m hm
  cases hc : x.copy (fun p => w.read (joinPath w.root p)) m.sourceFile.path with
  | none => exact .inl rfl
  | some c =>
    right
    have := ((disk_copy hk hp hx).1 _ c h2).1 hc
    exact (hr _ _ h1 this.1).symm

theorem base_built {w : World} {x : Program.Machine} {k : Program.Disk} {o : Options} (hk : ProperEntries k.entries)
    (hp : Prints k) (hx : CopiesDisk x w k o) (f : Path → Prop) (mutation : Option Mutant) (t t0 : Lab.Tree)
    (hm : ∀ m, mutation = some m → ¬ Adapted m.sourceFile.path)
    (hf : ∀ p, Adapted p → ¬ f p)
    (h0 : ∀ p, t0 p = x.copy (fun p => w.read (joinPath w.root p)) p ∨
      f p ∧ t0 p = (x.copy (fun p => w.read (joinPath w.root p)) p).map normalizeNewlines)
    (ht : match mutation with
      | none => t = t0
      | some m => t = Lab.withFile t0 m.sourceFile.path m.mutated) :
    BuiltFrom k o f mutation t := by
  obtain ⟨h1, ⟨text, v, text', h2, h3, h4, h5⟩, h6⟩ := disk_copy hk hp hx
  have other : ∀ p, (∀ m, mutation = some m → p ≠ m.sourceFile.path) → t p = t0 p := by
    intro p hp
    cases mutation with
    | none => rw [show t = t0 from ht]
    | some m => rw [show t = _ from ht]; exact if_neg (hp m rfl)
  have same : ∀ p, Adapted p → t p = x.copy (fun p => w.read (joinPath w.root p)) p := by
    intro p hpa
    rw [other p fun m hm' e => hm m hm' (e ▸ hpa)]
    rcases h0 p with h | ⟨hfp, _⟩
    · exact h
    · exact absurd hfp (hf _ hpa)
  refine ⟨?_, ?_, ?_, ⟨text, v, text', h2, h3, (same _ (.inl rfl)).trans h4, h5⟩, ?_⟩
  · rintro m rfl
    rw [show t = _ from ht]
    exact if_pos rfl
  · intro p c hpm hpa hc
    rw [other p hpm] at hc
    rcases h0 p with h | ⟨hfp, h⟩
    · rw [h] at hc
      obtain ⟨a, b⟩ := (h1 p c hpa).1 hc
      exact ⟨b, c, a, .inl rfl⟩
    · rw [h] at hc
      obtain ⟨c', hc', rfl⟩ := Option.map_eq_some_iff.1 hc
      obtain ⟨a, b⟩ := (h1 p c' hpa).1 hc'
      exact ⟨b, c', a, .inr ⟨hfp, rfl⟩⟩
  · intro p c' hpm hpa hat hex
    have hc := (h1 p c' hpa).2 ⟨hat, hex⟩
    rw [other p hpm]
    rcases h0 p with h | ⟨hfp, h⟩
    · exact ⟨c', by rw [h, hc], .inl rfl⟩
    · exact ⟨normalizeNewlines c', by rw [h, hc]; rfl, .inr ⟨hfp, rfl⟩⟩
  · rw [same _ (.inr rfl)]
    exact h6

/-- **C80**: every command for a mutant is run on a copy of the source tree without what is excluded, in which the manifest and
the configuration are adapted and just this mutant is applied; every command for the baseline on this copy without any mutant. -/
theorem C80_what_commands_see (w : World) (x : Program.Machine) (a : MainArgs) (cfg : Run.Config) (h : Program.Tests w x a cfg)
    (hplace : a.options.inPlace = false) (k : Program.Disk) (hk : ProperEntries k.entries) (hp : Prints k) (hr : ReadsDisk w k)
    (hx : CopiesDisk x w k cfg.options) (ms : List Mutant) (hs : Selects w a ms)
    (hms : ∀ m ∈ ms, PlainPath m.sourceFile.path ∧ ¬ Adapted m.sourceFile.path) (es : List Run.Event) (s : Run.State) (d : Nat)
    (sc : Scenario) (p : Phase) (q : Proc.State) (e : Exit) (he : EndedIn cfg es s d sc p q e) :
    match sc with
    | .baseline => BuiltFrom k cfg.options (fun _ => False) none (s.lab.sh.dirs d)
    | .mutant m => m ∈ ms ∧ BuiltFrom k cfg.options (fun p => ∃ m' ∈ ms, m'.sourceFile.path = p) (some m) (s.lab.sh.dirs d) := by
  have hcopy := C80_copy_keeps_sources w x k cfg.options hk hp hr hx ms hms
  obtain ⟨_, _, hj, _, _, ms', hs', hperm, hcons⟩ := tests_facts h
  cases selects_unique hs hs'
  have hc := hcons hcopy
  have hbase : cfg.lab.base = x.copy fun p => w.read (joinPath w.root p) := by
    obtain ⟨_, o, out, ms2, ho, _, rfl⟩ := h
    unfold Lab.Config.base
    have hin : (Program.config w x a o ms2).lab.inPlace = false := by
      rw [← hplace]
      exact (options_plain ho).1
    rw [hin]
    rfl
  cases sc with
  | baseline =>
    have hb := ended_baseline hj he
    exact base_built hk hp hx _ none _ (s.lab.sh.dirs d) (by simp) (by simp) (fun p => .inl (by rw [hb, hbase])) rfl
  | mutant m =>
    obtain ⟨⟨t0, h1, h2⟩, h3⟩ := ended_mutant hj hc he
    refine ⟨hperm.mem_iff.1 h3, base_built hk hp hx _ (some m) _ t0 ?_ ?_ ?_ h2⟩
    · intro m' hm'
      cases hm'
      exact (hms m (hperm.mem_iff.1 h3)).2
    · rintro p' hp' ⟨m', hm', rfl⟩
      exact (hms m' hm').2 hp'
    · intro p'
      rcases h1 p' with h | ⟨⟨m', hm', hpp⟩, h⟩
      · exact .inl (by rw [h, hbase])
      · exact .inr ⟨⟨m', hperm.mem_iff.1 hm', hpp⟩, by rw [h, hbase]⟩

/-- **C80**: exit code 0 means that for each selected mutant a command failed on a tree with just this mutant. -/
theorem C80_zero (w : World) (x : Program.Machine) (a : MainArgs) (cfg : Run.Config) (h : Program.Tests w x a cfg)
    (hplace : a.options.inPlace = false) (hcheck : a.options.check = false) (k : Program.Disk) (hk : ProperEntries k.entries)
    (hp : Prints k) (hr : ReadsDisk w k) (hx : CopiesDisk x w k cfg.options) (ms : List Mutant) (hs : Selects w a ms)
    (hms : ∀ m ∈ ms, PlainPath m.sourceFile.path ∧ ¬ Adapted m.sourceFile.path) (es : List Run.Event) (s : Run.State)
    (he : Run.exec cfg (Run.init cfg) es = some s) (l : LabOutcome) (hl : s.lab.main = .returned (some l))
    (hcode : l.exitCode = some 0) :
    ∀ m ∈ ms, ∃ s d p q e st, EndedIn cfg es s d (.mutant m) p q e ∧ q.child = .reaped st ∧ st.code ≠ some 0 ∧
      BuiltFrom k cfg.options (fun p => ∃ m' ∈ ms, m'.sourceFile.path = p) (some m) (s.lab.sh.dirs d) := by
  intro m hm
  obtain ⟨s', d, p, q, e, st, h1, _, h2, h3⟩ := C76_zero_all_died w x a cfg h ms hs
    (C80_copy_keeps_sources w x k cfg.options hk hp hr hx ms hms) hcheck es s he l hl hcode m hm
  exact ⟨s', d, p, q, e, st, h1, h2, h3,
    (C80_what_commands_see w x a cfg h hplace k hk hp hr hx ms hs hms es s' d (.mutant m) p q e h1).2⟩

namespace BuildDirSample

def libText : Text := "mod a;\nb = a + b\nc = a + b\n".toList
def aText : Text := "x\ny = a + b\n".toList

def disk : Program.Disk where
  entries := .cons "Cargo.toml".toList (.file "old".toList) <|
    .cons ".git".toList (.dir (.cons "HEAD".toList (.file "r".toList) .nil)) <|
    .cons "util".toList (.dir (.cons "src".toList (.dir (.cons "lib.rs".toList (.file libText) <|
      .cons "a.rs".toList (.file aText) .nil)) .nil)) .nil
  dir := "/w/p".toList
  ignored := fun _ _ => false
  parse := sampleParse
  print := samplePrint

def world : World :=
  { sampleWorld with read := fun p =>
      if p = ["Cargo.toml".toList] then some "old".toList
      else if p = [".git".toList, "HEAD".toList] then some "r".toList
      else sampleWorld.read p }

def machine : Program.Machine :=
  { ProgramSample.machine with
    copy := fun _ => ((Options.new world.regex sampleRun.options world.config).bind disk.copy).getD fun _ => none }

def exitsWith (es : List Run.Event) : Option Nat :=
  (trySelect world sampleRun 3).bind fun ms => (Options.new world.regex sampleRun.options world.config).bind fun o =>
    (Run.exec (Program.config world machine sampleRun o ms) (Run.init (Program.config world machine sampleRun o ms)) es).bind
      fun s => match s.lab.main with
        | .returned (some l) => l.exitCode
        | _ => none

/-- Both mutants are caught. -/
def caught : List Run.Event := ProgramSample.baseline ++ [RunSample.ok] ++ ProgramSample.mutant ProgramSample.exit101 ++
  ProgramSample.mutant ⟨none, some 6⟩ ++ [RunSample.ok, .main true]

end BuildDirSample

/-- The hypotheses of `C80_what_commands_see` and `C80_zero` are met by a run that ends with code 0. -/
example : ∃ cfg ms es s l, Program.Tests BuildDirSample.world BuildDirSample.machine sampleRun cfg ∧
    sampleRun.options.inPlace = false ∧ sampleRun.options.check = false ∧ ProperEntries BuildDirSample.disk.entries ∧
    Prints BuildDirSample.disk ∧ ReadsDisk BuildDirSample.world BuildDirSample.disk ∧
    CopiesDisk BuildDirSample.machine BuildDirSample.world BuildDirSample.disk cfg.options ∧
    Selects BuildDirSample.world sampleRun ms ∧ ms.length = 2 ∧
    (∀ m ∈ ms, PlainPath m.sourceFile.path ∧ ¬ Adapted m.sourceFile.path) ∧
    Run.exec cfg (Run.init cfg) es = some s ∧ s.lab.main = .returned (some l) ∧ l.exitCode = some 0 := by
  have h : BuildDirSample.exitsWith BuildDirSample.caught = some 0 := by decide +kernel
  have hlen : (trySelect BuildDirSample.world sampleRun 3).map List.length = some 2 := by decide +kernel
  have hpath : (trySelect BuildDirSample.world sampleRun 3).map (fun ms => ms.all fun m =>
      m.sourceFile.path == ["util".toList, "src".toList, "lib.rs".toList] ||
        m.sourceFile.path == ["util".toList, "src".toList, "a.rs".toList]) = some true := by decide +kernel
  have hcopy : ((Options.new BuildDirSample.world.regex sampleRun.options BuildDirSample.world.config).bind
      BuildDirSample.disk.copy).isSome = true := by decide +kernel
  unfold BuildDirSample.exitsWith at h
  obtain ⟨ms, h1, h⟩ := Option.bind_eq_some_iff.1 h
  obtain ⟨o, h2, h⟩ := Option.bind_eq_some_iff.1 h
  obtain ⟨s, h3, h⟩ := Option.bind_eq_some_iff.1 h
  rw [h1] at hlen hpath
  have hpath := Option.some.inj hpath
  have hs := selects_of_try h1
  have ho : (prepareOutput BuildDirSample.world sampleRun.iterate).isSome = true := by decide +kernel
  obtain ⟨out, ho⟩ := Option.isSome_iff_exists.1 ho
  have ht : Runs BuildDirSample.world sampleRun (.test out ms) := (runs_iff _ _ rfl _).2 ⟨ms, hs, out, ho, rfl⟩
  split at h
  · rename_i l hl
    refine ⟨_, ms, _, s, l, ⟨(by intro h; cases h), o, out, ms, h2, ht, rfl⟩, rfl, rfl, ?_, ?_, ?_, ?_, hs, Option.some.inj hlen, ?_,
      h3, hl, h⟩
    · refine .cons (.file _) (.cons (.dir (.cons (.file _) .nil nofun)) (.cons (.dir (.cons (.dir (.cons (.file _) (.cons (.file _) .nil nofun) ?_)) .nil nofun)) .nil nofun) ?_) ?_
      all_goals
        intro u hu
        repeat' first | (cases hu; done) | (rename_i hu; cases hu; done) | cases hu | (rename_i hu; cases hu)
    · intro text v h
      unfold BuildDirSample.disk at h ⊢
      simp only at h ⊢
      unfold sampleParse at h
      by_cases h1 : text = "old".toList
      · rw [if_pos h1] at h; cases h; exact ⟨rfl, rfl⟩
      · rw [if_neg h1] at h
        by_cases h2 : text = "new".toList
        · rw [if_pos h2] at h; cases h; exact ⟨rfl, rfl⟩
        · rw [if_neg h2] at h; cases h
    · intro p c _ hat
      cases hat with
      | inside he hat =>
        cases he with
        | here => cases hat; decide +kernel
        | there he =>
          cases he with
          | here =>
            cases hat with
            | inside he hat =>
              cases he with
              | here => cases hat; decide +kernel
              | there he => cases he
          | there he =>
            cases he with
            | here =>
              cases hat with
              | inside he hat =>
                cases he with
                | here =>
                  cases hat with
                  | inside he hat =>
                    cases he with
                    | here => cases hat; decide +kernel
                    | there he =>
                      cases he with
                      | here => cases hat; decide +kernel
                      | there he => cases he
                | there he => cases he
            | there he => cases he
    · rw [h2] at hcopy
      obtain ⟨t, ht⟩ := Option.isSome_iff_exists.1 hcopy
      show BuildDirSample.disk.copy o = some (((Options.new BuildDirSample.world.regex sampleRun.options
        BuildDirSample.world.config).bind BuildDirSample.disk.copy).getD fun _ => none)
      rw [h2]
      show BuildDirSample.disk.copy o = some ((BuildDirSample.disk.copy o).getD fun _ => none)
      rw [show BuildDirSample.disk.copy o = some t from ht]
      rfl
    · intro m hm
      have := List.all_eq_true.1 hpath m hm
      simp only [Bool.or_eq_true, beq_iff_eq] at this
      rcases this with h | h <;> rw [h] <;> exact ⟨by unfold PlainPath; decide, by unfold Adapted; decide⟩
  · cases h

end CM.Props
