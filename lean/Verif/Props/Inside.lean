import Verif.Props.Walk
import Verif.Props.PathSafe
import Verif.Props.Pipeline
import Verif.Spec.Inside
/-! C44 for a whole walk: which files are read and mutated. -/
namespace CM.Props
open CM CM.Spec

theorem slashFree_relative {p : Path} (h : SlashFree p) : Relative p := by
  intro hh
  cases p with
  | nil => cases hh
  | cons c p =>
    simp only [List.head?_cons, Option.some.injEq] at hh
    exact h c (by simp) (by rw [hh]; decide)

theorem inTree_of {p : Path} (h : SlashFree p) (ha : ¬ ascent p > 0) : InTree p :=
  ⟨fun base => by unfold joinPath; rw [if_neg (slashFree_relative h)],
   fun base hb => (C44_check_is_exact p base hb).1 (by omega)⟩

theorem slashFree_append {p q : Path} (h : SlashFree p) (h' : SlashFree q) : SlashFree (p ++ q) := by
  intro c hc
  rcases List.mem_append.1 hc with hc | hc
  · exact h c hc
  · exact h' c hc

theorem slashFree_push {p q : Path} (h : SlashFree p) (h' : SlashFree q) : SlashFree (pushPath p q) := by
  unfold pushPath
  split
  · exact h'
  · split
    · exact h'
    · exact slashFree_append h fun c hc => h' c (List.mem_filter.1 hc).1

theorem slashFree_dropLast {p : Path} (h : SlashFree p) : SlashFree p.dropLast :=
  fun c hc => h c ((List.dropLast_sublist p).subset hc)

theorem slashFree_components {t : Text} (h : t.head? ≠ some '/') : SlashFree (components t) := by
  unfold components
  rw [if_neg h]
  refine slashFree_append ?_ ?_
  · split
    · intro c hc
      rw [List.mem_singleton] at hc
      subst hc
      decide
    · intro c hc; cases hc
  · intro c hc hs
    exact (mem_of_mem_splitOn '/' t c '/' (List.mem_filter.1 hc).1 hs).2 rfl

theorem fileStem_subset (name : Text) : ∀ c ∈ fileStem name, c ∈ name := by
  intro c hc
  unfold fileStem at hc
  simp only at hc
  split at hc
  · exact hc
  · have h1 := List.mem_reverse.1 hc
    exact List.mem_reverse.1 ((List.dropWhile_suffix _).subset ((List.drop_suffix _ _).subset h1))

theorem slashFree_withoutExtension {p : Path} (h : SlashFree p) : SlashFree (withoutExtension p) := by
  unfold withoutExtension
  split
  · rename_i name hn
    refine slashFree_append (slashFree_dropLast h) ?_
    intro c hc hs
    rw [List.mem_singleton] at hc
    subst hc
    exact h name (List.mem_of_getLast? hn) (fileStem_subset name '/' hs)
  · intro c hc; cases hc

/-- Names and attributes without a way to the root. -/
def GoodMod (m : ModNamespace) : Prop := '/' ∉ m.name ∧ ∀ v, m.pathAttribute = some v → v.head? ≠ some '/'

theorem slashFree_filesystemName {m : ModNamespace} (h : GoodMod m) : SlashFree m.filesystemName := by
  unfold ModNamespace.filesystemName
  split
  · rename_i v hv
    exact slashFree_components (h.2 v hv)
  · intro c hc
    rw [List.mem_singleton] at hc
    subst hc
    exact h.1

theorem slashFree_modSource {isFile : Path → Bool} {sf : SourceFile} {parts : List ModNamespace} {file : Path}
    (h : findModSource isFile sf parts = some (some file)) (hp : SlashFree sf.path) (hg : ∀ m ∈ parts, GoodMod m) :
    SlashFree file := by
  unfold findModSource at h
  simp only [Option.bind_eq_bind, Option.pure_def] at h
  obtain ⟨child, hc, h⟩ := Option.bind_eq_some_iff.1 h
  obtain ⟨dir, hd, h⟩ := Option.bind_eq_some_iff.1 h
  simp only [Option.some.injEq] at h
  have hdir : SlashFree dir := by
    unfold modSearchDir at hd
    split at hd
    · unfold parentPath at hd
      split at hd
      · cases hd
      · cases hd; exact slashFree_dropLast hp
    · cases hd; exact slashFree_withoutExtension hp
  have hfold : ∀ (l : List ModNamespace) dir, (∀ m ∈ l, GoodMod m) → SlashFree dir →
      SlashFree (l.foldl (fun dir m => pushPath dir m.filesystemName) dir) := by
    intro l
    induction l with
    | nil => exact fun _ _ h => h
    | cons m l ih =>
      intro dir hl hd
      exact ih _ (fun m hm => hl m (by simp [hm])) (slashFree_push hd (slashFree_filesystemName (hl m (by simp))))
  have hdir' := hfold parts.dropLast dir (fun m hm => hg m ((List.dropLast_sublist _).subset hm)) hdir
  have hchild := hg child (List.mem_of_getLast? hc)
  have hmem := List.mem_of_find?_eq_some h
  split at hmem
  · rename_i v hv
    rw [List.mem_singleton] at hmem
    subst hmem
    exact slashFree_push hdir' (slashFree_components (hchild.2 v hv))
  · simp only [List.mem_cons, List.not_mem_nil, or_false] at hmem
    rcases hmem with rfl | rfl
    · refine slashFree_push hdir' ?_
      intro c hc hs
      rw [List.mem_singleton] at hc
      subst hc
      rcases List.mem_append.1 hs with hs | hs
      · exact hchild.1 hs
      · revert hs; decide
    · refine slashFree_push hdir' ?_
      intro c hc hs
      simp only [List.mem_cons, List.not_mem_nil, or_false] at hc
      rcases hc with rfl | rfl
      · exact hchild.1 hs
      · revert hs; decide

theorem goodMods {env : WalkEnv} (hn : ModuleNames env.parse) {code : Text} {syn : SynFile} (hp : env.parse code = some syn)
    {path : List Node} (hpos : Position syn.items path) (hs : ∀ n ∈ path, ¬ Skipped env.options.skipCalls n)
    {parts : List ModNamespace} (he : externalAt path = some parts) : ∀ m ∈ parts, GoodMod m := by
  have hparts : parts = path.filterMap modOf := by
    unfold externalAt at he
    split at he
    · split at he
      · cases he; rfl
      · cases he
    · cases he
  subst hparts
  intro m hm
  obtain ⟨n, hmem, hm⟩ := List.mem_filterMap.1 hm
  have hsk := hs n hmem
  have hnm := hn code syn hp path hpos n hmem
  unfold modOf at hm
  unfold Skipped at hsk
  cases hk : n.kind <;> rw [hk] at hm hsk <;> first | (cases hm; done) | skip
  rename_i name inline span
  cases hm
  refine ⟨?_, ?_⟩
  · have := hnm name inline span hk
    show '/' ∉ plainName name
    rw [← unraw_plain]
    unfold unraw
    split
    · exact fun h => this ((List.drop_suffix _ _).subset h)
    · exact this
  · intro v hv hh
    exact hsk (.inr ⟨v, hv, hh⟩)

theorem path_of_load {read : Path → Option Text} {root p : Path} {pkg : Package} {t : Bool} {sf : SourceFile}
    (h : loadSource read root p pkg t = some (some sf)) : sf.path = p ∧ ¬ ascent p > 0 := by
  unfold loadSource at h
  split at h
  · cases h
  · rename_i ha
    obtain ⟨_, _, h⟩ := Option.bind_eq_some_iff.1 h
    cases h
    exact ⟨rfl, ha⟩

/-- Every path that the walk comes to. -/
theorem reach_slashFree {env : WalkEnv} (hn : ModuleNames env.parse) {pkg : Package}
    (htop : ∀ p ∈ pkg.topSources, SlashFree p) {x : Path × Bool} (h : Reach env pkg x) : SlashFree x.1 := by
  induction h with
  | top h => exact htop _ h
  | next _ hr ih =>
    obtain ⟨sf, syn, path, parts, ⟨h1, h2⟩, ⟨_, h3, h4⟩, h5, h6⟩ := hr
    exact slashFree_modSource h6 ((path_of_load h1).1 ▸ ih) (goodMods hn h2 h3 h4 h5)

/-- **C44** for a walk: every file that is found, and every file with a mutant, is in the tree: its text is that of the
path below the root of the tree, and put behind any directory, as when it is written, its path names
something below that directory. -/
theorem C44_walk_stays_inside (env : WalkEnv) (pkgs : List Package) (ms : List Mutant) (fs : List SourceFile)
    (h : WalksTree env pkgs ms fs) (hn : ModuleNames env.parse) (htop : ∀ pkg ∈ pkgs, ∀ p ∈ pkg.topSources, SlashFree p) :
    (∀ sf ∈ fs, InTree sf.path ∧ ∃ text, env.read (env.root ++ sf.path) = some text ∧ sf.code = normalizeNewlines text) ∧
    ∀ m ∈ ms, m.sourceFile ∈ fs := by
  obtain ⟨h1, h2, h3⟩ := C45_tree env pkgs ms fs h
  refine ⟨?_, ?_⟩
  · intro sf hsf
    obtain ⟨pkg, hpkg, x, hr, hl, _⟩ := (h1 sf).1 hsf
    have hc := reach_slashFree hn (htop pkg hpkg) hr
    obtain ⟨e, ha⟩ := path_of_load hl
    have hin := inTree_of hc ha
    rw [e]
    refine ⟨hin, ?_⟩
    unfold loadSource at hl
    rw [if_neg ha] at hl
    obtain ⟨text, ht, hf⟩ := Option.bind_eq_some_iff.1 hl
    cases hf
    rw [hin.1] at ht
    exact ⟨text, ht, rfl⟩
  · intro m hm
    obtain ⟨pkg, hpkg, x, sf, syn, hr, hc, hal, _, path, _, hmem⟩ := (h2 m).1 hm
    rw [sourceFile_of_mutantsAt hmem]
    exact (h1 sf).2 ⟨pkg, hpkg, x, hr, hc.1, hal⟩

/-! ### Nothing outside is read -/

theorem load_same {root : Path} {read read' : Path → Option Text} (hs : SameInside root read read') {p : Path} (hp : SlashFree p)
    (pkg : Package) (t : Bool) : loadSource read root p pkg t = loadSource read' root p pkg t := by
  unfold loadSource
  by_cases ha : ascent p > 0
  · rw [if_pos ha, if_pos ha]
  · rw [if_neg ha, if_neg ha]
    have hin := inTree_of hp ha
    rw [hin.1, hs p hin]

theorem walkOne_same {env : WalkEnv} {read' : Path → Option Text} (hs : SameInside env.root env.read read') {p : Path}
    (hp : SlashFree p) (pkg : Package) (t : Bool) : walkOne env pkg p t = walkOne { env with read := read' } pkg p t := by
  unfold walkOne
  rw [load_same hs hp]

theorem findMods_mem {isFile : Path → Bool} {sf : SourceFile} : ∀ {l : List (List ModNamespace)} {mods : List Path},
    findMods isFile sf l = some mods → ∀ q ∈ mods, ∃ parts ∈ l, findModSource isFile sf parts = some (some q)
  | [], mods, h, q, hq => by cases h; cases hq
  | parts :: l, mods, h, q, hq => by
    unfold findMods at h
    simp only [Option.bind_eq_bind, Option.pure_def] at h
    obtain ⟨found, h1, h⟩ := Option.bind_eq_some_iff.1 h
    obtain ⟨rest, h2, h⟩ := Option.bind_eq_some_iff.1 h
    cases h
    rcases List.mem_append.1 hq with hq | hq
    · rw [Option.mem_toList] at hq
      exact ⟨parts, by simp, by rw [h1, hq]⟩
    · obtain ⟨ps, h3, h4⟩ := findMods_mem h2 q hq
      exact ⟨ps, by simp [h3], h4⟩

theorem walkOne_mods {env : WalkEnv} (hn : ModuleNames env.parse) {pkg : Package} {p : Path} {t : Bool} {sf ms mods}
    (h : walkOne env pkg p t = some (some (sf, ms, mods))) (hp : SlashFree p) : ∀ q ∈ mods, SlashFree q := by
  intro q hq
  unfold walkOne at h
  simp only [Option.bind_eq_bind, Option.pure_def] at h
  obtain ⟨o, hl, h⟩ := Option.bind_eq_some_iff.1 h
  cases o with
  | none => cases h
  | some sf' =>
    simp only at h
    obtain ⟨syn, hsyn, h⟩ := Option.bind_eq_some_iff.1 h
    obtain ⟨⟨ms', ext⟩, hw, h⟩ := Option.bind_eq_some_iff.1 h
    obtain ⟨ms'', _, h⟩ := Option.bind_eq_some_iff.1 h
    obtain ⟨mods', hm, h⟩ := Option.bind_eq_some_iff.1 h
    cases h
    obtain ⟨parts, h1, h2⟩ := findMods_mem hm q hq
    refine slashFree_modSource h2 ((path_of_load hl).1 ▸ hp) ?_
    rw [walkFile_spec] at hw
    simp only [Option.some.injEq] at hw
    by_cases hmark : ∃ a ∈ syn.attrs, Marks a
    · rw [if_pos hmark] at hw
      cases hw
      cases h1
    · rw [if_neg hmark] at hw
      cases hw
      obtain ⟨path, hpath, he⟩ := List.mem_filterMap.1 h1
      obtain ⟨h3, h4⟩ := List.mem_filter.1 hpath
      exact goodMods hn hsyn (position_of_mem h3) (by simpa using h4) he

theorem walkSteps_same {env : WalkEnv} {read' : Path → Option Text} (hs : SameInside env.root env.read read')
    (hn : ModuleNames env.parse) (pkg : Package) (n : Nat) (s : WalkState) (hq : ∀ x ∈ s.queue, SlashFree x.1) :
    walkSteps env pkg n s = walkSteps { env with read := read' } pkg n s := by
  induction n generalizing s with
  | zero => rfl
  | succ n ih =>
    unfold walkSteps
    have hstep : walkStep env pkg s = walkStep { env with read := read' } pkg s := by
      unfold walkStep
      split
      · rfl
      · rename_i path top rest hqq
        rw [walkOne_same hs (hq (path, top) (by rw [hqq]; simp))]
    rw [← hstep]
    cases hst : walkStep env pkg s with
    | none => rfl
    | some s' =>
      refine ih s' ?_
      unfold walkStep at hst
      split at hst
      · cases hst; exact hq
      · rename_i path top rest hqq
        rw [hqq] at hq
        split at hst
        · cases hst
        · cases hst
          exact fun x hx => hq x (by simp [hx])
        · rename_i sf ms mods hw
          have hm := walkOne_mods hn hw (hq (path, top) (by simp))
          simp only at hst
          have key : ∀ x ∈ rest ++ mods.map (fun p => (p, false)), SlashFree x.1 := by
            intro x hx
            rcases List.mem_append.1 hx with hx | hx
            · exact hq x (by simp [hx])
            · obtain ⟨q, hq', rfl⟩ := List.mem_map.1 hx
              exact hm q hq'
          split at hst <;> cases hst <;> exact key

/-- **C44**: files outside of the tree are not read: the walk finds the same, whatever their texts are, and whether there are
any. -/
theorem C44_outside_is_not_read (env : WalkEnv) (read' : Path → Option Text) (hs : SameInside env.root env.read read')
    (pkgs : List Package) (hn : ModuleNames env.parse) (htop : ∀ pkg ∈ pkgs, ∀ p ∈ pkg.topSources, SlashFree p)
    (ms : List Mutant) (fs : List SourceFile) :
    WalksTree env pkgs ms fs ↔ WalksTree { env with read := read' } pkgs ms fs := by
  have one : ∀ pkg ∈ pkgs, ∀ ms fs, WalksPackage env pkg ms fs ↔ WalksPackage { env with read := read' } pkg ms fs := by
    intro pkg hpkg ms fs
    have : ∀ n, walkSteps env pkg n (walkStart pkg) = walkSteps { env with read := read' } pkg n (walkStart pkg) := by
      intro n
      refine walkSteps_same hs hn pkg n _ ?_
      intro x hx
      obtain ⟨p, hp, rfl⟩ := List.mem_map.1 hx
      exact htop pkg hpkg p hp
    unfold WalksPackage
    simp only [this]
  clear htop
  constructor
  · intro h
    induction h with
    | nil => exact .nil
    | cons h1 h2 ih => exact .cons ((one _ (by simp) _ _).1 h1) (ih fun pkg hp => one pkg (by simp [hp]))
  · intro h
    induction h with
    | nil => exact .nil
    | cons h1 h2 ih => exact .cons ((one _ (by simp) _ _).2 h1) (ih fun pkg hp => one pkg (by simp [hp]))

/-! ### A run -/

theorem selected_mem {w : Workspace} {names ws located pkgs} (h : selectedPackages w names ws located = some pkgs) :
    ∀ p ∈ pkgs, p ∈ w.packages := by
  have hby : ∀ ns, ∀ p ∈ w.packagesByName ns, p ∈ w.packages := by
    intro ns p hp
    obtain ⟨n, _, hf⟩ := List.mem_filterMap.1 hp
    exact List.mem_of_find?_eq_some hf
  obtain ⟨sel, hsel, rfl⟩ := Option.map_eq_some_iff.1 h
  intro p hp
  unfold Workspace.filterPackages at hsel
  split at hsel
  · cases hsel
  · split at hsel
    · rename_i q hq
      cases hsel
      cases List.mem_singleton.1 hp
      exact List.mem_of_find?_eq_some hq
    · split at hsel
      · cases hsel
        unfold Workspace.defaultPackages at hp
        split at hp
        · exact hby _ p hp
        · exact hp
      · cases hsel
  · cases hsel; exact hp
  · cases hsel; exact hby _ p hp

theorem topSources_slashFree {m : Metadata} (h : TargetPaths m) : ∀ pkg ∈ (Workspace.open m).packages, ∀ p ∈ pkg.topSources, SlashFree p := by
  intro pkg hpkg p hp
  obtain ⟨pm, hpm, _, ht⟩ := (mem_packages m pkg).1 hpkg
  rw [ht] at hp
  unfold packageTopSources at hp
  rw [mem_dedup, mem_sortBy] at hp
  obtain ⟨t, hmem, hp⟩ := List.mem_filterMap.1 hp
  split at hp
  · have hs := (stripPrefix_iff _ _ _).1 hp
    have := h.2 pm hpm t hmem
    obtain ⟨c, r, hr⟩ := List.exists_cons_of_ne_nil h.1
    rw [hs, hr] at this
    intro d hd
    exact this d (by simp [hd])
  · cases hp

/-- **C44** for a run: all the files that are listed and all those with mutants are in the tree, and have the text that is
there. -/
theorem C44_run_stays_inside (w : World) (a : MainArgs) (ms : List Mutant) (fs : List SourceFile) (h : Discovers w a ms fs)
    (hn : ModuleNames w.parseFile) (ht : TargetPaths w.metadata) :
    (∀ sf ∈ fs, InTree sf.path ∧ ∃ text, w.read (w.root ++ sf.path) = some text ∧ sf.code = normalizeNewlines text) ∧
    ∀ m ∈ ms, m.sourceFile ∈ fs := by
  obtain ⟨o, pkgs, exprs, _, h2, _, h4⟩ := h
  exact C44_walk_stays_inside (w.walkEnv o exprs) pkgs ms fs h4 hn
    fun pkg hp => topSources_slashFree ht pkg (selected_mem h2 pkg hp)

/-- **C44** for a run: what is outside of the tree makes no difference to what is found. -/
theorem C44_run_reads_inside (w : World) (read' : Path → Option Text) (hs : SameInside w.root w.read read') (a : MainArgs)
    (ms : List Mutant) (fs : List SourceFile) (hn : ModuleNames w.parseFile) (ht : TargetPaths w.metadata) :
    Discovers w a ms fs ↔ Discovers { w with read := read' } a ms fs := by
  unfold Discovers
  constructor
  · rintro ⟨o, pkgs, exprs, h1, h2, h3, h4⟩
    exact ⟨o, pkgs, exprs, h1, h2, h3, (C44_outside_is_not_read (w.walkEnv o exprs) read' hs pkgs hn
      (fun pkg hp => topSources_slashFree ht pkg (selected_mem h2 pkg hp)) ms fs).1 h4⟩
  · rintro ⟨o, pkgs, exprs, h1, h2, h3, h4⟩
    exact ⟨o, pkgs, exprs, h1, h2, h3, (C44_outside_is_not_read (w.walkEnv o exprs) read' hs pkgs hn
      (fun pkg hp => topSources_slashFree ht pkg (selected_mem h2 pkg hp)) ms fs).2 h4⟩

/-! ### Examples -/

/-- Whether the names of the modules in a file have no slash. -/
def checkModuleNames (syn : SynFile) : Bool :=
  (positionsAll [] syn.items).all fun path => path.all fun n =>
    match n.kind with
    | .mod name _ _ => !name.contains '/'
    | _ => true

theorem moduleNames_of {parse : Text → Option SynFile} (h : ∀ code syn, parse code = some syn → checkModuleNames syn = true) :
    ModuleNames parse := by
  intro code syn hp path hpos n hn name inline span hk
  have h1 := List.all_eq_true.1 (h code syn hp) path (mem_of_position hpos)
  have h2 := List.all_eq_true.1 h1 n hn
  rw [hk] at h2
  simpa using h2

/-- The hypotheses can be met, by a walk through two files. -/
example : ModuleNames sampleWorld.parseFile ∧ TargetPaths sampleWorld.metadata := by
  refine ⟨moduleNames_of ?_, ?_⟩
  · intro code syn h
    cases h
    split <;> decide +kernel
  · unfold TargetPaths SlashFree
    decide +kernel

/-- A module whose file is outside of the tree is not found, whatever the file is; one that leads out and back neither. -/
example (t : Text) : SameInside [] sampleWorld.read (fun p => if p = ["..".toList, "x.rs".toList] then some t else sampleWorld.read p) := by
  intro p hp
  simp only [List.nil_append]
  rw [if_neg]
  rintro rfl
  have := (C44_check_is_exact _ ["w".toList] (by simp)).2 (hp.2 ["w".toList] (by simp))
  revert this
  decide

end CM.Props
