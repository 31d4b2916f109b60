import Verif.Spec.Start
import Verif.Props.Pipeline
/-! Where a run starts: C84. -/
namespace CM.Props
open CM CM.Spec

theorem walkTo_follow (stack : List Text) (path : Path) (h : "/".toList ∉ path) :
    walkTo ("/".toList :: stack.reverse) path = "/".toList :: (follow stack path).reverse := by
  induction path generalizing stack with
  | nil => rfl
  | cons c rest ih =>
    have hc : c ≠ "/".toList := fun e => h (by rw [e]; exact List.mem_cons_self)
    have hr : "/".toList ∉ rest := fun e => h (List.mem_cons_of_mem _ e)
    unfold walkTo follow
    rw [if_neg hc, ← ih _ hr]
    congr 1
    have e1 : dotdot = "..".toList := rfl
    have e2 : dot = ".".toList := rfl
    rw [e1, e2]
    by_cases h1 : c = "..".toList
    · rw [if_pos h1, if_pos h1]
      cases stack with
      | nil => rfl
      | cons x xs =>
        have : "/".toList :: (x :: xs).reverse ≠ ["/".toList] := by simp
        rw [if_neg this, List.reverse_cons, ← List.cons_append, List.dropLast_concat]
        rfl
    · rw [if_neg h1, if_neg h1]
      by_cases h2 : c = ".".toList
      · rw [if_pos h2, if_pos h2]
      · rw [if_neg h2, if_neg h2]; simp

/-- What the model takes the operating system to do with a path is following it. -/
theorem walkTo_leadsTo (cwd path : Path) (hc : cwd.head? = some "/".toList) (hp : RootFirst path) :
    walkTo cwd path = leadsTo cwd path := by
  obtain ⟨st, rfl⟩ : ∃ st, cwd = "/".toList :: st := by
    cases cwd with
    | nil => cases hc
    | cons c st => exact ⟨st, by rw [Option.some.inj hc]⟩
  unfold leadsTo
  by_cases hr : path.head? ≠ some "/".toList
  · rw [if_pos hr]
    have : "/".toList ∉ path := by
      cases path with
      | nil => exact List.not_mem_nil
      | cons c rest =>
        intro hm
        rcases List.mem_cons.1 hm with e | e
        · exact hr (by rw [e]; rfl)
        · exact hp e
    have := walkTo_follow st.reverse path this
    rw [List.reverse_reverse] at this
    exact this
  · rw [if_neg hr]
    have hr := Classical.not_not.1 hr
    cases path with
    | nil => cases hr
    | cons c rest =>
      cases Option.some.inj hr
      unfold walkTo
      rw [if_pos rfl]
      exact walkTo_follow [] rest hp

theorem leadsTo_nil (cwd : Path) (hc : cwd.head? = some "/".toList) : leadsTo cwd [] = cwd := by
  rw [← walkTo_leadsTo cwd [] hc (by unfold RootFirst; exact List.not_mem_nil)]
  rfl

/-- The start directory is the one that the arguments name, unless `--manifest-path` is a bare file name. -/
theorem startDir_of (p : Place) (s : StartArgs) (dir : Path) (hc : p.cwd.head? = some "/".toList) (h : StartsIn p s dir)
    (hm : ∀ name, s.manifestPath ≠ some [name]) : ∃ start, p.startDir s = some start ∧ p.real start = some dir := by
  obtain ⟨_, h⟩ := h
  unfold Place.startDir
  cases h1 : s.manifestPath with
  | some m =>
    rw [h1] at h
    obtain ⟨hok, hf, q, name, e, hd⟩ := h
    have hq : q ≠ [] := fun e' => hm name (by rw [h1, e, e']; rfl)
    have hqok : RootFirst q := by
      unfold RootFirst at hok ⊢
      intro hi
      apply hok
      rw [e]
      cases q with
      | nil => exact absurd rfl hq
      | cons c q => exact List.mem_append_left _ hi
    have hreal : p.real m = some (leadsTo p.cwd m) := by
      unfold Place.real
      rw [if_neg (by rw [e]; simp), walkTo_leadsTo _ _ hc hok]
    refine ⟨q, ?_, ?_⟩
    · show (if (p.real m).any p.isFile = true then parentPath m else none) = _
      rw [hreal, Option.any_some, if_pos hf]
      unfold parentPath
      have : ¬ (m = [] ∨ m = ["/".toList]) := by
        rintro (e' | e')
        · rw [e] at e'; simp at e'
        · rw [e] at e'
          cases q with
          | nil => exact hq rfl
          | cons c q => simp at e'
      rw [if_neg this, e, List.dropLast_concat]
    · unfold Place.real
      rw [if_neg hq, walkTo_leadsTo _ _ hc hqok, hd]
  | none =>
    rw [h1] at h
    cases h2 : s.dir with
    | some d =>
      rw [h2] at h
      obtain ⟨hne, hok, hd⟩ := h
      refine ⟨d, rfl, ?_⟩
      unfold Place.real
      rw [if_neg hne, walkTo_leadsTo _ _ hc hok, hd]
    | none =>
      rw [h2] at h
      have h : dir = p.cwd := h
      refine ⟨[dot], rfl, ?_⟩
      rw [h]
      rfl

theorem nearest_unique {isFile : Path → Bool} {dir m m' : Path} (h : NearestManifest isFile dir m)
    (h' : NearestManifest isFile dir m') : m = m' := by
  obtain ⟨d, rfl, h1, h2, h3⟩ := h
  obtain ⟨d', rfl, h1', h2', h3'⟩ := h'
  have a := h3 d' h1' h2'
  have b := h3' d h1 h2
  rw [b.eq_of_length (Nat.le_antisymm b.length_le a.length_le)]

/-- What `locate_project` gives depends only on the manifest around the directory. -/
theorem locate_same {p : Place} (hc : CargoLocates p) {d d' : Path} (hd : p.isDir d = true) (hd' : p.isDir d' = true)
    (h : ∀ m, NearestManifest p.isFile d m ↔ NearestManifest p.isFile d' m) (b : Bool) : p.locate d b = p.locate d' b := by
  cases b with
  | true => exact hc.workspace d d' hd hd' h
  | false => exact Option.ext fun m => by rw [hc.nearest d hd, hc.nearest d' hd', h]

/-- **C84**, in full: wherever in a package a run is started, and however the start is given, the run is the same. -/
def C84_full : Prop :=
  ∀ (p : Place) (cwd' : Path) (a : MainArgs) (s s' : StartArgs) (dir dir' : Path),
    CargoLocates p → CargoLocates { p with cwd := cwd' } →
    StartsIn p s dir → StartsIn { p with cwd := cwd' } s' dir' → s.noConfig = s'.noConfig →
    (∀ m, NearestManifest p.isFile dir m ↔ NearestManifest p.isFile dir' m) →
    ∀ act, p.Runs a s act ↔ Place.Runs { p with cwd := cwd' } a s' act

/-- C84: that holds if `--manifest-path` is not a bare file name, and the output directory is not given by a relative
path while the working directory changes. -/
theorem C84_same_package_partial (p : Place) (cwd' : Path) (a : MainArgs) (s s' : StartArgs) (dir dir' : Path)
    (hc : CargoLocates p) (hc' : CargoLocates { p with cwd := cwd' })
    (h : StartsIn p s dir) (h' : StartsIn { p with cwd := cwd' } s' dir') (hn : s.noConfig = s'.noConfig)
    (hnear : ∀ m, NearestManifest p.isFile dir m ↔ NearestManifest p.isFile dir' m)
    (hm : ∀ name, s.manifestPath ≠ some [name]) (hm' : ∀ name, s'.manifestPath ≠ some [name])
    (ho : cwd' = p.cwd ∨ ∀ root c t, p.config s.noConfig root = some c → a.options.output.or c.output = some t →
      t.head? = some '/') :
    p.world a s = Place.world { p with cwd := cwd' } a s' := by
  obtain ⟨st, h1, h2⟩ := startDir_of p s dir hc.absolute h hm
  obtain ⟨st', h1', h2'⟩ := startDir_of { p with cwd := cwd' } s' dir' hc'.absolute h' hm'
  have hl : ∀ b, p.locateProject st b = Place.locateProject { p with cwd := cwd' } st' b := by
    intro b
    unfold Place.locateProject
    rw [h2, h2']
    show (if p.isDir dir = true then _ else _) = (if p.isDir dir' = true then _ else _)
    rw [if_pos h.1, if_pos (show p.isDir dir' = true from h'.1), locate_same hc h.1 h'.1 hnear b]
  have hopen : p.openMetadata st = Place.openMetadata { p with cwd := cwd' } st' := by
    unfold Place.openMetadata
    rw [hl]
  unfold Place.world
  rw [h1, h1', Option.bind_eq_bind, Option.bind_eq_bind, Option.bind_some, Option.bind_some, hopen, hn, hl]
  refine congrArg _ (funext fun m => ?_)
  show (p.config s'.noConfig m.workspaceRoot).bind _ = (p.config s'.noConfig m.workspaceRoot).bind _
  cases hcfg : p.config s'.noConfig m.workspaceRoot with
  | none => rfl
  | some c =>
    have : p.outputParent a c m.workspaceRoot = Place.outputParent { p with cwd := cwd' } a c m.workspaceRoot := by
      unfold Place.outputParent
      cases ht : a.options.output.or c.output with
      | none => rfl
      | some t =>
        rcases ho with rfl | ho
        · rfl
        · have hh := ho m.workspaceRoot c t (by rw [hn]; exact hcfg) ht
          show walkTo p.cwd (components t) = walkTo cwd' (components t)
          have : ∃ r, components t = "/".toList :: r := by
            unfold components
            rw [if_pos hh]
            exact ⟨_, rfl⟩
          obtain ⟨r, e⟩ := this
          rw [e]
          rfl
    rw [Option.bind_some, Option.bind_some, this]

/-- So the runs do the same. -/
theorem C84_same_runs_partial (p : Place) (cwd' : Path) (a : MainArgs) (s s' : StartArgs) (dir dir' : Path)
    (hc : CargoLocates p) (hc' : CargoLocates { p with cwd := cwd' })
    (h : StartsIn p s dir) (h' : StartsIn { p with cwd := cwd' } s' dir') (hn : s.noConfig = s'.noConfig)
    (hnear : ∀ m, NearestManifest p.isFile dir m ↔ NearestManifest p.isFile dir' m)
    (hm : ∀ name, s.manifestPath ≠ some [name]) (hm' : ∀ name, s'.manifestPath ≠ some [name])
    (ho : cwd' = p.cwd ∨ ∀ root c t, p.config s.noConfig root = some c → a.options.output.or c.output = some t →
      t.head? = some '/') (act : Action) :
    p.Runs a s act ↔ Place.Runs { p with cwd := cwd' } a s' act := by
  unfold Place.Runs
  rw [C84_same_package_partial p cwd' a s s' dir dir' hc hc' h h' hn hnear hm hm' ho]

theorem world_parts {p : Place} {a : MainArgs} {s : StartArgs} {w : World} (h : p.world a s = some w) :
    ∃ start m c, p.startDir s = some start ∧ p.openMetadata start = some m ∧ p.config s.noConfig m.workspaceRoot = some c ∧
      w = { p.base with
        metadata := m
        located := p.locateProject start false
        config := c
        root := m.workspaceRoot
        isFile := fun q => p.isFile (walkTo m.workspaceRoot q)
        output := p.outputs (p.outputParent a c m.workspaceRoot) } := by
  unfold Place.world at h
  obtain ⟨start, h1, h⟩ := Option.bind_eq_some_iff.1 h
  obtain ⟨m, h2, h⟩ := Option.bind_eq_some_iff.1 h
  obtain ⟨c, h3, h⟩ := Option.bind_eq_some_iff.1 h
  exact ⟨start, m, c, h1, h2, h3, (Option.some.inj h).symm⟩

/-- With `--manifest-path` and a bare file name there is no run. -/
theorem bare_manifest (p : Place) (a : MainArgs) (s : StartArgs) (name : Text) (h : s.manifestPath = some [name]) :
    p.world a s = none := by
  cases hw : p.world a s with
  | none => rfl
  | some w =>
    obtain ⟨start, m, c, h1, h2, -, -⟩ := world_parts hw
    unfold Place.startDir at h1
    rw [h] at h1
    have h1 : (if (p.real [name]).any p.isFile = true then parentPath [name] else none) = some start := h1
    have e : start = [] := by
      split at h1
      · unfold parentPath at h1
        split at h1
        · cases h1
        · exact (Option.some.inj h1).symm
      · cases h1
    rw [e] at h2
    cases h2

theorem not_bare {p : Place} {a : MainArgs} {s : StartArgs} {w : World} (hw : p.world a s = some w) (name : Text) :
    s.manifestPath ≠ some [name] := by
  intro h
  rw [bare_manifest p a s name h] at hw
  cases hw

/-- C84: the package that is taken, if no other is asked for, is the one whose manifest is nearest to the start. -/
theorem C84_located (p : Place) (a : MainArgs) (s : StartArgs) (dir manifest : Path) (w : World)
    (hc : CargoLocates p) (h : StartsIn p s dir)
    (hnear : NearestManifest p.isFile dir manifest) (hw : p.world a s = some w) : w.located = some manifest.dropLast := by
  obtain ⟨start, m, c, h1, h2, h3, rfl⟩ := world_parts hw
  obtain ⟨st, h1', h4⟩ := startDir_of p s dir hc.absolute h (not_bare hw)
  cases h1.symm.trans h1'
  show p.locateProject start false = _
  unfold Place.locateProject
  rw [h4, Option.bind_eq_bind, Option.bind_some, if_pos h.1, (hc.nearest dir h.1 manifest).2 hnear]
  obtain ⟨d, rfl, hd, hf, _⟩ := hnear
  have hdir := hc.inDir d _ hf
  have hroot := hc.rooted d hdir
  simp only [Option.bind_some]
  rw [if_pos hf]
  have : parentPath (d ++ ["Cargo.toml".toList]) = some d := by
    unfold parentPath
    have : ¬ (d ++ ["Cargo.toml".toList] = [] ∨ d ++ ["Cargo.toml".toList] = ["/".toList]) := by
      rintro (e | e)
      · simp at e
      · cases d with
        | nil => cases hroot
        | cons _ _ => simp at e
    rw [if_neg this, List.dropLast_concat]
  rw [this, List.dropLast_concat, Option.bind_some, if_pos hdir]
  rfl

/-- **C84**: started anywhere in a package (with no manifest in between), without `--workspace` and `--package`, a run finds
what it finds when the package is named with `--package`. -/
theorem C84_in_package (p : Place) (a : MainArgs) (s : StartArgs) (dir : Path) (w : World) (q : Package) (pm : PackageMeta)
    (hc : CargoLocates p) (h : StartsIn p s dir) (hw : p.world a s = some w)
    (hmember : pm ∈ w.metadata.packages) (hq : Package.fromMetadata pm w.metadata.workspaceRoot = some q)
    (hnear : NearestManifest p.isFile dir pm.manifestPath)
    (hn : NamesOk (Workspace.open w.metadata).packages)
    (hone : ∀ pm' ∈ w.metadata.packages, pm'.manifestPath.dropLast = pm.manifestPath.dropLast → pm'.name = pm.name)
    (hp : a.mutatePackages = []) (hws : a.workspace = false) (ms : List Mutant) (fs : List SourceFile) :
    Discovers w a ms fs ↔ Discovers w { a with mutatePackages := [pm.name] } ms fs := by
  have hl := C84_located p a s dir _ w hc h hnear hw
  obtain ⟨q', hs, qm, hqm, hdes, hdl⟩ := C55_enclosing_package w.metadata _ q pm hmember hq rfl
  have hname : q'.name = pm.name := by rw [hdes.1]; exact hone qm hqm hdl
  have hmem : q' ∈ (Workspace.open w.metadata).packages := by
    have := hs
    unfold selectedPackages choosePackageFilter at this
    simp only [List.isEmpty_nil, Bool.not_true, Bool.false_eq_true, if_false, Workspace.filterPackages] at this
    cases hf : (Workspace.open w.metadata).packages.find? fun p =>
        (Workspace.open w.metadata).metadata.workspaceRoot ++ p.relativeDir == pm.manifestPath.dropLast with
    | some x =>
      rw [hf] at this
      have e : [x] = [q'] := Option.some.inj this
      cases e
      exact List.mem_of_find?_eq_some hf
    | none =>
      obtain ⟨⟨_, _, f, e⟩, _⟩ := (fromMetadata_iff _ _ _).1 hq
      rw [List.find?_eq_none] at hf
      refine absurd ?_ (hf q ((mem_packages _ _).2 ⟨pm, hmember, (fromMetadata_iff _ _ _).1 hq⟩))
      rw [e, List.dropLast_concat]
      exact beq_self_eq_true _
  have hs' : selectedPackages (Workspace.open w.metadata) [pm.name] a.workspace w.located = some [q'] := by
    show some ([pm.name].filterMap fun n => (Workspace.open w.metadata).packages.find? (·.name == n)) = _
    have : (Workspace.open w.metadata).packages.find? (·.name == pm.name) = some q' := by
      cases hf : (Workspace.open w.metadata).packages.find? (·.name == pm.name) with
      | none => rw [List.find?_eq_none] at hf; exact absurd (by rw [hname]; exact beq_self_eq_true _) (hf q' hmem)
      | some x =>
        have h1 := List.mem_of_find?_eq_some hf
        have h2 : x.name = pm.name := by have := List.find?_some hf; exact eq_of_beq this
        rw [hn.1 x h1 q' hmem (by rw [h2, hname])]
    rw [List.filterMap_cons, this]
    rfl
  have hs0 : selectedPackages (Workspace.open w.metadata) a.mutatePackages a.workspace w.located = some [q'] := by
    rw [hp, hws, hl]; exact hs
  constructor
  · rintro ⟨o, pkgs, exprs, h1, h2, h3, h4⟩
    cases hs0.symm.trans h2
    exact ⟨o, _, exprs, h1, hs', h3, h4⟩
  · rintro ⟨o, pkgs, exprs, h1, h2, h3, h4⟩
    cases hs'.symm.trans h2
    exact ⟨o, _, exprs, h1, hs0, h3, h4⟩

/-- **C84**: starts in one workspace, with the same working directory, differ in nothing but the package found around them:
configuration, output directory and source tree are those of the workspace. -/
theorem C84_workspace (p : Place) (a : MainArgs) (s s' : StartArgs) (dir dir' : Path) (w w' : World)
    (hc : p.cwd.head? = some "/".toList) (h : StartsIn p s dir) (h' : StartsIn p s' dir') (hn : s.noConfig = s'.noConfig)
    (hsame : p.locate dir true = p.locate dir' true)
    (hw : p.world a s = some w) (hw' : p.world a s' = some w') : w' = { w with located := w'.located } := by
  obtain ⟨start, g1, g2⟩ := startDir_of p s dir hc h (not_bare hw)
  obtain ⟨start', g1', g2'⟩ := startDir_of p s' dir' hc h' (not_bare hw')
  obtain ⟨st, m, c, h1, h2, h3, rfl⟩ := world_parts hw
  obtain ⟨st', m', c', h1', h2', h3', rfl⟩ := world_parts hw'
  cases g1.symm.trans h1
  cases g1'.symm.trans h1'
  have e : p.openMetadata start = p.openMetadata start' := by
    unfold Place.openMetadata Place.locateProject
    rw [g2, g2', Option.bind_eq_bind, Option.bind_eq_bind, Option.bind_some, Option.bind_some, if_pos h.1, if_pos h'.1, hsame]
  rw [h2, h2'] at e
  cases e
  rw [hn, h3'] at h3
  cases h3
  rfl

theorem listMutantsText_located (w : World) (l : Option Path) (lc d : Bool) (ms : List Mutant) :
    listMutantsText { w with located := l } lc d ms = listMutantsText w lc d ms := by
  induction ms with
  | nil => rfl
  | cons m ms ih => unfold listMutantsText; rw [ih]

theorem afterDiscovery_located (w : World) (l : Option Path) (a : MainArgs) (ms : List Mutant) (fs : List SourceFile) :
    afterDiscovery { w with located := l } a ms fs = afterDiscovery w a ms fs := by
  unfold afterDiscovery
  simp only [listMutantsText_located]
  rfl

/-- **C84**: and with `--workspace` or `--package` the run is the same wherever in the workspace it is started. -/
theorem C84_anywhere (p : Place) (a : MainArgs) (s s' : StartArgs) (dir dir' : Path) (w w' : World)
    (hc : p.cwd.head? = some "/".toList) (h : StartsIn p s dir) (h' : StartsIn p s' dir') (hn : s.noConfig = s'.noConfig)
    (hsame : p.locate dir true = p.locate dir' true)
    (ha : a.workspace = true ∨ a.mutatePackages ≠ [])
    (hw : p.world a s = some w) (hw' : p.world a s' = some w') (act : Action) : Runs w a act ↔ Runs w' a act := by
  have key : ∀ (w : World) (l : Option Path), Runs w a act → Runs { w with located := l } a act := by
    rintro w l ⟨ms, fs, ⟨o, pkgs, exprs, h1, h2, h3, h4⟩, hact⟩
    refine ⟨ms, fs, ⟨o, pkgs, exprs, h1, ?_, h3, h4⟩, by rw [afterDiscovery_located]; exact hact⟩
    rw [← h2]
    have hf : choosePackageFilter a.mutatePackages a.workspace l = choosePackageFilter a.mutatePackages a.workspace w.located := by
      unfold choosePackageFilter
      rcases ha with ha | ha
      · rw [ha]; rfl
      · cases hp : a.mutatePackages with
        | nil => exact absurd hp ha
        | cons x xs => rfl
    unfold selectedPackages
    rw [hf]
  have e := C84_workspace p a s s' dir dir' w w' hc h h' hn hsame hw hw'
  constructor
  · intro hr; rw [e]; exact key w _ hr
  · intro hr
    have : w = { w' with located := w.located } := by rw [e]
    rw [this]; exact key w' _ hr

/-! ### Examples -/
namespace StartSample

/-- The nearest manifest, by looking upwards. -/
def nearest (isFile : Path → Bool) : Nat → Path → Option Path
  | 0, dir => if isFile (dir ++ ["Cargo.toml".toList]) then some (dir ++ ["Cargo.toml".toList]) else none
  | n + 1, dir => if isFile (dir ++ ["Cargo.toml".toList]) then some (dir ++ ["Cargo.toml".toList]) else nearest isFile n dir.dropLast

theorem nearest_iff (isFile : Path → Bool) (dir m : Path) : nearest isFile dir.length dir = some m ↔ NearestManifest isFile dir m := by
  suffices ∀ n (dir : Path), dir.length = n → (nearest isFile n dir = some m ↔ NearestManifest isFile dir m) from this _ _ rfl
  intro n
  induction n with
  | zero =>
    intro dir hl
    have := List.length_eq_zero_iff.1 hl
    subst this
    unfold nearest NearestManifest
    constructor
    · intro h
      split at h
      · rename_i hf; cases h; exact ⟨[], rfl, List.prefix_rfl, hf, fun d' hd _ => hd⟩
      · cases h
    · rintro ⟨d, rfl, hd, hf, _⟩
      have := List.prefix_nil.1 hd
      subst this
      rw [if_pos hf]
  | succ n ih =>
    intro dir hl
    have hne : dir ≠ [] := by rintro rfl; cases hl
    have hdl : dir.dropLast.length = n := by rw [List.length_dropLast, hl]; rfl
    have hpre : ∀ d, d <+: dir ↔ d = dir ∨ d <+: dir.dropLast := by
      intro d
      have e := List.dropLast_concat_getLast hne
      constructor
      · intro h
        rw [← e, List.prefix_concat_iff] at h
        rw [← e]
        simpa using h
      · rintro (rfl | h)
        · exact List.prefix_rfl
        · exact h.trans (List.dropLast_prefix dir)
    unfold nearest
    by_cases hf : isFile (dir ++ ["Cargo.toml".toList]) = true
    · rw [if_pos hf]
      constructor
      · intro h; cases h; exact ⟨dir, rfl, List.prefix_rfl, hf, fun d' hd _ => hd⟩
      · rintro ⟨d, rfl, hd, hfd, hmax⟩
        have := hmax dir List.prefix_rfl hf
        rw [this.eq_of_length (Nat.le_antisymm this.length_le hd.length_le)]
    · rw [if_neg hf, ih _ hdl]
      unfold NearestManifest
      constructor
      · rintro ⟨d, rfl, hd, hfd, hmax⟩
        refine ⟨d, rfl, (hpre d).2 (.inr hd), hfd, fun d' hd' hf' => ?_⟩
        rcases (hpre d').1 hd' with rfl | h
        · exact absurd hf' hf
        · exact hmax d' h hf'
      · rintro ⟨d, rfl, hd, hfd, hmax⟩
        refine ⟨d, rfl, ?_, hfd, fun d' hd' hf' => hmax d' ((hpre d').2 (.inr hd')) hf'⟩
        rcases (hpre d).1 hd with rfl | h
        · exact absurd hfd hf
        · exact h

def files : List Path := ["/w/Cargo.toml", "/w/util/Cargo.toml", "/w/util/src/lib.rs", "/w/util/src/a.rs"].map fun s => components s.toList

/-- A workspace at `/w` with a package in `/w/util`; the configuration says where the output goes if `output` is given. -/
def place (cwd : String) (output : Option Text) : Place where
  cwd := components cwd.toList
  isDir d := files.any fun f => decide (d ≠ [] ∧ d <+: f.dropLast)
  isFile f := decide (f ∈ files)
  locate dir ws := (nearest (fun f => decide (f ∈ files)) dir.length dir).map fun m => if ws then components "/w/Cargo.toml".toList else m
  metadata m := if m = components "/w/Cargo.toml".toList then some sampleMetadata else none
  outputs d := { parent := true, out := if d = components "/w/x".toList then some fun _ => none else none, old := none }
  parseToml t := some (.table [("output".toList, .str t)])
  number _ := none
  base := { sampleWorld with
    read := fun f => if f.getLast? = some "mutants.toml".toList then output else sampleWorld.read (f.drop 2) }

theorem place_ok (cwd : String) (output : Option Text) (h : (components cwd.toList).head? = some "/".toList) :
    CargoLocates (place cwd output) where
  nearest dir _ m := by
    show (nearest _ _ _).map _ = _ ↔ _
    rw [show (fun m : Path => if false = true then components "/w/Cargo.toml".toList else m) = id from rfl, Option.map_id]
    exact nearest_iff _ _ _
  workspace dir dir' _ _ h := by
    show (nearest _ _ _).map _ = (nearest _ _ _).map _
    congr 1
    exact Option.ext fun m => by rw [nearest_iff, nearest_iff]; exact h m
  inDir d name h := by
    have h : d ++ [name] ∈ files := of_decide_eq_true h
    show (files.any fun f => decide (d ≠ [] ∧ d <+: f.dropLast)) = true
    rw [List.any_eq_true]
    refine ⟨_, h, decide_eq_true ⟨?_, by rw [List.dropLast_concat]; exact List.prefix_rfl⟩⟩
    rintro rfl
    have : ∀ f ∈ files, f.length ≠ 1 := by decide
    exact this _ h rfl
  absolute := h
  rooted d h := by
    have h : (files.any fun f => decide (d ≠ [] ∧ d <+: f.dropLast)) = true := h
    rw [List.any_eq_true] at h
    obtain ⟨f, hf, hd⟩ := h
    obtain ⟨hne, hd⟩ := of_decide_eq_true hd
    have : ∀ f ∈ files, f.dropLast.head? = some "/".toList := by decide
    rw [← this f hf]
    obtain ⟨r, e⟩ := hd
    rw [← e]
    cases d with
    | nil => exact absurd rfl hne
    | cons _ _ => rfl

/-- The runs that are compared. -/
def args : MainArgs := { list := true }

theorem in_util (cwd : String) (o : Option Text) (s : StartArgs) (dir : Path) (h : StartsIn (place cwd o) s dir)
    (hd : dir ∈ [components "/w/util".toList, components "/w/util/src".toList]) :
    ∀ m, NearestManifest (place cwd o).isFile dir m ↔ m = components "/w/util/Cargo.toml".toList := by
  intro m
  rw [show (place cwd o).isFile = fun f => decide (f ∈ files) from rfl, ← nearest_iff]
  simp only [List.mem_cons, List.not_mem_nil, or_false] at hd
  rcases hd with rfl | rfl
  · rw [show nearest (fun f => decide (f ∈ files)) (components "/w/util".toList).length (components "/w/util".toList) =
      some (components "/w/util/Cargo.toml".toList) by decide]
    exact ⟨fun h => (Option.some.inj h).symm, fun h => by rw [h]⟩
  · rw [show nearest (fun f => decide (f ∈ files)) (components "/w/util/src".toList).length (components "/w/util/src".toList) =
      some (components "/w/util/Cargo.toml".toList) by decide]
    exact ⟨fun h => (Option.some.inj h).symm, fun h => by rw [h]⟩

theorem starts_cwd (cwd : String) (o : Option Text) (h : (place cwd o).isDir (components cwd.toList) = true) :
    StartsIn (place cwd o) {} (components cwd.toList) := ⟨h, rfl⟩

/-- Started in `/w/util/src`, in `/w/util`, and in `/w` with `--dir util` or `--manifest-path util/Cargo.toml`. -/
example : StartsIn (place "/w/util/src" none) {} (components "/w/util/src".toList) :=
  starts_cwd _ _ (by decide)
example : StartsIn (place "/w" none) { dir := some ["util".toList] } (components "/w/util".toList) :=
  ⟨by decide, by decide, by unfold RootFirst; decide, by decide⟩
theorem starts_manifest : StartsIn (place "/w" none) { manifestPath := some ["util".toList, "Cargo.toml".toList] } (components "/w/util".toList) :=
  ⟨by decide, by unfold RootFirst; decide, by decide, ["util".toList], "Cargo.toml".toList, rfl, by decide⟩

end StartSample

open StartSample in
/-- The hypotheses of the theorems are met by these. -/
example : ∃ w, (place "/w/util/src" none).world args {} = some w ∧ (place "/w" none).world args { manifestPath := some ["util".toList, "Cargo.toml".toList] } = some w ∧
    (trySelect w args 3).map List.length = some 6 := by
  have h := C84_same_package_partial (place "/w/util/src" none) (components "/w".toList) args {}
    { manifestPath := some ["util".toList, "Cargo.toml".toList] } _ _ (place_ok _ _ (by decide)) (place_ok "/w" none (by decide))
    (starts_cwd _ _ (by decide)) starts_manifest rfl
    (fun m => (in_util "/w/util/src" none {} _ (starts_cwd _ _ (by decide)) (by decide) m).trans
      (in_util "/w" none _ _ starts_manifest (by decide) m).symm)
    (fun _ h => nomatch h) (by intro name h; cases h)
    (.inr (by
      intro root c t h1 h2
      unfold Place.config at h1
      rw [show (place "/w/util/src" none).base.read (root ++ [".cargo".toList, "mutants.toml".toList]) = none by
        show (if _ then none else _) = none
        rw [if_pos (by simp)]] at h1
      cases h1
      cases h2))
  have e : ((place "/w/util/src" none).world args {}).any (fun w => (trySelect w args 3).map List.length == some 6) = true := by decide +kernel
  cases hw : (place "/w/util/src" none).world args {} with
  | none => rw [hw] at e; cases e
  | some w =>
    rw [hw] at e
    exact ⟨w, rfl, by rw [← hw]; exact h.symm, eq_of_beq e⟩

open StartSample in
/-- The full claim is false: `--manifest-path Cargo.toml` is an error, for the start directory is then the empty path, which is
no directory. -/
theorem C84_manifest_path_false : ¬ C84_full := by
  intro h
  have hs : StartsIn (place "/w/util" none) { manifestPath := some ["Cargo.toml".toList] } (components "/w/util".toList) :=
    ⟨by decide, by unfold RootFirst; decide, by decide, [], "Cargo.toml".toList, rfl, by decide⟩
  have hs' : StartsIn (place "/w/util" none) {} (components "/w/util".toList) := starts_cwd _ _ (by decide)
  have ok : CargoLocates (place "/w/util" none) := place_ok _ _ (by decide)
  have := h (place "/w/util" none) _ args _ {} _ _ ok ok hs hs' rfl (fun m => Iff.rfl)
  have e : ((place "/w/util" none).world args {}).any (fun w => (trySelect w { args with list := false } 3).any
    fun ms => (listMutantsText w true false ms).isSome) = true := by decide +kernel
  cases hw : (place "/w/util" none).world args {} with
  | none => rw [hw] at e; cases e
  | some w =>
    rw [hw, Option.any_some, Option.any_eq_true] at e
    obtain ⟨ms, hms, ht⟩ := e
    obtain ⟨text, ht⟩ := Option.isSome_iff_exists.1 ht
    obtain ⟨w', hw', _⟩ := (this (.list text)).2 ⟨w, hw, (runs_iff w args rfl _).2 ⟨ms, selects_of_try hms, text, ht, rfl⟩⟩
    rw [bare_manifest _ _ _ _ rfl] at hw'
    cases hw'

/-- C84 with the exception of that, in full. -/
def C84_other_starts : Prop :=
  ∀ (p : Place) (cwd' : Path) (a : MainArgs) (s s' : StartArgs) (dir dir' : Path),
    CargoLocates p → CargoLocates { p with cwd := cwd' } →
    StartsIn p s dir → StartsIn { p with cwd := cwd' } s' dir' → s.noConfig = s'.noConfig →
    (∀ m, NearestManifest p.isFile dir m ↔ NearestManifest p.isFile dir' m) →
    s.manifestPath = none → s'.manifestPath = none → a.options.output = none →
    ∀ act, p.Runs a s act ↔ Place.Runs { p with cwd := cwd' } a s' act

open StartSample in
/-- That is false too: a relative path that the configuration file has for `output` is taken from the working directory, so that
the output directory of a run started in another directory of the package is another one. -/
theorem C84_relative_output_false : ¬ C84_other_starts := by
  intro h
  have hs : StartsIn (place "/w/util" (some "../x".toList)) {} (components "/w/util".toList) := starts_cwd _ _ (by decide)
  have hs' : StartsIn (place "/w/util/src" (some "../x".toList)) {} (components "/w/util/src".toList) := starts_cwd _ _ (by decide)
  have := h (place "/w/util" (some "../x".toList)) (components "/w/util/src".toList) { args with list := false } {} {} _ _
    (place_ok _ _ (by decide)) (place_ok "/w/util/src" (some "../x".toList) (by decide)) hs hs' rfl
    (fun m => (in_util _ _ _ _ hs (by decide) m).trans (in_util _ _ _ _ hs' (by decide) m).symm) rfl rfl rfl
  have e : ((place "/w/util" (some "../x".toList)).world { args with list := false } {}).any (fun w => (trySelect w { args with list := false } 3).isSome &&
    (prepareOutput w false).any fun out => out.old.isSome) = true := by decide +kernel
  have e' : ((place "/w/util/src" (some "../x".toList)).world { args with list := false } {}).all (fun w =>
    (prepareOutput w false).all fun out => out.old.isNone) = true := by decide +kernel
  cases hw : (place "/w/util" (some "../x".toList)).world { args with list := false } {} with
  | none => rw [hw] at e; cases e
  | some w =>
    rw [hw, Option.any_some, Bool.and_eq_true, Option.any_eq_true] at e
    obtain ⟨hms, out, hout, hold⟩ := e
    obtain ⟨ms, hms⟩ := Option.isSome_iff_exists.1 hms
    obtain ⟨w', hw', hr⟩ := (this (.test out ms)).1 ⟨w, hw, (runs_iff w _ rfl _).2 ⟨ms, selects_of_try hms, out, hout, rfl⟩⟩
    have hw' : (place "/w/util/src" (some "../x".toList)).world { args with list := false } {} = some w' := hw'
    obtain ⟨ms', _, out', hout', e''⟩ := (runs_iff w' _ rfl _).1 hr
    rw [hw', Option.all_some] at e'
    rw [show prepareOutput w' false = some out' from hout', Option.all_some] at e'
    cases e''
    cases ho : out.old with
    | none => rw [ho] at hold; cases hold
    | some d => rw [ho] at e'; cases e'

end CM.Props
