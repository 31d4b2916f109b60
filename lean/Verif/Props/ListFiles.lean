import Verif.Props.Program
/-! C102: `--list-files` names the files that are searched for mutants. -/
namespace CM.Props
open CM CM.Spec

/-- A path with slashes between its parts; one part `/` is before an absolute path. -/
def Slashed : Path → Text → Prop
  | [], t => t = []
  | [c], t => (c = ['/'] ∧ t = []) ∨ (c ≠ ['/'] ∧ t = c)
  | c :: rest, t => ∃ t', Slashed rest t' ∧ ((c = ['/'] ∧ t = '/' :: t') ∨ (c ≠ ['/'] ∧ t = c ++ '/' :: t'))

theorem slashed_toSlashPath : ∀ (p : Path), (∀ c ∈ p, c ≠ [] ∧ c ≠ ['\\']) → Slashed p (toSlashPath p)
  | [], _ => rfl
  | [c], h => by
    have hc := h c (by simp)
    unfold Slashed toSlashPath
    by_cases h1 : c = ['/']
    · left; subst h1; exact ⟨rfl, rfl⟩
    · right
      refine ⟨h1, ?_⟩
      simp [hc.1, joinWith, h1, hc.2]
  | c :: d :: rest, h => by
    have hc := h c (by simp)
    have ih := slashed_toSlashPath (d :: rest) fun x hx => h x (by simp [hx])
    have hd := h d (by simp)
    refine ⟨_, ih, ?_⟩
    by_cases h1 : c = ['/']
    · left
      refine ⟨h1, ?_⟩
      subst h1
      simp [toSlashPath, hd.1, joinWith]
    · right
      refine ⟨h1, ?_⟩
      simp [toSlashPath, hc.1, hd.1, joinWith, h1, hc.2]

/-- **C50** for the values that `--error` and `error_values` give: if anything is searched, each of them could be read as an
expression, and these are the expressions that are used, in their order; none is ignored. -/
theorem C50_error_values (w : World) (a : MainArgs) (ms : List Mutant) (fs : List SourceFile) (h : Discovers w a ms fs) :
    ∃ o pkgs exprs, Options.new w.regex a.options w.config = some o ∧ o.errorValues.map w.parseExpr = exprs.map some ∧
      WalksTree { root := w.root, read := w.read, isFile := w.isFile, parse := w.parseFile, errorExprs := exprs, options := o }
        pkgs ms fs := by
  obtain ⟨o, pkgs, exprs, h1, h2, h3, h4⟩ := h
  refine ⟨o, pkgs, exprs, h1, ?_, h4⟩
  clear h4
  generalize o.errorValues = es at h3
  induction es generalizing exprs with
  | nil => cases h3; rfl
  | cons e es ih =>
    obtain ⟨t, ht, h3⟩ := Option.bind_eq_some_iff.1 h3
    obtain ⟨ts, hts, h3⟩ := Option.bind_eq_some_iff.1 h3
    cases h3
    rw [List.map_cons, ht, ih _ hts]; rfl

/-- What `--list-files` does. -/
theorem listFiles_iff (w : World) (a : MainArgs) (act : Action) :
    Runs w { a with listFiles := true } act ↔ ∃ ms fs, Discovers w a ms fs ∧
      act = .listFiles fs (fs.flatMap fun f => toSlashPath f.path ++ ['\n']) := by
  constructor
  · rintro ⟨ms, fs, hd, h⟩
    unfold afterDiscovery at h
    obtain ⟨left, _, h⟩ := Option.bind_eq_some_iff.1 h
    rw [if_pos rfl] at h
    cases h
    exact ⟨ms, fs, hd, rfl⟩
  · rintro ⟨ms, fs, hd, rfl⟩
    refine ⟨ms, fs, hd, ?_⟩
    have hd' := hd
    obtain ⟨o, pkgs, exprs, _, _, _, hw⟩ := hd'
    have : ∃ left, iterateFilter w a.iterate ms = some left := by
      unfold iterateFilter
      split
      · exact ⟨_, iterate_some fun m hm => walksTree_named hw m hm true⟩
      · exact ⟨_, rfl⟩
    obtain ⟨left, hl⟩ := this
    unfold afterDiscovery
    simp only [hl]
    rfl

/-- **C102**: `--list-files` lists exactly the files that are reached from the top files of the selected packages, lie inside
the tree and are not excluded by the globs, one on each line. -/
theorem C102_listed (w : World) (a : MainArgs) (act : Action) (h : Runs w { a with listFiles := true } act) :
    ∃ (fs : List SourceFile) (lines : List Text) (o : Options) (pkgs : List Package) (exprs : List Tokens), act = .listFiles fs (lines.flatMap (· ++ ['\n'])) ∧ lines.length = fs.length ∧
      (∀ (i : Nat) f l, fs[i]? = some f → lines[i]? = some l → (∀ c ∈ f.path, c ≠ [] ∧ c ≠ ['\\']) → Slashed f.path l) ∧
      Options.new w.regex a.options w.config = some o ∧
      selectedPackages (Workspace.open w.metadata) a.mutatePackages a.workspace w.located = some pkgs ∧
      parsedErrorExprs w.parseExpr o.errorValues = some exprs ∧
      ∀ sf, sf ∈ fs ↔ ∃ pkg ∈ pkgs, ∃ x, Reach (w.walkEnv o exprs) pkg x ∧
        loadSource w.read w.root x.1 pkg x.2 = some (some sf) ∧ o.allowsSourceFilePath sf.path = true := by
  obtain ⟨ms, fs, ⟨o, pkgs, exprs, h1, h2, h3, h4⟩, rfl⟩ := (listFiles_iff w a act).1 h
  refine ⟨fs, fs.map fun f => toSlashPath f.path, o, pkgs, exprs, by rw [List.flatMap_map], by simp, ?_, h1, h2, h3,
    (C45_tree _ _ _ _ h4).1⟩
  intro i f l hf hl hok
  rw [List.getElem?_map, hf] at hl
  cases hl
  exact slashed_toSlashPath _ hok

theorem selects_sublist {w : World} {a : MainArgs} {ms : List Mutant} (h : Selects w a ms) :
    ∃ found fs, Discovers w a found fs ∧ ms.Sublist found := by
  obtain ⟨found, fs, left, changed, hd, h1, h2, h3⟩ := h
  refine ⟨found, fs, hd, ?_⟩
  have hleft : left.Sublist found := by
    unfold iterateFilter at h1
    split at h1
    · rw [iterate_eq h1]; exact List.filter_sublist
    · cases h1; exact List.Sublist.refl _
  have hch : changed.Sublist left := by
    unfold inDiffFilter at h2
    split at h2
    · cases h2; exact List.Sublist.refl _
    · obtain ⟨t, _, h2⟩ := Option.bind_eq_some_iff.1 h2
      rw [diff_eq h2]; exact List.filter_sublist
  have hms : ms.Sublist changed := by
    unfold shardFilter at h3
    split at h3
    · cases h3; exact List.Sublist.refl _
    · exact C07_shard_order _ _ _ h3
  exact (hms.trans hch).trans hleft

/-- **C102**: with the same arguments, every mutant that is listed or tested is in a listed file, and the mutants come in the
order of the files. -/
theorem C102_mutants_in_files (w : World) (a : MainArgs) (fs : List SourceFile) (text : Text) (out : FsState) (ms : List Mutant)
    (hl : Runs w { a with listFiles := true } (.listFiles fs text))
    (ht : Runs w { a with list := false, listFiles := false } (.test out ms)) :
    (∀ m ∈ ms, m.sourceFile ∈ fs) ∧
    ∃ inFile : SourceFile → List Mutant, (∀ f, ∀ m ∈ inFile f, m.sourceFile = f) ∧ ms.Sublist (fs.flatMap inFile) := by
  obtain ⟨found, fs', hd, e⟩ := (listFiles_iff w a _).1 hl
  cases e
  obtain ⟨ms', hs, out', ho, e⟩ := (runs_iff _ _ rfl _).1 ht
  cases e
  obtain ⟨found', fs'', hd', hsub⟩ := selects_sublist hs
  obtain ⟨e1, e2⟩ := discovers_unique hd hd'
  subst e1; subst e2
  obtain ⟨o, pkgs, exprs, _, _, _, hw⟩ := hd
  have hm := (C45_tree _ _ _ _ hw).2.2
  have key : ms.Sublist (fs.flatMap (fileMutants (w.walkEnv o exprs))) := hm ▸ hsub
  refine ⟨fun m hm => ?_, fileMutants (w.walkEnv o exprs), fun f m hm => fileMutants_source hm, key⟩
  obtain ⟨f, hf, hmf⟩ := List.mem_flatMap.1 (key.subset hm)
  rw [fileMutants_source hmf]
  exact hf

theorem walksPackage_unfilter {env : WalkEnv} {pkg : Package} {ms : List Mutant} {fs : List SourceFile}
    (h : WalksPackage env pkg ms fs) : ∃ ms0 fs0, WalksPackage (unfilteredEnv env) pkg ms0 fs0 ∧
      fs = fs0.filter fun f => env.options.allowsSourceFilePath f.path := by
  obtain ⟨n, s, h1, h2, rfl, rfl⟩ := h
  have e : filterState env.options (walkStart pkg) = walkStart pkg := rfl
  rw [← e, walkSteps_unfiltered] at h1
  obtain ⟨s0, h0, rfl⟩ := Option.map_eq_some_iff.1 h1
  exact ⟨_, _, ⟨n, s0, h0, h2, rfl, rfl⟩, rfl⟩

theorem walksTree_unfilter {env : WalkEnv} {pkgs : List Package} {ms : List Mutant} {fs : List SourceFile}
    (h : WalksTree env pkgs ms fs) : ∃ ms0 fs0, WalksTree (unfilteredEnv env) pkgs ms0 fs0 ∧
      fs = fs0.filter fun f => env.options.allowsSourceFilePath f.path := by
  induction h with
  | nil => exact ⟨[], [], .nil, rfl⟩
  | cons h1 _ ih =>
    obtain ⟨m1, f1, w1, rfl⟩ := walksPackage_unfilter h1
    obtain ⟨m2, f2, w2, rfl⟩ := ih
    exact ⟨_, _, .cons w1 w2, by rw [List.filter_append]⟩

/-- **C102**: the list does not depend on the filters for mutants: it is the same without `--re`, `--exclude-re`, `--iterate`,
`--in-diff` and `--shard`. -/
theorem C102_only_file_filters (w : World) (a : MainArgs) (act : Action) (h : Runs w { a with listFiles := true } act) :
    Runs { w with config := { w.config with examineRe := [], excludeRe := [] } }
      { a with options := { a.options with examineRe := [], excludeRe := [] }, iterate := false, inDiff := none, shard := none,
               listFiles := true } act := by
  obtain ⟨ms, fs, ⟨o, pkgs, exprs, h1, h2, h3, h4⟩, rfl⟩ := (listFiles_iff w a act).1 h
  obtain ⟨_, hn, _⟩ := new_eq h1
  obtain ⟨ms0, fs0, hw0, rfl⟩ := walksTree_unfilter h4
  exact (listFiles_iff { w with config := { w.config with examineRe := [], excludeRe := [] } }
    { a with options := { a.options with examineRe := [], excludeRe := [] }, iterate := false, inDiff := none, shard := none } _).2
    ⟨_, _, ⟨_, pkgs, exprs, hn, h2, h3,
      walksTree_filter (env := w.walkEnv { o with examineNames := [], excludeNames := [] } exprs) hw0⟩, rfl⟩

/-- **C102**: files can be listed exactly if the tree can be searched: a diff or output directory that cannot be used does not
matter. -/
theorem C102_either (w : World) (a : MainArgs) :
    (∃ act, Runs w { a with listFiles := true } act) ↔ ∃ ms fs, Discovers w a ms fs :=
  ⟨fun ⟨act, h⟩ => let ⟨ms, fs, hd, _⟩ := (listFiles_iff w a act).1 h; ⟨ms, fs, hd⟩,
   fun ⟨ms, fs, hd⟩ => ⟨_, (listFiles_iff w a _).2 ⟨ms, fs, hd, rfl⟩⟩⟩

/-! ### Example -/

/-- What is found, with at most so many steps of each walk. -/
def tryDiscover (w : World) (a : MainArgs) (fuel : Nat) : Option (List Mutant × List SourceFile) := do
  let o ← Options.new w.regex a.options w.config
  let pkgs ← selectedPackages (Workspace.open w.metadata) a.mutatePackages a.workspace w.located
  let exprs ← parsedErrorExprs w.parseExpr o.errorValues
  tryWalk (w.walkEnv o exprs) fuel pkgs

theorem discovers_of_try {w : World} {a : MainArgs} {fuel : Nat} {r : List Mutant × List SourceFile} (h : tryDiscover w a fuel = some r) :
    Discovers w a r.1 r.2 := by
  unfold tryDiscover at h
  obtain ⟨o, h1, h⟩ := Option.bind_eq_some_iff.1 h
  obtain ⟨pkgs, h2, h⟩ := Option.bind_eq_some_iff.1 h
  obtain ⟨exprs, h3, h⟩ := Option.bind_eq_some_iff.1 h
  exact ⟨o, pkgs, exprs, h1, h2, h3, walksTree_of_try h⟩

theorem sampleFiles : (tryDiscover sampleWorld { sampleRun with options := {} } 3).map
    (fun r => r.2.flatMap fun f => toSlashPath f.path ++ ['\n']) =
    some "util/src/lib.rs\nutil/src/a.rs\n".toList := by decide +kernel

theorem sampleFiles_fewer : (tryDiscover sampleWorld sampleRun 3).map
    (fun r => r.2.flatMap fun f => toSlashPath f.path ++ ['\n']) = some "util/src/lib.rs\n".toList := by decide +kernel

/-- Two files, of which one is excluded with `--exclude a.rs`. -/
example : (∃ fs, Runs sampleWorld { sampleRun with options := {}, listFiles := true }
      (.listFiles fs "util/src/lib.rs\nutil/src/a.rs\n".toList)) ∧
    ∃ fs, Runs sampleWorld { sampleRun with listFiles := true } (.listFiles fs "util/src/lib.rs\n".toList) := by
  obtain ⟨r, h, e⟩ := Option.map_eq_some_iff.1 sampleFiles
  obtain ⟨r', h', e'⟩ := Option.map_eq_some_iff.1 sampleFiles_fewer
  exact ⟨⟨r.2, (listFiles_iff sampleWorld { sampleRun with options := {} } _).2 ⟨r.1, r.2, discovers_of_try h, by rw [e]⟩⟩,
    ⟨r'.2, (listFiles_iff sampleWorld sampleRun _).2 ⟨r'.1, r'.2, discovers_of_try h', by rw [e']⟩⟩⟩

end CM.Props
