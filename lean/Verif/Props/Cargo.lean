import Verif.Model.Cargo
import Verif.Props.Workspace
import Verif.Props.Outcome
/-! Cargo commands: C35, C42, C43, C64. -/
namespace CM.Props
open CM CM.Spec

/-! ### C35 -/

/-- The part of the arguments that is not about packages. -/
def otherArgs (phase : Phase) (o : Options) : List Text :=
  subcommand phase o.testTool ++ profileArgs o ++ ["--verbose".toList] ++ featureArgs o.features

theorem noPrefix (a b : Char) (u v s : Text) (h : a ≠ b) : ¬ (u ++ a :: v) <+: (u ++ b :: s) := by
  intro hp
  rw [List.prefix_append_right_inj] at hp
  rw [List.cons_prefix_cons] at hp
  exact h hp.1

theorem noSel_of (x : Text) (h1 : x ≠ workspaceFlag) (h2 : packageFlag.isPrefixOf x = false) :
    x ≠ workspaceFlag ∧ ¬ packageFlag <+: x := by
  refine ⟨h1, ?_⟩
  rw [← List.isPrefixOf_iff_prefix, h2]
  simp

theorem mem_profileArgs (o : Options) (arg : Text) :
    arg ∈ profileArgs o ↔ ∃ p, o.profile = some p ∧ arg =
      (if o.testTool = .cargo then "--profile=".toList else "--cargo-profile=".toList) ++ p := by
  unfold profileArgs
  cases o.profile with
  | none => simp only [List.not_mem_nil, reduceCtorEq, false_and, exists_false]
  | some q =>
    cases o.testTool
    · rw [if_pos rfl]
      simp only [List.mem_singleton, Option.some.injEq, exists_eq_left']
    · rw [if_neg (by decide)]
      simp only [List.mem_singleton, Option.some.injEq, exists_eq_left']

theorem mem_packageArgs (sel : PackageSelection) (arg : Text) :
    arg ∈ packageArgs sel ↔ (sel = .all ∧ arg = "--workspace".toList) ∨
      (∃ ps, sel = .explicit ps ∧ ∃ p ∈ ps, arg = "--package=".toList ++ (p.name ++ "@".toList ++ p.version)) := by
  unfold packageArgs
  cases sel with
  | all => simp only [List.mem_singleton, true_and, reduceCtorEq, false_and, exists_false, or_false]
  | explicit ps =>
    simp only [List.mem_map, reduceCtorEq, false_and, false_or, PackageSelection.explicit.injEq, exists_eq_left',
      Package.versionQualifiedName]
    constructor
    · rintro ⟨q, h1, h2⟩; exact ⟨q, h1, h2.symm⟩
    · rintro ⟨q, h1, h2⟩; exact ⟨q, h1, h2.symm⟩

theorem mem_featureArgs (f : Features) (arg : Text) :
    arg ∈ featureArgs f ↔ (f.noDefaultFeatures = true ∧ arg = "--no-default-features".toList) ∨
      (f.allFeatures = true ∧ arg = "--all-features".toList) ∨
      (∃ x ∈ f.features, arg = "--features=".toList ++ x) := by
  unfold featureArgs
  rw [List.mem_append, List.mem_append, List.mem_ite_nil_right, List.mem_ite_nil_right, List.mem_singleton,
    List.mem_singleton, List.mem_map, or_assoc]
  refine or_congr_right (or_congr_right ?_)
  constructor
  · rintro ⟨q, h1, h2⟩; exact ⟨q, h1, h2.symm⟩
  · rintro ⟨q, h1, h2⟩; exact ⟨q, h1, h2.symm⟩

theorem otherArgs_noSelectors (phase : Phase) (o : Options) : NoSelectors (otherArgs phase o) := by
  intro a ha
  unfold otherArgs at ha
  rw [List.mem_append, List.mem_append, List.mem_append, mem_profileArgs, mem_featureArgs, List.mem_singleton] at ha
  rcases ha with ((ha | ⟨p, _, ha⟩) | ha) | ⟨_, ha⟩ | ⟨_, ha⟩ | ⟨f, _, ha⟩
  · apply noSel_of
    · rintro rfl
      revert ha
      cases phase <;> cases o.testTool <;> decide
    · revert ha
      cases phase <;> cases o.testTool <;> simp only [subcommand, List.mem_cons, List.not_mem_nil, or_false] <;>
        (intro ha; rcases ha with rfl | rfl | rfl) <;> decide
  · split at ha <;> subst ha <;> apply noSel_of
    · exact fun h => Bool.noConfusion (show true = false from congrArg (List.isPrefixOf "--p".toList) h)
    · rfl
    · exact fun h => Bool.noConfusion (show true = false from congrArg (List.isPrefixOf "--c".toList) h)
    · rfl
  · subst ha; exact noSel_of _ (by decide) (by decide)
  · subst ha; exact noSel_of _ (by decide) (by decide)
  · subst ha; exact noSel_of _ (by decide) (by decide)
  · subst ha
    apply noSel_of
    · exact fun h => Bool.noConfusion (show true = false from congrArg (List.isPrefixOf "--f".toList) h)
    · rfl

theorem mem_argv_tail (bin : Text) (sel : PackageSelection) (phase : Phase) (o : Options) (a : Text) :
    a ∈ (cargoArgv bin sel phase o).tail ↔
      a ∈ subcommand phase o.testTool ∨ a ∈ profileArgs o ∨ a = "--verbose".toList ∨ a ∈ packageArgs sel ∨
      a ∈ featureArgs o.features ∨ a ∈ o.additionalCargoArgs ∨ (phase = .test ∧ a ∈ o.additionalCargoTestArgs) := by
  have e : (cargoArgv bin sel phase o).tail =
      subcommand phase o.testTool ++ (profileArgs o ++ (["--verbose".toList] ++ (packageArgs sel ++
      (featureArgs o.features ++ (o.additionalCargoArgs ++
      (if phase = .test then o.additionalCargoTestArgs else [])))))) := by
    unfold cargoArgv
    simp only [List.append_assoc]
    rfl
  rw [e, List.mem_append, List.mem_append, List.mem_append, List.mem_append, List.mem_append, List.mem_append,
    List.mem_ite_nil_right, List.mem_singleton]

theorem splitAt_unique {a b a' b' : Text} (h : a ++ (['@'] ++ b) = a' ++ ("@".toList ++ b'))
    (ha : '@' ∉ a) (ha' : '@' ∉ a') : a = a' ∧ b = b' := by
  induction a generalizing a' with
  | nil =>
    cases a' with
    | nil => simpa using h
    | cons c a' =>
      simp only [List.nil_append, List.cons_append, List.cons.injEq] at h
      exact absurd (h.1 ▸ List.mem_cons_self) ha'
  | cons c a ih =>
    cases a' with
    | nil =>
      have h' : c :: (a ++ (['@'] ++ b)) = '@' :: b' := h
      simp only [List.cons.injEq] at h'
      exact absurd (h'.1 ▸ List.mem_cons_self) ha
    | cons c' a' =>
      simp only [List.cons_append, List.cons.injEq] at h
      obtain ⟨h1, h2⟩ := h
      simp only [List.mem_cons, not_or] at ha ha'
      obtain ⟨e1, e2⟩ := ih h2 ha.2 ha'.2
      exact ⟨by rw [h1, e1], e2⟩

/-- What a selection means for cargo. -/
def SelTests (members : List Package) (chosen : Package → Prop) (sel : PackageSelection) (p : Package) : Prop :=
  match sel with
  | .all => p ∈ members
  | .explicit [] => chosen p
  | .explicit (q0 :: qs) => p ∈ members ∧ ∃ q ∈ q0 :: qs, q.name = p.name ∧ q.version = p.version

/-- What the arguments select, when the extra arguments select nothing. -/
theorem tests_argv (members : List Package) (chosen : Package → Prop) (bin : Text) (sel : PackageSelection)
    (phase : Phase) (o : Options) (h1 : NoSelectors o.additionalCargoArgs)
    (h2 : NoSelectors o.additionalCargoTestArgs) (hat : ∀ p ∈ members, '@' ∉ p.name)
    (hsel : ∀ ps, sel = .explicit ps → ∀ p ∈ ps, '@' ∉ p.name) (p : Package) :
    Tests members chosen (cargoArgv bin sel phase o).tail p ↔ SelTests members chosen sel p := by
  have hmem : ∀ a, a ∈ (cargoArgv bin sel phase o).tail ↔
      a ∈ otherArgs phase o ∨ a ∈ packageArgs sel ∨
      a ∈ o.additionalCargoArgs ∨ (phase = .test ∧ a ∈ o.additionalCargoTestArgs) := by
    intro a
    rw [mem_argv_tail]
    unfold otherArgs
    rw [List.mem_append, List.mem_append, List.mem_append, List.mem_singleton]
    have pl : ∀ A B C D E F G : Prop, (A ∨ B ∨ C ∨ D ∨ E ∨ F ∨ G) ↔
        (((A ∨ B) ∨ C) ∨ E) ∨ D ∨ F ∨ G := by intros; grind
    exact pl _ _ _ _ _ _ _
  have hother : ∀ a, (a ∈ otherArgs phase o ∨ a ∈ o.additionalCargoArgs ∨
      (phase = .test ∧ a ∈ o.additionalCargoTestArgs)) → a ≠ workspaceFlag ∧ ¬ packageFlag <+: a := by
    rintro a (h | h | ⟨_, h⟩)
    · exact otherArgs_noSelectors phase o a h
    · exact h1 a h
    · exact h2 a h
  cases sel with
  | all =>
    have : workspaceFlag ∈ (cargoArgv bin .all phase o).tail := (hmem _).2 (.inr (.inl (List.Mem.head _)))
    unfold Tests
    rw [if_pos this]
    rfl
  | explicit ps =>
    have hw : workspaceFlag ∉ (cargoArgv bin (.explicit ps) phase o).tail := by
      intro hin
      rcases (hmem _).1 hin with h | h | h | h
      · exact (hother _ (.inl h)).1 rfl
      · unfold packageArgs at h
        simp only [List.mem_map] at h
        obtain ⟨q, _, hq⟩ := h
        exact Bool.noConfusion (show true = false from congrArg (List.isPrefixOf "--p".toList) hq)
      · exact (hother _ (.inr (.inl h))).1 rfl
      · exact (hother _ (.inr (.inr h))).1 rfl
    have hp : ∀ a ∈ (cargoArgv bin (.explicit ps) phase o).tail, packageFlag <+: a →
        ∃ q ∈ ps, a = packageFlag ++ q.versionQualifiedName := by
      intro a ha hpre
      rcases (hmem _).1 ha with h | h | h | h
      · exact absurd hpre (hother _ (.inl h)).2
      · unfold packageArgs at h
        simp only [List.mem_map] at h
        obtain ⟨q, hq, he⟩ := h
        exact ⟨q, hq, he.symm⟩
      · exact absurd hpre (hother _ (.inr (.inl h))).2
      · exact absurd hpre (hother _ (.inr (.inr h))).2
    have hin : ∀ q ∈ ps, packageFlag ++ q.versionQualifiedName ∈ (cargoArgv bin (.explicit ps) phase o).tail := by
      intro q hq
      exact (hmem _).2 (.inr (.inl (List.mem_map.2 ⟨q, hq, rfl⟩)))
    unfold Tests
    rw [if_neg hw]
    cases ps with
    | nil =>
      rw [if_neg]
      · rfl
      · rintro ⟨a, ha, hpre⟩
        obtain ⟨q, hq, _⟩ := hp a ha hpre
        cases hq
    | cons q0 qs =>
      rw [if_pos ⟨_, hin q0 (List.Mem.head _), List.prefix_append _ _⟩]
      show (p ∈ members ∧ _) ↔ (p ∈ members ∧ _)
      refine and_congr_right fun hpm => ?_
      constructor
      · intro h
        obtain ⟨q, hq, he⟩ := hp _ h (List.prefix_append _ _)
        refine ⟨q, hq, ?_⟩
        have he := List.append_cancel_left he
        unfold Package.versionQualifiedName at he
        simp only [List.append_assoc] at he
        obtain ⟨e1, e2⟩ := splitAt_unique he (hat p hpm) (hsel _ rfl q hq)
        exact ⟨e1.symm, e2.symm⟩
      · rintro ⟨q, hq, e1, e2⟩
        have := hin q hq
        unfold Package.versionQualifiedName at this
        rw [e1, e2] at this
        exact this

/-- The tests that are run for a mutant. -/
def MutantTests (w : Workspace) (chosen : Package → Prop) (bin : Text) (o : Options) (phase : Phase)
    (m : Mutant) : Package → Prop :=
  Tests w.packages chosen (cargoArgv bin (testPackagesFor (TestsForMutant.new o w) m) phase o).tail

/-- The tests that are run for the baseline. -/
def BaselineTests (w : Workspace) (chosen : Package → Prop) (bin : Text) (o : Options) (phase : Phase)
    (ms : List Mutant) : Package → Prop :=
  Tests w.packages chosen (cargoArgv bin (baselinePackages ms) phase o).tail

/-- The extra arguments do not choose packages themselves. -/
def PlainExtras (o : Options) : Prop := NoSelectors o.additionalCargoArgs ∧ NoSelectors o.additionalCargoTestArgs

/-- C35: by default a mutant is tested with the tests of its own package and no others. -/
theorem C35_default (w : Workspace) (hn : NamesOk w.packages) (chosen bin) (o : Options) (hx : PlainExtras o)
    (ho : o.testPackage = .mutated) (phase : Phase) (m : Mutant) (hm : m.sourceFile.package ∈ w.packages) (p : Package) :
    MutantTests w chosen bin o phase m p ↔ p = m.sourceFile.package := by
  unfold MutantTests
  have e : testPackagesFor (TestsForMutant.new o w) m = .explicit [m.sourceFile.package] := by
    unfold TestsForMutant.new; rw [ho]; rfl
  rw [e, tests_argv _ _ _ _ _ _ hx.1 hx.2 hn.2 (by
    intro ps h q hq
    cases h
    rw [List.mem_singleton] at hq
    exact hn.2 q (hq ▸ hm))]
  show (p ∈ w.packages ∧ _) ↔ _
  simp only [List.mem_singleton, exists_eq_left]
  constructor
  · rintro ⟨h1, h2, _⟩
    exact hn.1 p h1 _ hm h2.symm
  · rintro rfl
    exact ⟨hm, rfl, rfl⟩

/-- C35: with `--test-workspace=true` it is tested with the tests of all packages of the workspace. -/
theorem C35_workspace (w : Workspace) (hn : NamesOk w.packages) (chosen bin) (o : Options) (hx : PlainExtras o)
    (ho : o.testPackage = .workspace) (phase : Phase) (m : Mutant) (p : Package) :
    MutantTests w chosen bin o phase m p ↔ p ∈ w.packages := by
  unfold MutantTests
  have e : testPackagesFor (TestsForMutant.new o w) m = .all := by
    unfold TestsForMutant.new; rw [ho]; rfl
  rw [e, tests_argv _ _ _ _ _ _ hx.1 hx.2 hn.2 (by intro ps h; cases h)]
  rfl

/-- C35 for `--test-package`, in full: exactly the named packages. -/
def C35_named_full : Prop :=
  ∀ (w : Workspace), NamesOk w.packages → ∀ chosen bin (o : Options), PlainExtras o →
    ∀ names, o.testPackage = .named names → ∀ phase m p,
      MutantTests w chosen bin o phase m p ↔ p ∈ w.packages ∧ p.name ∈ names

/-- A package and options for examples. -/
def pkgA : Package := ⟨"a".toList, "1.0.0".toList, ["a".toList], []⟩
def pkgB : Package := ⟨"b".toList, "2.0.0".toList, ["b".toList], []⟩
def wsAB : Workspace := ⟨⟨[], [], none⟩, [pkgA, pkgB]⟩

theorem wsAB_names : NamesOk wsAB.packages := by
  have : wsAB.packages = [pkgA, pkgB] := rfl
  rw [this]
  constructor
  · intro p hp q hq h
    simp only [List.mem_cons, List.not_mem_nil, or_false] at hp hq
    rcases hp with rfl | rfl <;> rcases hq with rfl | rfl <;>
      first | rfl | (revert h; decide)
  · intro p hp
    simp only [List.mem_cons, List.not_mem_nil, or_false] at hp
    rcases hp with rfl | rfl <;> decide

/-- The full claim is false: when no package has such a name, no `--package` argument is passed, and cargo
tests whatever it chooses. -/
theorem C35_named_false : ¬ C35_named_full := by
  intro h
  have := h wsAB wsAB_names (fun p => p = pkgA) "cargo".toList { testPackage := .named ["typo".toList] }
    ⟨(by intro a ha; cases ha), (by intro a ha; cases ha)⟩ ["typo".toList] rfl .test sampleMutant pkgA
  unfold MutantTests at this
  have e : testPackagesFor (TestsForMutant.new { testPackage := .named ["typo".toList] } wsAB) sampleMutant = .explicit [] := by
    decide
  rw [e, tests_argv _ _ _ _ _ _ (by intro a ha; cases ha) (by intro a ha; cases ha) wsAB_names.2
    (by intro ps h q hq; cases h; cases hq)] at this
  have h2 := (this.1 rfl).2
  revert h2
  decide

/-- C35: with `--test-package` (at least one name being that of a package) the tests of exactly the named
packages are run. -/
theorem C35_named_partial (w : Workspace) (hn : NamesOk w.packages) (chosen bin) (o : Options) (hx : PlainExtras o)
    (names : List Text) (ho : o.testPackage = .named names) (hex : ∃ p ∈ w.packages, p.name ∈ names)
    (phase : Phase) (m : Mutant) (p : Package) :
    MutantTests w chosen bin o phase m p ↔ p ∈ w.packages ∧ p.name ∈ names := by
  unfold MutantTests
  have e : testPackagesFor (TestsForMutant.new o w) m = .explicit (w.packagesByName names) := by
    unfold TestsForMutant.new; rw [ho]; rfl
  have hmem := mem_packagesByName w hn names
  rw [e, tests_argv _ _ _ _ _ _ hx.1 hx.2 hn.2 (by
    intro ps h q hq
    cases h
    exact hn.2 q ((hmem q).1 hq).1)]
  cases hl : w.packagesByName names with
  | nil =>
    obtain ⟨q, h1, h2⟩ := hex
    have := (hmem q).2 ⟨h1, h2⟩
    rw [hl] at this
    cases this
  | cons x xs =>
    rw [hl] at hmem
    show (p ∈ w.packages ∧ _) ↔ _
    refine and_congr_right fun hp => ?_
    constructor
    · rintro ⟨q, hq, h1, _⟩
      rw [← h1]
      exact ((hmem q).1 hq).2
    · intro h
      exact ⟨p, (hmem p).2 ⟨hp, h⟩, rfl, rfl⟩

/-- C35: with `--test-package` and no name that is that of a package, cargo chooses. -/
theorem C35_named_none (w : Workspace) (hn : NamesOk w.packages) (chosen bin) (o : Options) (hx : PlainExtras o)
    (names : List Text) (ho : o.testPackage = .named names) (hex : ∀ p ∈ w.packages, p.name ∉ names)
    (phase : Phase) (m : Mutant) (p : Package) : MutantTests w chosen bin o phase m p ↔ chosen p := by
  unfold MutantTests
  have e : testPackagesFor (TestsForMutant.new o w) m = .explicit (w.packagesByName names) := by
    unfold TestsForMutant.new; rw [ho]; rfl
  have hmem := mem_packagesByName w hn names
  have hl : w.packagesByName names = [] := by
    cases hl : w.packagesByName names with
    | nil => rfl
    | cons x xs =>
      rw [hl] at hmem
      obtain ⟨h1, h2⟩ := (hmem x).1 (List.mem_cons_self ..)
      exact absurd h2 (hex x h1)
  rw [e, hl, tests_argv _ _ _ _ _ _ hx.1 hx.2 hn.2 (by
    intro ps h q hq
    cases h
    cases hq)]
  rfl

/-- C35 for the baseline, in full, as the book has it: the tests of the baseline are those that are run for
some mutant. -/
def C35_baseline_full : Prop :=
  ∀ (w : Workspace), NamesOk w.packages → ∀ chosen bin (o : Options), PlainExtras o → ∀ phase ms,
    ms ≠ [] → (∀ m ∈ ms, m.sourceFile.package ∈ w.packages) → ∀ p,
      BaselineTests w chosen bin o phase ms p ↔ ∃ m ∈ ms, MutantTests w chosen bin o phase m p

/-- A mutant of package `a`. -/
def mutantOfA : Mutant := { sampleMutant with sourceFile := { sampleMutant.sourceFile with package := pkgA } }

/-- The full claim is false: with `--test-workspace=true` the baseline still runs only the tests of the
mutated packages (`src/lab.rs:176-188`), so tests of other packages that fail in the unmutated tree are
not noticed and then count as catching every mutant. -/
theorem C35_baseline_false : ¬ C35_baseline_full := by
  intro h
  have hx : PlainExtras { testPackage := .workspace } :=
    ⟨(by intro a ha; cases ha), (by intro a ha; cases ha)⟩
  have := (h wsAB wsAB_names (fun _ => False) "cargo".toList { testPackage := .workspace } hx .test [mutantOfA]
    (by simp) (by intro m hm; rw [List.mem_singleton] at hm; subst hm; exact List.Mem.head _) pkgB).2
    ⟨mutantOfA, List.Mem.head _, (C35_workspace wsAB wsAB_names _ _ _ hx rfl _ _ _).2 (List.Mem.tail _ (List.Mem.head _))⟩
  unfold BaselineTests at this
  have e : baselinePackages [mutantOfA] = .explicit [pkgA] := by decide
  rw [e, tests_argv _ _ _ _ _ _ (by intro a ha; cases ha) (by intro a ha; cases ha) wsAB_names.2
    (by intro ps h q hq; cases h; rw [List.mem_singleton] at hq; subst hq; decide)] at this
  obtain ⟨_, q, hq, h1, _⟩ := this
  rw [List.mem_singleton] at hq
  subst hq
  revert h1
  decide

/-- C35: whatever the options for test packages are, the baseline runs the tests of exactly the packages that are mutated. -/
theorem C35_baseline_always (w : Workspace) (hn : NamesOk w.packages) (chosen bin) (o : Options) (hx : PlainExtras o)
    (phase : Phase) (ms : List Mutant) (hne : ms ≠ []) (hms : ∀ m ∈ ms, m.sourceFile.package ∈ w.packages) (p : Package) :
    BaselineTests w chosen bin o phase ms p ↔ ∃ m ∈ ms, p = m.sourceFile.package := by
  unfold BaselineTests baselinePackages
  have hmem : ∀ q, q ∈ unique (sortBy (fun a b => textLe a.name b.name) (ms.map (·.sourceFile.package))) ↔
      ∃ m ∈ ms, q = m.sourceFile.package := by
    intro q
    rw [mem_unique, mem_sortBy, List.mem_map]
    constructor
    · rintro ⟨m, h1, h2⟩; exact ⟨m, h1, h2.symm⟩
    · rintro ⟨m, h1, h2⟩; exact ⟨m, h1, h2.symm⟩
  rw [tests_argv _ _ _ _ _ _ hx.1 hx.2 hn.2 (by
    intro ps h q hq
    cases h
    obtain ⟨m, h1, rfl⟩ := (hmem q).1 hq
    exact hn.2 _ (hms m h1))]
  cases hl : unique (sortBy (fun a b => textLe a.name b.name) (ms.map (·.sourceFile.package))) with
  | nil =>
    cases ms with
    | nil => exact absurd rfl hne
    | cons m ms =>
      have := (hmem m.sourceFile.package).2 ⟨m, List.Mem.head _, rfl⟩
      rw [hl] at this
      cases this
  | cons x xs =>
    rw [hl] at hmem
    show (p ∈ w.packages ∧ _) ↔ _
    constructor
    · rintro ⟨hp, q, hq, h1, _⟩
      obtain ⟨m, h2, rfl⟩ := (hmem q).1 hq
      exact ⟨m, h2, hn.1 p hp _ (hms m h2) h1.symm⟩
    · rintro ⟨m, h1, rfl⟩
      exact ⟨hms m h1, _, (hmem _).2 ⟨m, h1, rfl⟩, rfl, rfl⟩

/-- C35: by default the baseline runs the tests of exactly the packages that are mutated, so exactly those
that are then run for some mutant. -/
theorem C35_baseline_partial (w : Workspace) (hn : NamesOk w.packages) (chosen bin) (o : Options) (hx : PlainExtras o)
    (ho : o.testPackage = .mutated) (phase : Phase) (ms : List Mutant) (hne : ms ≠ [])
    (hms : ∀ m ∈ ms, m.sourceFile.package ∈ w.packages) (p : Package) :
    BaselineTests w chosen bin o phase ms p ↔ ∃ m ∈ ms, MutantTests w chosen bin o phase m p := by
  have hr : (∃ m ∈ ms, MutantTests w chosen bin o phase m p) ↔ ∃ m ∈ ms, p = m.sourceFile.package := by
    constructor
    · rintro ⟨m, h1, h2⟩
      exact ⟨m, h1, (C35_default w hn chosen bin o hx ho phase m (hms m h1) p).1 h2⟩
    · rintro ⟨m, h1, h2⟩
      exact ⟨m, h1, (C35_default w hn chosen bin o hx ho phase m (hms m h1) p).2 h2⟩
  rw [hr]
  exact C35_baseline_always w hn chosen bin o hx phase ms hne hms p

example : MutantTests wsAB (fun _ => False) "cargo".toList {} .test mutantOfA pkgA :=
  (C35_default wsAB wsAB_names _ _ _ ⟨(by intro a ha; cases ha), (by intro a ha; cases ha)⟩ rfl _ _ (List.Mem.head _) _).2 rfl

/-! ### C42 -/

/-- C42: the command of every phase begins with cargo and the subcommand of the phase. -/
theorem C42_subcommand (bin : Text) (sel : PackageSelection) (o : Options) (phase : Phase) :
    (match phase, o.testTool with
     | .check, _ => [bin, "check".toList, "--tests".toList]
     | .build, .cargo => [bin, "test".toList, "--no-run".toList]
     | .test, .cargo => [bin, "test".toList]
     | .build, .nextest => [bin, "nextest".toList, "run".toList, "--no-run".toList]
     | .test, .nextest => [bin, "nextest".toList, "run".toList]) <+: cargoArgv bin sel phase o := by
  unfold cargoArgv
  simp only [List.append_assoc]
  cases phase <;> cases o.testTool <;> exact List.prefix_append _ _

/-- What is between the subcommand and the extra arguments. -/
def argvMiddle (sel : PackageSelection) (o : Options) : List Text :=
  profileArgs o ++ ["--verbose".toList] ++ packageArgs sel ++ featureArgs o.features

theorem cargoArgv_eq (bin : Text) (sel : PackageSelection) (phase : Phase) (o : Options) :
    cargoArgv bin sel phase o = [bin] ++ subcommand phase o.testTool ++ argvMiddle sel o ++
      o.additionalCargoArgs ++ (if phase = .test then o.additionalCargoTestArgs else []) := by
  unfold cargoArgv argvMiddle
  simp only [List.append_assoc]

/-- C42: the command ends with the additional cargo arguments, followed in the test phase by the additional
test arguments, all unchanged; in other phases the additional test arguments have no effect. -/
theorem C42_extra_arguments (bin : Text) (sel : PackageSelection) (o : Options) :
    (∃ front, cargoArgv bin sel .test o = front ++ o.additionalCargoArgs ++ o.additionalCargoTestArgs) ∧
    (∃ front, cargoArgv bin sel .build o = front ++ o.additionalCargoArgs) ∧
    (∃ front, cargoArgv bin sel .check o = front ++ o.additionalCargoArgs) ∧
    (∀ phase, phase ≠ .test → ∀ other,
      cargoArgv bin sel phase { o with additionalCargoTestArgs := other } = cargoArgv bin sel phase o) := by
  refine ⟨⟨_, cargoArgv_eq _ _ _ _⟩, ?_, ?_, ?_⟩
  · rw [cargoArgv_eq, if_neg (show ¬ Phase.build = .test by decide), List.append_nil]
    exact ⟨_, rfl⟩
  · rw [cargoArgv_eq, if_neg (show ¬ Phase.check = .test by decide), List.append_nil]
    exact ⟨_, rfl⟩
  · intro phase hp other
    rw [cargoArgv_eq, cargoArgv_eq, if_neg hp, if_neg hp]
    rfl

/-- C42: the build command builds what the test command will run: they are the same except for `--no-run`
and the additional test arguments. -/
theorem C42_build_matches_test (bin : Text) (sel : PackageSelection) (o : Options) :
    ∃ front back, cargoArgv bin sel .build o = front ++ ["--no-run".toList] ++ back ∧
      cargoArgv bin sel .test o = front ++ back ++ o.additionalCargoTestArgs := by
  rw [cargoArgv_eq, cargoArgv_eq, if_neg (show ¬ Phase.build = .test by decide), if_pos rfl, List.append_nil]
  refine ⟨[bin] ++ subcommand .test o.testTool, argvMiddle sel o ++ o.additionalCargoArgs, ?_, ?_⟩
  · have : subcommand .build o.testTool = subcommand .test o.testTool ++ ["--no-run".toList] := by
      cases o.testTool <;> rfl
    rw [this]
    simp only [List.append_assoc]
  · simp only [List.append_assoc]

/-- C42: nothing is made up: whatever is neither the subcommand nor an extra argument is one of the listed
options. -/
theorem C42_options (bin : Text) (sel : PackageSelection) (o : Options) (phase : Phase) (arg : Text) :
    arg ∈ (cargoArgv bin sel phase o).tail ↔
      arg ∈ subcommand phase o.testTool ∨ arg = "--verbose".toList ∨
      (∃ p, o.profile = some p ∧ arg = (if o.testTool = .cargo then "--profile=".toList else "--cargo-profile=".toList) ++ p) ∨
      (sel = .all ∧ arg = "--workspace".toList) ∨
      (∃ ps, sel = .explicit ps ∧ ∃ p ∈ ps, arg = "--package=".toList ++ (p.name ++ "@".toList ++ p.version)) ∨
      (o.features.noDefaultFeatures = true ∧ arg = "--no-default-features".toList) ∨
      (o.features.allFeatures = true ∧ arg = "--all-features".toList) ∨
      (∃ f ∈ o.features.features, arg = "--features=".toList ++ f) ∨
      arg ∈ o.additionalCargoArgs ∨ (phase = .test ∧ arg ∈ o.additionalCargoTestArgs) := by
  rw [mem_argv_tail, mem_profileArgs, mem_packageArgs, mem_featureArgs]
  have pl : ∀ A B C D1 D2 E F G H I : Prop, (A ∨ B ∨ C ∨ (D1 ∨ D2) ∨ (E ∨ F ∨ G) ∨ H ∨ I) ↔
      (A ∨ C ∨ B ∨ D1 ∨ D2 ∨ E ∨ F ∨ G ∨ H ∨ I) := by intros; grind
  exact pl _ _ _ _ _ _ _ _ _ _

/-- C42 for the profile, in full: it is given with the option that the subcommand has for it, which is
`--cargo-profile` for `cargo nextest run` and `--profile` for all others. -/
def C42_profile_full : Prop :=
  ∀ (bin : Text) (sel : PackageSelection) (o : Options) (phase : Phase) (p : Text), o.profile = some p →
    (if (cargoArgv bin sel phase o)[1]? = some "nextest".toList then "--cargo-profile=".toList else "--profile=".toList) ++ p
      ∈ cargoArgv bin sel phase o

/-- The full claim is false: with `--check`, nextest and a profile, `cargo check --cargo-profile=…` is run,
which cargo refuses. -/
theorem C42_profile_false : ¬ C42_profile_full := by
  intro h
  have := h "cargo".toList .all { testTool := .nextest, profile := some "ci".toList } .check "ci".toList rfl
  revert this
  decide

/-- C42: the profile is given with the right option, except for `cargo check` with nextest. -/
theorem C42_profile_partial (bin : Text) (sel : PackageSelection) (o : Options) (phase : Phase) (p : Text)
    (h : o.profile = some p) (hp : phase ≠ .check ∨ o.testTool = .cargo) :
    (if (cargoArgv bin sel phase o)[1]? = some "nextest".toList then "--cargo-profile=".toList else "--profile=".toList) ++ p
      ∈ cargoArgv bin sel phase o := by
  have hin := (C42_options bin sel o phase
    ((if o.testTool = .cargo then "--profile=".toList else "--cargo-profile=".toList) ++ p)).2
    (.inr (.inr (.inl ⟨p, h, rfl⟩)))
  have e : (cargoArgv bin sel phase o)[1]? = some (if o.testTool = .cargo then
      (if phase = .check then "check".toList else "test".toList)
      else (if phase = .check then "check".toList else "nextest".toList)) := by
    unfold cargoArgv
    cases phase <;> cases o.testTool <;> rfl
  rw [e]
  have hin := List.mem_of_mem_tail hin
  cases phase <;> cases ht : o.testTool <;> simp only [ht] at hin hp ⊢ <;> first
    | exact hin
    | (exfalso; rcases hp with hp | hp <;> revert hp <;> decide)

/-- C42, order: cargo, subcommand, profile, `--verbose`, packages, features, additional cargo arguments, and
additional test arguments when testing. -/
theorem C42_order (bin : Text) (sel : PackageSelection) (o : Options) (phase : Phase) :
    ∃ profile packages,
      cargoArgv bin sel phase o =
        bin :: subcommand phase o.testTool ++ profile ++ ["--verbose".toList] ++ packages ++
          (if o.features.noDefaultFeatures = true then ["--no-default-features".toList] else []) ++
          (if o.features.allFeatures = true then ["--all-features".toList] else []) ++
          o.features.features.map ("--features=".toList ++ ·) ++ o.additionalCargoArgs ++
          (if phase = .test then o.additionalCargoTestArgs else []) ∧
      (o.profile = none → profile = []) ∧
      (∀ p, o.profile = some p →
        profile = [(if o.testTool = .cargo then "--profile=".toList else "--cargo-profile=".toList) ++ p]) ∧
      (sel = .all → packages = ["--workspace".toList]) ∧
      (∀ ps, sel = .explicit ps →
        packages = ps.map fun p => "--package=".toList ++ (p.name ++ "@".toList ++ p.version)) := by
  refine ⟨profileArgs o, packageArgs sel, ?_, ?_, ?_, ?_, ?_⟩
  · unfold cargoArgv featureArgs
    simp only [List.append_assoc]
    rfl
  · intro h; unfold profileArgs; rw [h]
  · intro p h
    unfold profileArgs
    rw [h]
    cases o.testTool <;> rfl
  · rintro rfl; rfl
  · rintro ps rfl; rfl

example : cargoArgv "cargo".toList (.explicit [pkgA]) .test { additionalCargoTestArgs := ["--".toList, "x".toList] } =
    ["cargo".toList, "test".toList, "--verbose".toList, "--package=a@1.0.0".toList, "--".toList, "x".toList] := by decide

/-! ### C43 -/

/-- Splitting on spaces and dropping the empty pieces gives the words. -/
theorem words_splitOn (t : Text) : Words t ((splitOn ' ' t).filter fun s => !s.isEmpty) := by
  -- by induction on the number of characters
  generalize hn : t.length = n
  induction n using Nat.strongRecOn generalizing t with
  | ind n ih =>
    by_cases hsp : ' ' ∈ t
    · obtain ⟨a, b, hab, ha⟩ : ∃ a b, t = a ++ ' ' :: b ∧ ' ' ∉ a := by
        clear ih hn
        induction t with
        | nil => cases hsp
        | cons c cs ihc =>
          by_cases hc : c = ' '
          · exact ⟨[], cs, by rw [hc]; rfl, by simp⟩
          · obtain ⟨a, b, h1, h2⟩ := ihc (by
              rcases List.mem_cons.1 hsp with h | h
              · exact absurd h.symm hc
              · exact h)
            refine ⟨c :: a, b, by rw [h1]; rfl, ?_⟩
            simp only [List.mem_cons, not_or]
            exact ⟨fun e => hc e.symm, h2⟩
      subst hab
      rw [splitOn_sep ' ' a b ha]
      have hb := ih b.length (by rw [← hn, List.length_append, List.length_cons]; omega) b rfl
      cases a with
      | nil => exact .space hb
      | cons c a =>
        simp only [List.filter_cons, List.isEmpty_cons, Bool.not_false, if_true]
        exact .word (by simp) ha hb
    · rw [splitOn_noSep ' ' t hsp]
      cases t with
      | nil => exact .nil
      | cons c t => exact .last (by simp) hsp

/-- C43: with lints capped, what cargo reads from `CARGO_ENCODED_RUSTFLAGS` is the user's flags in order,
followed by `--cap-lints=warn`. -/
theorem C43_rustflags (encoded rustflags : Option Text)
    (hr : ∀ r, rustflags = some r → Char.ofNat 31 ∉ r) :
    ∃ v flags, encodedRustflags true encoded rustflags = some v ∧
      decodeFlags v = flags ++ ["--cap-lints=warn".toList] ∧
      (match encoded, rustflags with
       | some e, _ => flags = decodeFlags e
       | none, some r => Words r flags
       | none, none => flags = []) := by
  have hcap : Char.ofNat 31 ∉ capLintsArg := by decide
  have hone : decodeFlags capLintsArg = [] ++ ["--cap-lints=warn".toList] := by
    unfold decodeFlags
    rw [if_neg (by decide), splitOn_noSep _ _ hcap]
    rfl
  cases encoded with
  | some e =>
    cases e with
    | nil => exact ⟨capLintsArg, [], rfl, hone, rfl⟩
    | cons c e =>
      refine ⟨(c :: e) ++ [unitSep] ++ capLintsArg, decodeFlags (c :: e), rfl, ?_, rfl⟩
      unfold decodeFlags
      rw [if_neg (by simp), if_neg (by simp)]
      rw [List.append_assoc, List.singleton_append]
      show splitOn unitSep _ = _
      rw [splitOn_append]
      congr 1
  | none =>
    cases rustflags with
    | none => exact ⟨capLintsArg, [], rfl, hone, rfl⟩
    | some r =>
      cases r with
      | nil => exact ⟨capLintsArg, [], rfl, hone, .nil⟩
      | cons c r =>
        refine ⟨joinWith [unitSep] ((splitOn ' ' (c :: r)).filter (fun s => !s.isEmpty) ++ [capLintsArg]),
          (splitOn ' ' (c :: r)).filter (fun s => !s.isEmpty), rfl, ?_, words_splitOn _⟩
        have hs : splitOn unitSep (joinWith [unitSep] ((splitOn ' ' (c :: r)).filter (fun s => !s.isEmpty) ++ [capLintsArg])) =
            (splitOn ' ' (c :: r)).filter (fun s => !s.isEmpty) ++ [capLintsArg] := by
          apply splitOn_joinWith
          · simp
          · intro t ht hmem
            rcases List.mem_append.1 ht with h | h
            · exact hr _ rfl (mem_of_mem_splitOn _ _ _ _ (List.mem_filter.1 h).1 hmem).1
            · rw [List.mem_singleton] at h
              subst h
              exact hcap hmem
        unfold decodeFlags
        rw [if_neg]
        · exact hs
        · intro hemp
          rw [List.isEmpty_iff] at hemp
          rw [hemp] at hs
          simp only [splitOn] at hs
          have := congrArg List.getLast? hs
          simp only [List.getLast?_singleton, List.getLast?_append, Option.some_or, Option.some.injEq] at this
          revert this
          decide

/-- C43: without it that variable is not touched; and in no case is any other variable changed, except for
the two that stop Insta from updating or passing over snapshots. -/
theorem C43_environment (capLints : Bool) (env : Env) :
    (capLints = false → cargoEnv capLints env "CARGO_ENCODED_RUSTFLAGS".toList = env "CARGO_ENCODED_RUSTFLAGS".toList) ∧
    (capLints = true → cargoEnv capLints env "CARGO_ENCODED_RUSTFLAGS".toList =
      encodedRustflags true (env "CARGO_ENCODED_RUSTFLAGS".toList) (env "RUSTFLAGS".toList)) ∧
    cargoEnv capLints env "INSTA_UPDATE".toList = some "no".toList ∧
    cargoEnv capLints env "INSTA_FORCE_PASS".toList = some "0".toList ∧
    ∀ v, v ∉ ["CARGO_ENCODED_RUSTFLAGS".toList, "INSTA_UPDATE".toList, "INSTA_FORCE_PASS".toList] →
      cargoEnv capLints env v = env v := by
  have hsome : ∀ e r, ∃ v, encodedRustflags true e r = some v := by
    intro e r
    unfold encodedRustflags
    rw [if_neg (by decide)]
    repeat' split
    all_goals exact ⟨_, rfl⟩
  refine ⟨?_, ?_, ?_, ?_, ?_⟩
  · rintro rfl; rfl
  · rintro rfl
    obtain ⟨v, hv⟩ := hsome (env "CARGO_ENCODED_RUSTFLAGS".toList) (env "RUSTFLAGS".toList)
    unfold cargoEnv
    rw [hv]
    rfl
  · unfold cargoEnv
    cases encodedRustflags capLints (env "CARGO_ENCODED_RUSTFLAGS".toList) (env "RUSTFLAGS".toList) <;> rfl
  · unfold cargoEnv
    cases encodedRustflags capLints (env "CARGO_ENCODED_RUSTFLAGS".toList) (env "RUSTFLAGS".toList) <;> rfl
  · intro v hv
    simp only [List.mem_cons, List.not_mem_nil, or_false, not_or] at hv
    obtain ⟨h1, h2, h3⟩ := hv
    unfold cargoEnv Env.set
    cases encodedRustflags capLints (env "CARGO_ENCODED_RUSTFLAGS".toList) (env "RUSTFLAGS".toList) <;> dsimp only
    · rw [if_neg h3, if_neg h2]
    · rw [if_neg h1, if_neg h3, if_neg h2]

example : encodedRustflags true none (some "-C  opt-level=1 -g".toList) =
    some ("-C".toList ++ [unitSep] ++ "opt-level=1".toList ++ [unitSep] ++ "-g".toList ++ [unitSep] ++ "--cap-lints=warn".toList) := by
  decide

/-! ### C64 -/

theorem quoteChar_ne_nil (c : Char) : quoteChar c ≠ [] := by
  unfold quoteChar
  repeat' split
  all_goals simp

theorem unquote_quoteChar (cur rest : Text) (c : Char) :
    unquoteChars cur (quoteChar c ++ rest) = unquoteChars (cur ++ [c]) rest := by
  unfold quoteChar
  split
  · rename_i h; subst h; rfl
  · split
    · rename_i h; subst h; rfl
    · split
      · rename_i h; subst h; rfl
      · split
        · rename_i h
          rcases h with rfl | rfl | rfl | rfl <;> rfl
        · rename_i h
          simp only [not_or] at h
          show unquoteChars cur (c :: rest) = _
          rw [unquoteChars.eq_def]
          dsimp only
          rw [if_neg h.1, if_neg h.2.1]

theorem unquote_quoted (cur rest s : Text) :
    unquoteChars cur (s.flatMap quoteChar ++ rest) = unquoteChars (cur ++ s) rest := by
  induction s generalizing cur with
  | nil => simp
  | cons c s ih =>
    rw [List.flatMap_cons, List.append_assoc, unquote_quoteChar, ih, List.append_assoc]
    rfl

theorem quoteFrom_nonempty (r : Text) (hr : r ≠ []) (argv : List Text) :
    quoteFrom r argv = r ++ argv.flatMap fun s => ' ' :: s.flatMap quoteChar := by
  induction argv generalizing r with
  | nil => simp [quoteFrom]
  | cons s rest ih =>
    unfold quoteFrom
    have : r.isEmpty = false := by cases r <;> simp_all
    rw [this, if_neg (by decide), ih _ (by simp)]
    simp

theorem unquote_rest (cur : Text) (argv : List Text) :
    unquoteChars cur (argv.flatMap fun s => ' ' :: s.flatMap quoteChar) = cur :: argv := by
  induction argv generalizing cur with
  | nil => rfl
  | cons s rest ih =>
    rw [List.flatMap_cons, List.cons_append]
    rw [unquoteChars.eq_def]
    dsimp only
    rw [if_pos rfl, unquote_quoted, List.nil_append, ih]

/-- C64: a logged command line can be read back when no argument is empty. -/
theorem C64_round_trip (argv : List Text) (h : ∀ s ∈ argv, s ≠ []) : unquote (quoteArgv argv) = argv := by
  unfold quoteArgv
  cases argv with
  | nil => rfl
  | cons s rest =>
    have hs : s.flatMap quoteChar ≠ [] := by
      cases s with
      | nil => exact absurd rfl (h [] (List.Mem.head _))
      | cons c s =>
        rw [List.flatMap_cons]
        intro e
        exact quoteChar_ne_nil c (List.append_eq_nil_iff.1 e).1
    unfold quoteFrom
    rw [List.isEmpty_nil, if_pos rfl, List.nil_append, quoteFrom_nonempty _ hs]
    unfold unquote
    rw [if_neg (by
      rw [List.isEmpty_iff]
      intro e
      exact hs (List.append_eq_nil_iff.1 e).1)]
    rw [unquote_quoted, List.nil_append, unquote_rest]

/-- C64: so two different such commands are logged differently. -/
theorem C64_unambiguous (a b : List Text) (ha : ∀ s ∈ a, s ≠ []) (hb : ∀ s ∈ b, s ≠ [])
    (h : quoteArgv a = quoteArgv b) : a = b := by
  rw [← C64_round_trip a ha, ← C64_round_trip b hb, h]

/-- The condition is needed: a leading empty argument is not visible. -/
theorem C64_empty_argument_lost : quoteArgv [[], "a".toList] = quoteArgv ["a".toList] := by decide

/-- C64: the logged command line is one line. -/
theorem C64_one_line (argv : List Text) : '\n' ∉ quoteArgv argv ∧ '\r' ∉ quoteArgv argv := by
  have hq : ∀ c, '\n' ∉ quoteChar c ∧ '\r' ∉ quoteChar c := by
    intro c
    unfold quoteChar
    split
    · decide
    · split
      · decide
      · split
        · decide
        · split
          · rename_i h
            rcases h with rfl | rfl | rfl | rfl <;> decide
          · rename_i h1 h2 h3 _
            simp only [List.mem_singleton]
            exact ⟨fun e => h2 e.symm, fun e => h3 e.symm⟩
  have key : ∀ r, '\n' ∉ r ∧ '\r' ∉ r → '\n' ∉ quoteFrom r argv ∧ '\r' ∉ quoteFrom r argv := by
    induction argv with
    | nil => exact fun r h => h
    | cons s rest ih =>
      intro r hr
      unfold quoteFrom
      apply ih
      constructor
      · intro hm
        rcases List.mem_append.1 hm with hm | hm
        · split at hm
          · exact hr.1 hm
          · rcases List.mem_append.1 hm with hm | hm
            · exact hr.1 hm
            · revert hm; decide
        · obtain ⟨c, _, hc⟩ := List.mem_flatMap.1 hm
          exact (hq c).1 hc
      · intro hm
        rcases List.mem_append.1 hm with hm | hm
        · split at hm
          · exact hr.2 hm
          · rcases List.mem_append.1 hm with hm | hm
            · exact hr.2 hm
            · revert hm; decide
        · obtain ⟨c, _, hc⟩ := List.mem_flatMap.1 hm
          exact (hq c).2 hc
  exact key [] ⟨by simp, by simp⟩

example : quoteArgv ["cargo".toList, "a b".toList, "x\ty".toList] = "cargo a\\ b x\\ty".toList := by decide

end CM.Props
