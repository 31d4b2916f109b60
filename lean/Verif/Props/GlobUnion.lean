import Verif.Props.GlobGroups
import Verif.Props.Pipeline
/-! C40: several globs, of any kind. -/
namespace CM.Props
open CM Spec Glob

theorem parseAll_both (a b : List Text) :
    parseAll (a ++ b) = (parseAll a).bind fun x => (parseAll b).map fun y => x ++ y := by
  induction a with
  | nil => cases h : parseAll b <;> simp [parseAll, h]
  | cons g a ih =>
    rw [List.cons_append, parseAll, ih, parseAll]
    cases parse g with
    | none => rfl
    | some t =>
      cases parseAll a with
      | none => rfl
      | some x => cases h : parseAll b <;> rfl

theorem buildGlobSet_one (g : Text) : buildGlobSet [g] = (parseAll (adjusted g)).map some := by
  unfold buildGlobSet
  rw [if_neg (by simp), List.flatMap_cons, List.flatMap_nil, List.append_nil]

theorem parseAll_union (gs : List Text) :
    ((∀ g ∈ gs, buildGlobSet [g] ≠ none) → ∃ sets, parseAll (gs.flatMap adjusted) = some sets ∧
      ∀ s, setMatches sets s = true ↔ ∃ g ∈ gs, ∃ one, buildGlobSet [g] = some (some one) ∧ setMatches one s = true) ∧
    ((∃ g ∈ gs, buildGlobSet [g] = none) → parseAll (gs.flatMap adjusted) = none) := by
  induction gs with
  | nil => exact ⟨fun _ => ⟨[], rfl, fun s => by simp [setMatches]⟩, by simp⟩
  | cons g gs ih =>
    rw [List.flatMap_cons, parseAll_both]
    constructor
    · intro h
      obtain ⟨sets, h1, h2⟩ := ih.1 fun x hx => h x (by simp [hx])
      have hg := h g (by simp)
      rw [buildGlobSet_one] at hg
      cases hp : parseAll (adjusted g) with
      | none => rw [hp] at hg; exact absurd rfl hg
      | some one =>
        have ho : buildGlobSet [g] = some (some one) := by rw [buildGlobSet_one, hp]; rfl
        refine ⟨one ++ sets, by rw [h1]; rfl, fun s => ?_⟩
        have e : setMatches (one ++ sets) s = (setMatches one s || setMatches sets s) := by
          unfold setMatches; rw [List.any_append]
        rw [e, Bool.or_eq_true, h2]
        constructor
        · rintro (hm | ⟨x, hx, o, h3, h4⟩)
          · exact ⟨g, by simp, one, ho, hm⟩
          · exact ⟨x, by simp [hx], o, h3, h4⟩
        · rintro ⟨x, hx, o, h3, h4⟩
          rcases List.mem_cons.1 hx with rfl | hx
          · rw [ho] at h3
            cases h3
            exact .inl h4
          · exact .inr ⟨x, hx, o, h3, h4⟩
    · rintro ⟨x, hx, hn⟩
      rcases List.mem_cons.1 hx with rfl | hx
      · rw [buildGlobSet_one] at hn
        cases hp : parseAll (adjusted x) with
        | none => rfl
        | some _ => rw [hp] at hn; cases hn
      · rw [ih.2 ⟨x, hx, hn⟩]
        cases parseAll (adjusted g) <;> rfl

/-- **C40.** Several globs of any kind match what one of them alone matches, and they are refused exactly if one of them
alone is. -/
theorem C40_any_of_several (gs : List Text) (hne : gs ≠ []) :
    (buildGlobSet gs = none ↔ ∃ g ∈ gs, buildGlobSet [g] = none) ∧
    ∀ set, buildGlobSet gs = some set → ∃ sets, set = some sets ∧
      ∀ s, setMatches sets s = true ↔ ∃ g ∈ gs, ∃ one, buildGlobSet [g] = some (some one) ∧ setMatches one s = true := by
  have hb : buildGlobSet gs = (parseAll (gs.flatMap adjusted)).map some := by unfold buildGlobSet; rw [if_neg hne]
  by_cases hn : ∃ g ∈ gs, buildGlobSet [g] = none
  · have := (parseAll_union gs).2 hn
    rw [hb, this]
    exact ⟨⟨fun _ => hn, fun _ => rfl⟩, fun set h => by cases h⟩
  · obtain ⟨sets, h1, h2⟩ := (parseAll_union gs).1 fun g hg h => hn ⟨g, hg, h⟩
    rw [hb, h1]
    refine ⟨⟨fun h => (by simp at h), fun h => absurd h hn⟩, fun set h => ?_⟩
    rw [Option.map_some, Option.some.injEq] at h
    subst h
    exact ⟨sets, rfl, h2⟩

example : buildGlobSet ["src/{a,b}.rs".toList, "t[0-9].rs".toList] ≠ none :=
  fun h => by
    obtain ⟨g, hg, h⟩ := ((C40_any_of_several _ (by simp)).1).1 h
    simp only [List.mem_cons, List.not_mem_nil, or_false] at hg
    rcases hg with rfl | rfl <;> (revert h; decide +kernel)

/-- What globs mean that may have groups of alternatives and classes. -/
inductive Means : Text → (Path → Prop) → Prop
  | plain {g : Text} : GlobOk g → Means g (GlobMatches g)
  | groups {pre post : Text} {gs : List (Text × Piece)} : gs ≠ [] → GroupsOk gs → segOk pre = true →
      (∀ x, pre ≠ x ++ ['*']) → segOk post = true → post.head? ≠ some '*' →
      (∀ y ∈ groupsChoices gs, '/' ∈ pre ++ (y ++ post) ↔ '/' ∈ pre ++ (groupsText gs ++ post)) →
      (∀ y ∈ groupsChoices gs, GlobOk (pre ++ (y ++ post))) →
      Means (pre ++ (groupsText gs ++ post)) fun p => ∃ y ∈ groupsChoices gs, GlobMatches (pre ++ (y ++ post)) p

theorem means_one {g : Text} {m : Path → Prop} (h : Means g m) :
    ∃ sets, buildGlobSet [g] = some (some sets) ∧ ∀ p, PathOk p → (setMatches sets (joinWith ['/'] p) = true ↔ m p) := by
  cases h with
  | plain h =>
    obtain ⟨sets, h1, h2⟩ := one_glob g h
    exact ⟨sets, by rw [buildGlobSet_one, h1]; rfl, h2⟩
  | groups h0 h1 h2 h3 h4 h5 h6 h7 => exact C40_groups _ _ _ h0 h1 h2 h3 h4 h5 h6 h7

theorem means_several (gs : List Text) (hne : gs ≠ []) (m : Text → Path → Prop) (h : ∀ g ∈ gs, Means g (m g)) :
    ∃ sets, buildGlobSet gs = some (some sets) ∧ ∀ p, PathOk p → (setMatches sets (joinWith ['/'] p) = true ↔ ∃ g ∈ gs, m g p) := by
  obtain ⟨h1, h2⟩ := C40_any_of_several gs hne
  cases hb : buildGlobSet gs with
  | none =>
    obtain ⟨g, hg, hn⟩ := h1.1 hb
    obtain ⟨sets, hs, _⟩ := means_one (h g hg)
    rw [hn] at hs
    cases hs
  | some set =>
    obtain ⟨sets, rfl, h3⟩ := h2 set hb
    refine ⟨sets, rfl, fun p hp => ?_⟩
    rw [h3]
    constructor
    · rintro ⟨g, hg, one, ho, hm⟩
      obtain ⟨sets', hs, h4⟩ := means_one (h g hg)
      rw [ho] at hs
      cases hs
      exact ⟨g, hg, (h4 p hp).1 hm⟩
    · rintro ⟨g, hg, hm⟩
      obtain ⟨sets', hs, h4⟩ := means_one (h g hg)
      exact ⟨g, hg, sets', hs, (h4 p hp).2 hm⟩

/-- **C39.** The same as `C39_files` for globs that may have groups of alternatives and classes: a source file may have
mutants exactly if it matches one of the `--file` globs (if there are any) and none of the `--exclude` globs. -/
theorem C39_files_by_meaning {regex args config o} (h : Options.new regex args config = some o)
    (files excludes : List Text)
    (h1 : FirstGiven args.file config.examineGlobs files)
    (h2 : FirstGiven args.exclude config.excludeGlobs excludes)
    (m : Text → Path → Prop) (hg : ∀ g ∈ files ++ excludes, Means g (m g)) (p : Path) (hp : PathOk p) :
    o.allowsSourceFilePath p = true ↔ Allowed files excludes fun g => m g p := by
  have key : ∀ a b c : List Text, FirstGiven a b c → orSlices a b = c := by
    intro a b c h
    have := orSlices_firstGiven a b
    by_cases ha : a = []
    · rw [h.2 ha, this.2 ha]
    · rw [h.1 ha, this.1 ha]
  obtain ⟨mt, bt, en, ex, eg, xg, tt, -, -, -, -, h5, h6, -, rfl⟩ := new_fields h
  rw [key _ _ _ h1] at h5
  rw [key _ _ _ h2] at h6
  have sl : ("/".toList : Text) = ['/'] := rfl
  unfold Options.allowsSourceFilePath Allowed
  rw [Bool.and_eq_true, sl]
  refine and_congr ?_ ?_
  · by_cases hne : files = []
    · subst hne; rw [C40_no_globs] at h5; cases h5; simp
    · obtain ⟨sets, hs, hm⟩ := means_several files hne m fun g hg' => hg g (by simp [hg'])
      rw [h5] at hs; cases hs
      show setMatches sets (joinWith ['/'] p) = true ↔ _
      rw [hm p hp]
      simp [hne]
  · by_cases hne : excludes = []
    · subst hne; rw [C40_no_globs] at h6; cases h6; simp
    · obtain ⟨sets, hs, hm⟩ := means_several excludes hne m fun g hg' => hg g (by simp [hg'])
      rw [h6] at hs; cases hs
      show (!setMatches sets (joinWith ['/'] p)) = true ↔ _
      rw [← hm p hp]
      simp

/-- **C39** for a tree, as `C39_tree`, for the same globs. -/
theorem C39_tree_by_meaning {regex args config} (env : WalkEnv) (h : Options.new regex args config = some env.options)
    (files excludes names exNames : List Text)
    (h1 : FirstGiven args.file config.examineGlobs files)
    (h2 : FirstGiven args.exclude config.excludeGlobs excludes)
    (h3 : FirstGiven args.examineRe config.examineRe names)
    (h4 : FirstGiven args.excludeRe config.excludeRe exNames)
    (mean : Text → Path → Prop) (hg : ∀ g ∈ files ++ excludes, Means g (mean g))
    (pkgs : List Package) (all ms : List Mutant) (allFs fs : List SourceFile)
    (hall : WalksTree (unfilteredEnv env) pkgs all allFs) (hw : WalksTree env pkgs ms fs)
    (hp : ∀ f ∈ allFs, PathOk f.path) :
    fs.Sublist allFs ∧ ms.Sublist all ∧
    (∀ f ∈ allFs, f ∈ fs ↔ Allowed files excludes fun g => mean g f.path) ∧
    ∀ m ∈ all, m ∈ ms ↔ (Allowed files excludes fun g => mean g m.sourceFile.path) ∧
      ∃ name, m.name true = some name ∧ Allowed names exNames fun r => ∃ f, regex r = some f ∧ f name = true := by
  obtain ⟨rfl, rfl⟩ := walksTree_unique hw (walksTree_filter hall)
  have hsrc : ∀ m ∈ all, m.sourceFile ∈ allFs := by
    intro m hm
    rw [(C45_tree _ _ _ _ hall).2.2] at hm
    obtain ⟨f, hf, hm⟩ := List.mem_flatMap.1 hm
    rw [fileMutants_source hm]; exact hf
  refine ⟨List.filter_sublist, List.filter_sublist, ?_, ?_⟩
  · intro f hf
    rw [List.mem_filter, C39_files_by_meaning h files excludes h1 h2 mean hg f.path (hp f hf)]
    exact and_iff_right hf
  · intro m hm
    rw [List.mem_filter, Bool.and_eq_true]
    unfold fileOk nameOk
    rw [C39_files_by_meaning h files excludes h1 h2 mean hg m.sourceFile.path (hp _ (hsrc m hm)), and_iff_right hm, beq_iff_eq]
    refine and_congr_right fun _ => ?_
    cases hn : m.name true with
    | none => simp [Options.allowsMutant, hn]
    | some name => rw [C39_names h names exNames h3 h4 m name hn]; simp

/-- `src/[a-c].rs` and `x.rs` have a meaning. -/
example : Means "x.rs".toList (GlobMatches "x.rs".toList) ∧ ∃ m, Means "src/[a-c].rs".toList m := by
  have r : RangesOk [('a', 'c')] := ⟨by decide, by decide, by intro r hr; cases hr; decide⟩
  have e : groupsChoices [([], .ranges [('a', 'c')])] = ["\\a".toList, "\\b".toList, "\\c".toList] := by decide +kernel
  refine ⟨.plain (by unfold GlobOk; decide +kernel), _, Means.groups (pre := "src/".toList) (post := ".rs".toList)
    (gs := [([], .ranges [('a', 'c')])]) (by simp) ⟨r, Or.inl rfl, by decide +kernel, trivial⟩ (by decide) ?_ (by decide) (by decide)
    (by decide +kernel) ?_⟩
  · intro x e
    exact absurd (List.append_inj' (show ("src".toList ++ ['/'] : Text) = x ++ ['*'] from e) rfl).2 (by decide)
  · rw [e]
    intro a h
    simp only [List.mem_cons, List.not_mem_nil, or_false] at h
    rcases h with rfl | rfl | rfl <;> (unfold GlobOk; decide +kernel)

end CM.Props
