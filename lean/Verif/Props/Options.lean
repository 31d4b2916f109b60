import Verif.Model.Options
import Verif.Spec.Options
import Verif.Proofs.Glob
import Verif.Proofs.Utf8
import Verif.Props.Outcome
/-! C38, C39, C40, C67: options, filters and globs. -/
namespace CM.Props
open CM Spec Glob

/-! C40 -/

theorem segsOk_split {g : Text} (h : GlobOk g) : SegsOk (splitOn '/' g) := by
  intro s hs
  refine ⟨?_, h.2 s hs⟩
  have : ∀ (t : Text), ∀ s ∈ splitOn '/' t, '/' ∉ s := by
    intro t
    induction t with
    | nil => intro s hs; rw [splitOn, List.mem_singleton] at hs; rw [hs]; simp
    | cons c cs ih =>
      intro s hs
      unfold splitOn at hs
      by_cases hc : c = '/'
      · rw [if_pos hc] at hs
        rcases List.mem_cons.1 hs with rfl | hs
        · simp
        · exact ih s hs
      · rw [if_neg hc] at hs
        cases hsp : splitOn '/' cs with
        | nil => exact absurd hsp (splitOn_ne_nil _ _)
        | cons l ls =>
          rw [hsp] at hs
          rcases List.mem_cons.1 hs with rfl | hs
          · have := ih l (by rw [hsp]; simp)
            simp only [List.mem_cons, not_or]
            exact ⟨Ne.symm hc, this⟩
          · exact ih s (by rw [hsp]; simp [hs])
  exact this g s hs

theorem starstar_ok : '/' ∉ starstar ∧ segOk starstar = true := by decide

theorem segMatch_starstar (c : Text) : SegMatch starstar c := by
  unfold starstar
  exact (segMatch_star _ _).2 ⟨c, [], by simp, .none .nil⟩

/-- The same as `parseAll`, of the bytes of globs without classes and alternatives. -/
def parseBytes : List Text → Option (List (List Token))
  | [] => some []
  | g :: gs => do
    let t ← parseFrom [] none g
    let ts ← parseBytes gs
    pure (t :: ts)

theorem parseAll_bytes (gs : List Text) (sets : List (List Token)) (h : parseBytes (gs.map utf8) = some sets) :
    parseAll gs = some (sets.map up) := by
  induction gs generalizing sets with
  | nil => cases h; rfl
  | cons g gs ih =>
    rw [List.map_cons, parseBytes] at h
    obtain ⟨t, ht, h⟩ := Option.bind_eq_some_iff.1 h
    obtain ⟨ts, hts, h⟩ := Option.bind_eq_some_iff.1 h
    cases h
    have : parse g = some (up t) := parse_up [] none (utf8 g) t ht
    rw [parseAll, this, ih ts hts]
    rfl

theorem adjusted_utf8 (g : Text) : (adjusted g).map utf8 = adjusted (utf8 g) := by
  unfold adjusted
  by_cases h : '/' ∈ g
  · rw [if_pos h, if_pos ((mem_utf8 (by decide)).2 h)]; rfl
  · rw [if_neg h, if_neg (fun h' => h ((mem_utf8 (by decide)).1 h'))]
    simp only [List.map_cons, List.map_nil, utf8_append]
    rfl

/-- What the bytes of one glob of the user are compiled to, and what that matches. -/
theorem one_glob_bytes (g : Text) (hg : GlobOk g) :
    ∃ sets, parseBytes (adjusted g) = some sets ∧
      ∀ p, PathOk p → ((sets.any fun ts => plainMatch ts (joinWith ['/'] p)) = true ↔ TextMatches g p) := by
  unfold adjusted TextMatches
  by_cases hs : '/' ∈ g
  · simp only [if_pos hs]
    obtain ⟨k, hk, hm⟩ := whole_match _ (splitOn_ne_nil '/' g) (segsOk_split hg) hg.1
    rw [joinWith_splitOn] at hk
    refine ⟨[k], by simp only [parseBytes, hk]; rfl, fun p hp => ?_⟩
    rw [← hm p hp]
    simp
  · simp only [if_neg hs]
    have hsp := splitOn_noSep '/' g hs
    have hg' := hg
    unfold GlobOk at hg'
    rw [hsp] at hg'
    have hne : g ≠ [] := by rintro rfl; exact hg'.1 rfl
    have hok := hg'.2 g (by simp)
    obtain ⟨k1, hk1, hm1⟩ := whole_match [starstar, g] (by simp)
      (by intro s hs'; rcases List.mem_cons.1 hs' with rfl | h
          · exact starstar_ok
          · rw [List.mem_singleton] at h; rw [h]; exact ⟨hs, hok⟩)
      (by unfold LastOk; simp [hne])
    obtain ⟨k2, hk2, hm2⟩ := whole_match [starstar, g, starstar] (by simp)
      (by intro s hs'; rcases List.mem_cons.1 hs' with rfl | h
          · exact starstar_ok
          · rcases List.mem_cons.1 h with rfl | h
            · exact ⟨hs, hok⟩
            · rw [List.mem_singleton] at h; rw [h]; exact starstar_ok)
      (by unfold LastOk starstar; simp)
    have e1 : joinWith ['/'] [starstar, g] = "**/".toList ++ g := by
      simp only [joinWith, starstar]; rfl
    have e2 : joinWith ['/'] [starstar, g, starstar] = "**/".toList ++ g ++ "/**".toList := by
      simp only [joinWith, starstar, List.append_assoc]; rfl
    rw [e1] at hk1
    rw [e2] at hk2
    refine ⟨[k1, k2], by simp only [parseBytes, hk1, hk2]; rfl, fun p hp => ?_⟩
    have : (([k1, k2] : List (List Token)).any fun ts => plainMatch ts (joinWith ['/'] p)) = true ↔
        PathMatch [starstar, g] p ∨ PathMatch [starstar, g, starstar] p := by
      rw [← hm1 p hp, ← hm2 p hp]
      simp
    rw [this]
    by_cases hss : g = starstar
    · subst hss
      constructor
      · intro _
        obtain ⟨c, hc⟩ := List.exists_mem_of_ne_nil p hp.1
        exact ⟨c, hc, segMatch_starstar c⟩
      · intro _
        exact Or.inl ((starstar_twice _ _).2 (pathMatch_last p hp.1))
    · rw [pathMatch_starstar _ _ (by simp), pathMatch_starstar _ _ (by simp)]
      simp only [pathMatch_seg _ _ _ hss]
      constructor
      · rintro (⟨c1, c2, rfl, c, cs', rfl, h, _⟩ | ⟨c1, c2, rfl, c, cs', rfl, h, _⟩) <;>
          exact ⟨c, by simp, h⟩
      · rintro ⟨c, hc, h⟩
        obtain ⟨c1, c2, rfl⟩ := List.append_of_mem hc
        by_cases h2 : c2 = []
        · left; exact ⟨c1, _, rfl, c, [], by rw [h2], h, .nil⟩
        · right; exact ⟨c1, _, rfl, c, c2, rfl, h, pathMatch_last c2 h2⟩

theorem segOk_cons {c : Char} (h : c ≠ '\\') (cs : Text) :
    segOk (c :: cs) = (c != '[' && c != '{' && c != '}' && segOk cs) := by
  conv => lhs; unfold segOk
  rw [if_neg h]

theorem segOk_utf8Char (c : Char) (h : c ≠ '\\' ∧ c ≠ '[' ∧ c ≠ '{' ∧ c ≠ '}') (t : Text) : segOk (utf8Char c ++ t) = segOk t := by
  have : ∀ bs : Text, '\\' ∉ bs ∧ '[' ∉ bs ∧ '{' ∉ bs ∧ '}' ∉ bs → segOk (bs ++ t) = segOk t := by
    intro bs
    induction bs with
    | nil => intro _; rfl
    | cons b bs ih =>
      intro hb
      simp only [List.mem_cons, not_or] at hb
      rw [List.cons_append, segOk_cons (Ne.symm hb.1.1), ih ⟨hb.1.2, hb.2.1.2, hb.2.2.1.2, hb.2.2.2.2⟩]
      simp [Ne.symm hb.2.1.1, Ne.symm hb.2.2.1.1, Ne.symm hb.2.2.2.1]
  refine this _ ⟨fun h' => h.1 (mem_utf8Char h' (by decide)).symm, fun h' => h.2.1 (mem_utf8Char h' (by decide)).symm,
    fun h' => h.2.2.1 (mem_utf8Char h' (by decide)).symm, fun h' => h.2.2.2 (mem_utf8Char h' (by decide)).symm⟩

theorem segOk_utf8 (t : Text) (h : segOk t = true) : segOk (utf8 t) = true := by
  induction t using segOk.induct with
  | case1 => rfl
  | case2 => rw [segOk, if_pos rfl] at h; cases h
  | case3 d ds ih =>
    rw [segOk, if_pos rfl] at h
    rw [utf8_cons, utf8_cons, utf8Char_ascii (by decide), List.cons_append, List.nil_append, segOk.eq_def]
    simp only [if_true]
    rcases utf8Char_cases d with ⟨_, e⟩ | ⟨_, b, bs, e, hb, hbs⟩
    · rw [e]; exact ih h
    · rw [e]
      show segOk (bs ++ utf8 ds) = true
      have : ∀ l : Text, (∀ x ∈ l, isContByte x) → segOk (l ++ utf8 ds) = true := by
        intro l
        induction l with
        | nil => intro _; exact ih h
        | cons x l ihl =>
          intro hl
          have hx := (hl x (by simp)).1
          have ne : ∀ y : Char, y.toNat < 128 → x ≠ y := fun y hy e => by rw [e] at hx; omega
          rw [List.cons_append, segOk_cons (ne _ (by decide)), ihl fun y hy => hl y (by simp [hy])]
          simp [ne '[' (by decide), ne '{' (by decide), ne '}' (by decide)]
      exact this bs hbs
  | case4 c cs hc ih =>
    rw [segOk_cons hc] at h
    simp only [Bool.and_eq_true, bne_iff_ne] at h
    rw [utf8_cons, segOk_utf8Char c ⟨hc, h.1.1.1, h.1.1.2, h.1.2⟩]
    exact ih h.2

theorem globOk_utf8 {g : Text} (h : GlobOk g) : GlobOk (utf8 g) := by
  unfold GlobOk at h ⊢
  rw [splitOn_utf8]
  refine ⟨?_, ?_⟩
  · rw [List.getLast?_map]
    intro e
    obtain ⟨x, hx, e⟩ := Option.map_eq_some_iff.1 e
    have : x = [] := utf8_inj e
    exact h.1 (by rw [hx, this])
  · intro s hs
    obtain ⟨x, hx, rfl⟩ := List.mem_map.1 hs
    exact segOk_utf8 x (h.2 x hx)

theorem pathOk_utf8 {p : List Text} (h : PathOk p) : PathOk (p.map utf8) := by
  refine ⟨by simpa using h.1, ?_⟩
  intro c hc
  obtain ⟨x, hx, rfl⟩ := List.mem_map.1 hc
  exact fun h' => h.2 x hx ((mem_utf8 (by decide)).1 h')

/-- What one glob of the user is compiled to, and what that matches. -/
theorem one_glob (g : Text) (hg : GlobOk g) :
    ∃ sets, parseAll (adjusted g) = some sets ∧
      ∀ p, PathOk p → (setMatches sets (joinWith ['/'] p) = true ↔ GlobMatches g p) := by
  obtain ⟨sets, h, m⟩ := one_glob_bytes (utf8 g) (globOk_utf8 hg)
  refine ⟨sets.map up, parseAll_bytes _ sets (by rw [adjusted_utf8, h]), fun p hp => ?_⟩
  unfold setMatches GlobMatches
  rw [joinWith_utf8, ← m _ (pathOk_utf8 hp), List.any_map]
  simp only [Function.comp_def, isMatch_up]

theorem parseAll_append (a b : List Text) (sa sb : List (List Part)) (ha : parseAll a = some sa)
    (hb : parseAll b = some sb) : parseAll (a ++ b) = some (sa ++ sb) := by
  induction a generalizing sa with
  | nil => cases ha; exact hb
  | cons x a ih =>
    rw [parseAll] at ha
    obtain ⟨t, ht, ha⟩ := Option.bind_eq_some_iff.1 ha
    obtain ⟨ts, hts, ha⟩ := Option.bind_eq_some_iff.1 ha
    cases ha
    rw [List.cons_append, parseAll, ht, ih ts hts]
    rfl

theorem all_globs (globs : List Text) (hg : ∀ g ∈ globs, GlobOk g) :
    ∃ sets, parseAll (globs.flatMap adjusted) = some sets ∧
      ∀ p, PathOk p → (setMatches sets (joinWith ['/'] p) = true ↔ ∃ g ∈ globs, GlobMatches g p) := by
  induction globs with
  | nil => exact ⟨[], rfl, fun p _ => by simp [setMatches]⟩
  | cons g globs ih =>
    obtain ⟨s1, h1, m1⟩ := one_glob g (hg g (by simp))
    obtain ⟨s2, h2, m2⟩ := ih fun x hx => hg x (by simp [hx])
    refine ⟨s1 ++ s2, by rw [List.flatMap_cons]; exact parseAll_append _ _ _ _ h1 h2, fun p hp => ?_⟩
    have : setMatches (s1 ++ s2) (joinWith ['/'] p) = true ↔
        setMatches s1 (joinWith ['/'] p) = true ∨ setMatches s2 (joinWith ['/'] p) = true := by
      unfold setMatches
      rw [List.any_append, Bool.or_eq_true]
    rw [this, m1 p hp, m2 p hp]
    simp

/-- **C40.** A list of globs is accepted and matches a path exactly if one of the globs does: one with
a separator by matching the whole path part by part, one without by matching some component. -/
theorem C40_globs (globs : List Text) (hne : globs ≠ []) (hg : ∀ g ∈ globs, GlobOk g) :
    ∃ sets, buildGlobSet globs = some (some sets) ∧
      ∀ p, PathOk p → (setMatches sets (joinWith ['/'] p) = true ↔ ∃ g ∈ globs, GlobMatches g p) := by
  obtain ⟨sets, h, m⟩ := all_globs globs hg
  exact ⟨sets, by unfold buildGlobSet; rw [if_neg hne, h]; rfl, m⟩

theorem pathMatch_length (gs cs : List Text) (h : PathMatch gs cs) (hs : starstar ∉ gs) :
    cs.length = gs.length := by
  induction h with
  | nil => rfl
  | seg _ _ _ ih =>
    simp only [List.length_cons, Nat.add_right_cancel_iff]
    exact ih fun h => hs (by simp [h])
  | noDirs => simp at hs
  | moreDirs => simp at hs
  | last => simp at hs

/-- **C40.** `*` never crosses a separator: a glob with separators but without a `**` part matches only
paths with exactly as many components as it has parts. -/
theorem C40_star_stays (g : Text) (p : List Text) (hs : '/' ∈ g) (hss : starstar ∉ splitOn '/' g)
    (h : GlobMatches g p) : p.length = (splitOn '/' g).length := by
  unfold GlobMatches TextMatches at h
  rw [if_pos ((mem_utf8 (by decide)).2 hs)] at h
  have := pathMatch_length _ _ h (by
    rw [splitOn_utf8]
    intro h'
    obtain ⟨x, hx, e⟩ := List.mem_map.1 h'
    have : x = starstar := utf8_inj (by rw [e]; decide +kernel)
    exact hss (this ▸ hx))
  rwa [splitOn_utf8, List.length_map, List.length_map] at this

/-- **C40.** No globs given: no filter. -/
theorem C40_no_globs : buildGlobSet [] = some none := rfl

/-- **C40.** The empty glob, which is outside of `GlobOk`, matches every path. -/
theorem C40_empty_glob_matches_all (s : Text) :
    ∃ sets, buildGlobSet [[]] = some (some sets) ∧ setMatches sets s = true :=
  ⟨[up [.recursivePrefix], up [.recursivePrefix, .recursiveSuffix]], by decide, by
    unfold setMatches; rw [List.any_cons]; simp [isMatch, up]⟩

example : GlobOk "src/**/f*.rs".toList ∧ GlobOk "console".toList := by
  constructor <;> exact ⟨by decide +kernel, by decide +kernel⟩
example : PathOk ["src".toList, "foo.rs".toList] := ⟨by decide +kernel, by decide +kernel⟩
/-- `src/**/f*.rs` matches `src/bar/foo.rs`. -/
example : GlobMatches "src/**/f*.rs".toList ["src".toList, "bar".toList, "foo.rs".toList] := by
  obtain ⟨sets, h, m⟩ := C40_globs ["src/**/f*.rs".toList] (by simp)
    (by intro g hg; rw [List.mem_singleton] at hg; rw [hg]; exact ⟨by decide +kernel, by decide +kernel⟩)
  have := (m ["src".toList, "bar".toList, "foo.rs".toList] ⟨by decide +kernel, by decide +kernel⟩).1
    (by
      have e : buildGlobSet ["src/**/f*.rs".toList] = some (some [up [.literal 's', .literal 'r', .literal 'c',
        .recursiveZeroOrMore, .literal 'f', .zeroOrMore, .literal '.', .literal 'r', .literal 's']]) := by
        decide +kernel
      rw [e] at h; cases h; decide +kernel)
  obtain ⟨g, hg, hm⟩ := this
  rw [List.mem_singleton] at hg
  rwa [hg] at hm

/-! C38 -/

theorem precedence_getD {α : Type _} (a b : Option α) (d : α) : Precedence a b d ((a.or b).getD d) := by
  cases a <;> cases b <;> simp [Precedence]

theorem precedence_or {α : Type _} (a b : Option α) : Precedence (a.map some) (b.map some) none (a.or b) := by
  cases a <;> cases b <;> simp [Precedence]

/-- The fields of the result, spelled out. -/
theorem new_fields {regex args config o} (h : Options.new regex args config = some o) :
    ∃ mt bt en ex eg xg tt,
      durationOfSecs ((args.minimumTestTimeout.or config.minimumTestTimeout).getD 20) = some mt ∧
      mapPanic durationOfSecs args.buildTimeout = some bt ∧
      compileAll regex (orSlices args.examineRe config.examineRe) = some en ∧
      compileAll regex (orSlices args.excludeRe config.excludeRe) = some ex ∧
      buildGlobSet (orSlices args.file config.examineGlobs) = some eg ∧
      buildGlobSet (orSlices args.exclude config.excludeGlobs) = some xg ∧
      mapPanic durationOfSecs args.timeout = some tt ∧
      o = { additionalCargoArgs := joinSlices args.cargoArg config.additionalCargoArgs,
            additionalCargoTestArgs := joinSlices args.cargoTestArgs config.additionalCargoTestArgs,
            baseline := args.baseline, buildTimeout := bt,
            buildTimeoutMultiplier := args.buildTimeoutMultiplier.or config.buildTimeoutMultiplier,
            capLints := args.capLints.getD config.capLints, checkOnly := args.check,
            copyVcs := (args.copyVcs.or config.copyVcs).getD false,
            errorValues := joinSlices args.error config.errorValues,
            examineNames := en, excludeNames := ex, examineGlobset := eg, excludeGlobset := xg,
            features := args.features, gitignore := args.gitignore, inPlace := args.inPlace,
            jobs := args.jobs, minimumTestTimeout := mt,
            outputInDir := args.output.or config.output,
            profile := args.profile.or config.profile, shuffle := !args.noShuffle,
            skipCalls := chooseSkipCalls args config, testPackage := chooseTestPackage args config,
            testTimeout := tt,
            testTimeoutMultiplier := args.timeoutMultiplier.or config.timeoutMultiplier,
            testTool := (args.testTool.or config.testTool).getD .cargo } := by
  unfold Options.new at h
  obtain ⟨mt, h1, h⟩ := Option.bind_eq_some_iff.1 h
  obtain ⟨bt, h2, h⟩ := Option.bind_eq_some_iff.1 h
  obtain ⟨en, h3, h⟩ := Option.bind_eq_some_iff.1 h
  obtain ⟨ex, h4, h⟩ := Option.bind_eq_some_iff.1 h
  obtain ⟨eg, h5, h⟩ := Option.bind_eq_some_iff.1 h
  obtain ⟨xg, h6, h⟩ := Option.bind_eq_some_iff.1 h
  obtain ⟨tt, h7, h⟩ := Option.bind_eq_some_iff.1 h
  exact ⟨mt, bt, en, ex, eg, xg, tt, h1, h2, h3, h4, h5, h6, h7, (Option.some.inj h).symm⟩

theorem duration_eq {r t : Rat} (h : durationOfSecs r = some t) : t = r := by
  unfold durationOfSecs at h
  split at h
  · cases h
  · exact (Option.some.inj h).symm

/-- **C38.** Scalar settings: the command line value, then the config value, then the default. -/
theorem C38_scalars {regex args config o} (h : Options.new regex args config = some o) :
    Precedence args.minimumTestTimeout config.minimumTestTimeout 20 o.minimumTestTimeout ∧
    Precedence (args.buildTimeoutMultiplier.map some) (config.buildTimeoutMultiplier.map some) none
      o.buildTimeoutMultiplier ∧
    Precedence (args.timeoutMultiplier.map some) (config.timeoutMultiplier.map some) none
      o.testTimeoutMultiplier ∧
    Precedence args.capLints (some config.capLints) false o.capLints ∧
    Precedence args.copyVcs config.copyVcs false o.copyVcs ∧
    Precedence (args.output.map some) (config.output.map some) none o.outputInDir ∧
    Precedence (args.profile.map some) (config.profile.map some) none o.profile ∧
    Precedence args.testTool config.testTool .cargo o.testTool := by
  obtain ⟨mt, bt, en, ex, eg, xg, tt, h1, h2, h3, h4, h5, h6, h7, rfl⟩ := new_fields h
  refine ⟨?_, precedence_or _ _, precedence_or _ _, ?_, precedence_getD _ _ _, precedence_or _ _,
    precedence_or _ _, precedence_getD _ _ _⟩
  · show Precedence _ _ _ mt
    rw [duration_eq h1]; exact precedence_getD _ _ _
  · cases args.capLints <;> simp [Precedence]

/-- **C38.** Settings that only the command line has. -/
theorem C38_command_line_only {regex args config o} (h : Options.new regex args config = some o) :
    o.baseline = args.baseline ∧ o.buildTimeout = args.buildTimeout ∧ o.testTimeout = args.timeout ∧
    o.checkOnly = args.check ∧ o.features = args.features ∧ o.gitignore = args.gitignore ∧
    o.inPlace = args.inPlace ∧ o.jobs = args.jobs ∧ o.shuffle = !args.noShuffle := by
  obtain ⟨mt, bt, en, ex, eg, xg, tt, h1, h2, h3, h4, h5, h6, h7, rfl⟩ := new_fields h
  have mp : ∀ (a b : Option Rat), mapPanic durationOfSecs a = some b → b = a := by
    intro a b hab
    cases a with
    | none => cases hab; rfl
    | some r =>
      obtain ⟨t, ht, rfl⟩ := Option.map_eq_some_iff.1 hab
      rw [duration_eq ht]
  exact ⟨rfl, mp _ _ h2, mp _ _ h7, rfl, rfl, rfl, rfl, rfl, rfl⟩

/-- **C38.** Lists that are added up, command line first; `--skip-calls` values are split at commas
and the default is last unless it is turned off. -/
theorem C38_lists {regex args config o} (h : Options.new regex args config = some o) :
    o.errorValues = args.error ++ config.errorValues ∧
    o.additionalCargoArgs = args.cargoArg ++ config.additionalCargoArgs ∧
    o.additionalCargoTestArgs = args.cargoTestArgs ++ config.additionalCargoTestArgs ∧
    ∃ dflt : Bool, Precedence args.skipCallsDefaults config.skipCallsDefaults true dflt ∧
      o.skipCalls = args.skipCalls.flatMap (splitOn ',') ++ config.skipCalls ++
        (if dflt = true then ["with_capacity".toList] else []) := by
  obtain ⟨mt, bt, en, ex, eg, xg, tt, h1, h2, h3, h4, h5, h6, h7, rfl⟩ := new_fields h
  exact ⟨rfl, rfl, rfl, _, precedence_getD _ _ _, rfl⟩

theorem orSlices_firstGiven (a b : List Text) : FirstGiven a b (orSlices a b) := by
  unfold orSlices FirstGiven
  cases a <;> simp

/-- **C38.** Filters: the command line list if it is not empty, otherwise the config list; the result
is as if the lists chosen in this way had been given on the command line and none in the config file. -/
theorem C38_filters (regex args config) (files excludes names exNames : List Text)
    (h1 : FirstGiven args.file config.examineGlobs files)
    (h2 : FirstGiven args.exclude config.excludeGlobs excludes)
    (h3 : FirstGiven args.examineRe config.examineRe names)
    (h4 : FirstGiven args.excludeRe config.excludeRe exNames) :
    Options.new regex args config =
      Options.new regex
        { args with file := files, exclude := excludes, examineRe := names, excludeRe := exNames }
        { config with examineGlobs := [], excludeGlobs := [], examineRe := [], excludeRe := [] } := by
  have key : ∀ a b c : List Text, FirstGiven a b c → orSlices a b = orSlices c [] := by
    intro a b c h
    unfold orSlices
    unfold FirstGiven at h
    cases a with
    | nil => rw [h.2 rfl]; cases b <;> simp
    | cons x a => rw [h.1 (by simp)]; simp
  unfold Options.new
  rw [key _ _ _ h1, key _ _ _ h2, key _ _ _ h3, key _ _ _ h4]
  rfl

/-- **C38.** Making the options succeeds if the patterns are valid and no time is negative. -/
theorem C38_total (regex) (args : Args) (config : Config)
    (hr : ∀ r ∈ args.examineRe ++ config.examineRe ++ args.excludeRe ++ config.excludeRe,
      regex r ≠ none)
    (hg : ∀ g ∈ args.file ++ config.examineGlobs ++ args.exclude ++ config.excludeGlobs, GlobOk g)
    (ht : ∀ t, (args.timeout = some t ∨ args.buildTimeout = some t ∨ args.minimumTestTimeout = some t ∨
      config.minimumTestTimeout = some t) → 0 ≤ t) :
    ∃ o, Options.new regex args config = some o := by
  have hor : ∀ (a b : List Text) x, x ∈ orSlices a b → x ∈ a ∨ x ∈ b := by
    intro a b x hx
    unfold orSlices at hx
    split at hx
    · exact Or.inr hx
    · exact Or.inl hx
  have hc : ∀ l : List Text, (∀ r ∈ l, regex r ≠ none) → ∃ ps, compileAll regex l = some ps := by
    intro l
    induction l with
    | nil => intro _; exact ⟨[], rfl⟩
    | cons r l ih =>
      intro h
      obtain ⟨ps, hps⟩ := ih fun x hx => h x (by simp [hx])
      cases hr : regex r with
      | none => exact absurd hr (h r (by simp))
      | some p => exact ⟨p :: ps, by rw [compileAll, hr, hps]; rfl⟩
  have hb : ∀ l : List Text, (∀ g ∈ l, GlobOk g) → ∃ s, buildGlobSet l = some s := by
    intro l hl
    by_cases hne : l = []
    · exact ⟨none, by rw [hne]; rfl⟩
    · obtain ⟨s, h, _⟩ := C40_globs l hne hl
      exact ⟨_, h⟩
  have hd : ∀ r : Rat, 0 ≤ r → durationOfSecs r = some r := by
    intro r hr
    unfold durationOfSecs
    rw [if_neg (Rat.not_lt.2 hr)]
  obtain ⟨mt, h1⟩ : ∃ mt, durationOfSecs ((args.minimumTestTimeout.or config.minimumTestTimeout).getD 20)
      = some mt := by
    refine ⟨_, hd _ ?_⟩
    cases h1 : args.minimumTestTimeout with
    | some t => exact ht t (by simp [h1])
    | none =>
      cases h2 : config.minimumTestTimeout with
      | some t => exact ht t (by simp [h2])
      | none => show (0 : Rat) ≤ 20; decide +kernel
  obtain ⟨bt, h2⟩ : ∃ bt, mapPanic durationOfSecs args.buildTimeout = some bt := by
    cases h : args.buildTimeout with
    | none => exact ⟨none, rfl⟩
    | some t => exact ⟨some t, by unfold mapPanic; simp only; rw [hd t (ht t (by simp [h]))]; rfl⟩
  obtain ⟨tt, h7⟩ : ∃ tt, mapPanic durationOfSecs args.timeout = some tt := by
    cases h : args.timeout with
    | none => exact ⟨none, rfl⟩
    | some t => exact ⟨some t, by unfold mapPanic; simp only; rw [hd t (ht t (by simp [h]))]; rfl⟩
  obtain ⟨en, h3⟩ := hc (orSlices args.examineRe config.examineRe) fun r hx =>
    hr r (by rcases hor _ _ _ hx with h | h <;> simp [h])
  obtain ⟨ex, h4⟩ := hc (orSlices args.excludeRe config.excludeRe) fun r hx =>
    hr r (by rcases hor _ _ _ hx with h | h <;> simp [h])
  obtain ⟨eg, h5⟩ := hb (orSlices args.file config.examineGlobs) fun r hx =>
    hg r (by rcases hor _ _ _ hx with h | h <;> simp [h])
  obtain ⟨xg, h6⟩ := hb (orSlices args.exclude config.excludeGlobs) fun r hx =>
    hg r (by rcases hor _ _ _ hx with h | h <;> simp [h])
  unfold Options.new
  rw [h1, h2, h3, h4, h5, h6, h7]
  exact ⟨_, rfl⟩

/-- A command line with one file filter over a config with another one. -/
def sampleArgs : Args := { file := ["lib.rs".toList], minimumTestTimeout := some 5, error := ["a".toList] }
def sampleConfig : Config :=
  { examineGlobs := ["src/*.rs".toList], excludeRe := ["x".toList], errorValues := ["b".toList] }
def sampleRegex (t : Text) : Option (Text → Bool) := if t = [] then none else some fun s => t.isPrefixOf s

example : ∃ o, Options.new sampleRegex sampleArgs sampleConfig = some o ∧
    o.errorValues = ["a".toList, "b".toList] ∧ o.minimumTestTimeout = 5 := by
  obtain ⟨o, h⟩ := C38_total sampleRegex sampleArgs sampleConfig (by decide)
    (by intro g hg
        have : g = "lib.rs".toList ∨ g = "src/*.rs".toList := by simpa [sampleArgs, sampleConfig] using hg
        rcases this with rfl | rfl <;> exact ⟨by decide +kernel, by decide +kernel⟩)
    (by intro t ht
        have : t = 5 := by simpa [sampleArgs, sampleConfig, eq_comm] using ht
        rw [this]; decide +kernel)
  exact ⟨o, h, (C38_lists h).1, (C38_scalars h).1.1 5 rfl⟩

/-! C67: the test packages. -/

/-- **C67, as the comment in the code has it**: if either command line argument is given, the config
file does not matter. -/
def C67_full : Prop := ∀ (args : Args) (c c' : Config),
  (args.testWorkspace ≠ none ∨ args.testPackage ≠ []) → chooseTestPackage args c = chooseTestPackage args c'

/-- It is false: with `--test-workspace=false` the packages named in the config file are still used. -/
theorem C67_override_false : ¬ C67_full := by
  intro h
  have := h { testWorkspace := some false } { testPackage := ["a".toList] } {} (by simp)
  revert this
  decide

/-- **C67.** What holds: `--test-workspace=true` and `--test-package` override the config file. -/
theorem C67_override_partial (args : Args) (c c' : Config)
    (h : args.testWorkspace = some true ∨ args.testPackage ≠ []) :
    chooseTestPackage args c = chooseTestPackage args c' := by
  unfold chooseTestPackage
  by_cases hw : args.testWorkspace = some true
  · rw [if_pos hw, if_pos hw]
  · rw [if_neg hw, if_neg hw]
    have hp := h.resolve_left hw
    have : (!args.testPackage.isEmpty) = true := by simp [hp]
    rw [if_pos this, if_pos this]

/-- **C67.** `--test-workspace=true` first, then `--test-package` split at commas; without either,
`test_workspace = true` in the config file unless `--test-workspace=false`, then `test_package` of the
config file, then the mutated package. -/
theorem C67_order (args : Args) (c : Config) :
    (args.testWorkspace = some true → chooseTestPackage args c = .workspace) ∧
    (args.testWorkspace ≠ some true → args.testPackage ≠ [] →
      chooseTestPackage args c = .named (args.testPackage.flatMap (splitOn ','))) ∧
    (args.testPackage = [] → args.testWorkspace = none → c.testWorkspace = some true →
      chooseTestPackage args c = .workspace) ∧
    (args.testPackage = [] → args.testWorkspace ≠ some true → (args.testWorkspace = some false ∨
      c.testWorkspace ≠ some true) → c.testPackage ≠ [] →
      chooseTestPackage args c = .named c.testPackage) ∧
    (args.testPackage = [] → args.testWorkspace ≠ some true → (args.testWorkspace = some false ∨
      c.testWorkspace ≠ some true) → c.testPackage = [] → chooseTestPackage args c = .mutated) := by
  unfold chooseTestPackage
  refine ⟨fun h => if_pos h, fun h h' => ?_, fun h h' h'' => ?_, fun h h' h'' h3 => ?_,
    fun h h' h'' h3 => ?_⟩
  · rw [if_neg h, if_pos (by simp [h'])]
  · rw [if_neg (by rw [h']; simp), if_neg (by simp [h]), if_pos (by simp [h', h''])]
  · rw [if_neg h', if_neg (by simp [h]), if_neg, if_pos (by simp [h3])]
    rcases h'' with h'' | h'' <;> simp [h'']
  · rw [if_neg h', if_neg (by simp [h]), if_neg, if_neg (by simp [h3])]
    rcases h'' with h'' | h'' <;> simp [h'']

example : (C67_override_partial { testPackage := ["a,b".toList] } {} { testWorkspace := some true }
    (by simp)) = rfl ∧
    chooseTestPackage { testPackage := ["a,b".toList] } { testWorkspace := some true } =
      .named ["a".toList, "b".toList] := ⟨rfl, by decide⟩

/-! C39 -/

/-- **C39.** With the file filters chosen as in C38, a source file may have mutants exactly if it
matches one of the `--file` globs (if there are any) and none of the `--exclude` globs. -/
theorem C39_files {regex args config o} (h : Options.new regex args config = some o)
    (files excludes : List Text)
    (h1 : FirstGiven args.file config.examineGlobs files)
    (h2 : FirstGiven args.exclude config.excludeGlobs excludes)
    (hg : ∀ g ∈ files ++ excludes, GlobOk g) (p : Path) (hp : PathOk p) :
    o.allowsSourceFilePath p = true ↔ Allowed files excludes fun g => GlobMatches g p := by
  have key : ∀ a b c : List Text, FirstGiven a b c → orSlices a b = c := by
    intro a b c h
    have := orSlices_firstGiven a b
    by_cases ha : a = []
    · rw [h.2 ha, this.2 ha]
    · rw [h.1 ha, this.1 ha]
  obtain ⟨mt, bt, en, ex, eg, xg, tt, -, -, -, -, h5, h6, -, rfl⟩ := new_fields h
  rw [key _ _ _ h1] at h5
  rw [key _ _ _ h2] at h6
  have sl : ("/".toList : Text) = ['/'] := rfl
  unfold Options.allowsSourceFilePath Allowed
  rw [Bool.and_eq_true, sl]
  refine and_congr ?_ ?_
  · by_cases hne : files = []
    · subst hne; rw [C40_no_globs] at h5; cases h5; simp
    · obtain ⟨sets, hs, m⟩ := C40_globs files hne fun g hg' => hg g (by simp [hg'])
      rw [h5] at hs; cases hs
      show setMatches sets (joinWith ['/'] p) = true ↔ _
      rw [m p hp]
      simp [hne]
  · by_cases hne : excludes = []
    · subst hne; rw [C40_no_globs] at h6; cases h6; simp
    · obtain ⟨sets, hs, m⟩ := C40_globs excludes hne fun g hg' => hg g (by simp [hg'])
      rw [h6] at hs; cases hs
      show (!setMatches sets (joinWith ['/'] p)) = true ↔ _
      rw [← m p hp]
      simp

theorem compileAll_any (regex : Text → Option (Text → Bool)) (l : List Text) (ps : List (Text → Bool))
    (h : compileAll regex l = some ps) (name : Text) :
    (ps.any (· name) = true ↔ ∃ r ∈ l, ∃ f, regex r = some f ∧ f name = true) ∧ (ps = [] ↔ l = []) := by
  induction l generalizing ps with
  | nil => cases h; simp
  | cons r l ih =>
    rw [compileAll] at h
    obtain ⟨p, hp, h⟩ := Option.bind_eq_some_iff.1 h
    obtain ⟨ps', hps, h⟩ := Option.bind_eq_some_iff.1 h
    cases h
    refine ⟨?_, by simp⟩
    rw [List.any_cons, Bool.or_eq_true, (ih ps' hps).1]
    simp [hp]

/-- **C39.** With the name filters chosen as in C38, a mutant is kept exactly if its full name matches
one of the `--re` expressions (if there are any) and none of the `--exclude-re` expressions. -/
theorem C39_names {regex args config o} (h : Options.new regex args config = some o)
    (names exNames : List Text)
    (h1 : FirstGiven args.examineRe config.examineRe names)
    (h2 : FirstGiven args.excludeRe config.excludeRe exNames) (m : Mutant) (name : Text)
    (hn : m.name true = some name) :
    o.allowsMutant m = some true ↔
      Allowed names exNames fun r => ∃ f, regex r = some f ∧ f name = true := by
  have key : ∀ a b c : List Text, FirstGiven a b c → orSlices a b = c := by
    intro a b c h
    have := orSlices_firstGiven a b
    by_cases ha : a = []
    · rw [h.2 ha, this.2 ha]
    · rw [h.1 ha, this.1 ha]
  obtain ⟨mt, bt, en, ex, eg, xg, tt, -, -, h3, h4, -, -, -, rfl⟩ := new_fields h
  rw [key _ _ _ h1] at h3
  rw [key _ _ _ h2] at h4
  obtain ⟨a1, b1⟩ := compileAll_any regex _ en h3 name
  obtain ⟨a2, b2⟩ := compileAll_any regex _ ex h4 name
  unfold Options.allowsMutant Allowed
  rw [hn, ← a1, ← a2, ← b1]
  simp only [Option.map_some, Option.some.injEq, Bool.and_eq_true, Bool.or_eq_true, List.isEmpty_iff]
  refine and_congr Iff.rfl ?_
  constructor
  · rintro (h | h)
    · rw [h]; simp
    · simpa using h
  · intro h; right; simpa using h

example : ∃ n, sampleMutant.name true = some n := ⟨_, rfl⟩

end CM.Props
