import Verif.Spec.Manifest
import Verif.Spec.CopyTree
import Verif.Props.PathSafe
import Verif.Proofs.Text
/-! C58: relative dependencies of a copied manifest still mean the same thing. -/
namespace CM.Props
open CM CM.Spec CM.Copy

/-! ### Paths -/

/-- The names in a path. -/
def segments (t : Text) : Path := (splitOn '/' t).filter fun c => c ≠ [] && c ≠ ".".toList

theorem segments_slash (a b : Text) : segments (a ++ '/' :: b) = segments a ++ segments b := by
  unfold segments
  rw [splitOn_append, List.filter_append]

theorem segments_nil : segments [] = [] := rfl

theorem segments_trailing (a : Text) : segments (a ++ ['/']) = segments a := by
  rw [segments_slash, segments_nil, List.append_nil]

theorem components_abs {t : Text} (h : t.head? = some '/') : (components t).drop 1 = segments t := by
  unfold components segments
  rw [if_pos h]; rfl

theorem pushText_segments (dir path : Text) : segments (pushText dir path) = segments dir ++ segments path := by
  unfold pushText
  by_cases h : dir = [] ∨ dir.getLast? = some '/'
  · rw [if_pos h]
    rcases h with rfl | h
    · rfl
    · obtain ⟨d, rfl⟩ : ∃ d, dir = d ++ ['/'] := by
        rw [List.getLast?_eq_some_iff] at h
        exact h
      rw [List.append_nil, List.append_assoc]
      show segments (d ++ '/' :: path) = _
      rw [segments_slash, segments_trailing]
  · rw [if_neg h, List.append_assoc]
    exact segments_slash dir path

theorem pushText_head {dir path : Text} (h : dir.head? = some '/') : (pushText dir path).head? = some '/' := by
  cases dir with
  | nil => cases h
  | cons c dir => exact h

theorem follow_components (base : List Text) {t : Text} (h : t.head? ≠ some '/') : follow base (components t) = follow base (segments t) := by
  unfold components
  rw [if_neg h]
  by_cases hd : (splitOn '/' t).head? = some ".".toList
  · rw [if_pos hd]; rfl
  · rw [if_neg hd]; rfl

theorem go_components (fs : Dirs) (base : fs.Node) {t : Text} (h : t.head? ≠ some '/') : fs.go base (components t) = fs.go base (segments t) := by
  unfold components
  rw [if_neg h]
  by_cases hd : (splitOn '/' t).head? = some ".".toList
  · rw [if_pos hd]; rfl
  · rw [if_neg hd]; rfl

theorem go_append (fs : Dirs) (n : fs.Node) (p q : Path) : fs.go n (p ++ q) = (fs.go n p).bind fun m => fs.go m q := by
  induction p generalizing n with
  | nil => rfl
  | cons c p ih =>
    show (if c = ".".toList then fs.go n (p ++ q) else (fs.step n c).bind fun m => fs.go m (p ++ q)) =
      (if c = ".".toList then fs.go n p else (fs.step n c).bind fun m => fs.go m p).bind fun m => fs.go m q
    by_cases h : c = ".".toList
    · rw [if_pos h, if_pos h]; exact ih n
    · rw [if_neg h, if_neg h]
      cases fs.step n c with
      | none => rfl
      | some m => exact ih m

theorem ascent_nonneg (p : Path) : 0 ≤ ascent p := ascentFrom_ge 0 0 p

/-- **C58** for a path that is not absolute and leaves the source directory: the new path leads, in every
file system and from every directory, to what the old one leads to from the source directory. -/
theorem C58_leaving_paths (fs : Dirs) (dir path new : Text) (hdir : dir.head? = some '/') (h : fixPath path dir = some new)
    (src base : fs.Node) (hsrc : fs.resolve base dir = some src) : fs.resolve base new = fs.resolve src path := by
  unfold fixPath at h
  by_cases hk : path.head? = some '/' ∨ ascent (components path) = 0
  · rw [if_pos hk] at h; cases h
  · rw [if_neg hk] at h
    cases h
    have hrel : path.head? ≠ some '/' := fun e => hk (.inl e)
    unfold Dirs.resolve at hsrc ⊢
    rw [if_pos hdir, components_abs hdir] at hsrc
    rw [if_pos (pushText_head hdir), if_neg hrel, components_abs (pushText_head hdir), pushText_segments, go_append, hsrc,
      go_components fs src hrel]
    rfl

theorem denotes_push (copy : List Text) {dir path : Text} (hdir : dir.head? = some '/') (hrel : path.head? ≠ some '/') (base : List Text) :
    denotes copy (pushText dir path) = denotes (denotes base dir) path := by
  unfold denotes
  rw [if_pos (pushText_head hdir), if_neg hrel, if_pos hdir, components_abs hdir, components_abs (pushText_head hdir), pushText_segments,
    follow_append, follow_components _ hrel]

/-- Following a path that stays inside does the same in another directory. -/
theorem follow_stays (below base : List Text) (rel : Path) (h : StaysFrom (below ++ base) base rel) (hb : base ≠ []) (other : List Text) :
    ∃ b, follow (below ++ base) rel = b ++ base ∧ follow (below ++ other) rel = b ++ other := by
  induction rel generalizing below with
  | nil => exact ⟨below, rfl, rfl⟩
  | cons c rest ih =>
    rw [staysFrom_cons] at h
    have h2 := h.2
    unfold follow at h2 ⊢
    unfold follow at h2
    by_cases h1 : c = "..".toList
    · rw [if_pos h1] at h2
      rw [if_pos h1, if_pos h1]
      cases below with
      | nil =>
        obtain ⟨b, hb'⟩ := h2 [] List.nil_prefix
        have hl := congrArg List.length hb'
        cases base with
        | nil => exact absurd rfl hb
        | cons x base => simp [follow] at hl; omega
      | cons x below => exact ih below h2
    · rw [if_neg h1] at h2
      rw [if_neg h1, if_neg h1]
      by_cases h3 : c = ".".toList
      · rw [if_pos h3] at h2
        rw [if_pos h3, if_pos h3]
        exact ih below h2
      · rw [if_neg h3] at h2
        rw [if_neg h3, if_neg h3]
        exact ih (c :: below) h2

/-- A path that is relative and stays inside the source, or that denotes something outside of it. -/
def Handled (source : List Text) (path : Text) : Prop :=
  (path.head? ≠ some '/' ∧ StaysInside source (components path)) ∨ ¬ ∃ below, denotes source path = below ++ source

theorem fixPath_moved (dir path : Text) (source copy : List Text) (hdir : dir.head? = some '/') (hsrc : denotes [] dir = source)
    (hne : source ≠ []) (h : Handled source path) : Moved source copy path ((fixPath path dir).getD path) := by
  unfold fixPath
  by_cases hk : path.head? = some '/' ∨ ascent (components path) = 0
  · rw [if_pos hk, Option.getD_none]
    by_cases ha : path.head? = some '/'
    · -- an absolute path is the same
      have e : denotes copy path = denotes source path := by unfold denotes; rw [if_pos ha, if_pos ha]
      rcases h with ⟨h, _⟩ | h
      · exact absurd ha h
      · exact ⟨fun below hb => absurd ⟨below, hb⟩ h, fun _ => e⟩
    · have h0 : ascent (components path) ≤ 0 := by rcases hk with hk | hk; exact absurd hk ha; omega
      have hin := (C44_check_is_exact (components path) source hne).1 h0
      obtain ⟨b, h1, h2⟩ := follow_stays [] source (components path) hin hne copy
      unfold Moved denotes
      rw [if_neg ha, if_neg ha]
      refine ⟨?_, fun hno => absurd ⟨b, h1⟩ hno⟩
      intro below hb
      rw [List.nil_append] at h1 h2
      rw [h1] at hb
      rw [h2, List.append_cancel_right hb]
  · rw [if_neg hk, Option.getD_some]
    have hrel : path.head? ≠ some '/' := fun e => hk (.inl e)
    have e : denotes copy (pushText dir path) = denotes source path := by rw [denotes_push copy hdir hrel [], hsrc]
    rcases h with ⟨_, h⟩ | h
    · have := (C44_check_is_exact (components path) source hne).2 h
      have := ascent_nonneg (components path)
      exact absurd (.inr (by omega)) hk
    · exact ⟨fun below hb => absurd ⟨below, hb⟩ h, fun _ => e⟩

/-! ### Documents -/

/-- The same value, or both tables. -/
def SameLeaf (a b : Option Toml) : Prop := a = b ∨ ∃ es es', a = some (.table es) ∧ b = some (.table es')

theorem SameLeaf.trans {a b c : Option Toml} (h : SameLeaf a b) (h' : SameLeaf b c) : SameLeaf a c := by
  rcases h with rfl | ⟨es, es', rfl, rfl⟩
  · exact h'
  · rcases h' with rfl | ⟨fs, fs', _, rfl⟩
    · exact .inr ⟨es, es', rfl, rfl⟩
    · exact .inr ⟨es, fs', rfl, rfl⟩

theorem SameLeaf.map {a b : Option Toml} (h : SameLeaf a b) (dir : Text) :
    SameLeaf (a.map (fixPathValue dir)) (b.map (fixPathValue dir)) := by
  rcases h with rfl | ⟨es, es', rfl, rfl⟩
  · exact .inl rfl
  · exact .inr ⟨es, es', rfl, rfl⟩

/-- A change of documents that fixes the paths at some places and nothing else. -/
def FixesAt (dir : Text) (P : List Text → Prop) (g : Toml → Toml) : Prop :=
  ∀ v loc, (P loc → SameLeaf (place (g v) loc) ((place v loc).map (fixPathValue dir))) ∧ (¬ P loc → SameLeaf (place (g v) loc) (place v loc))

theorem place_cons (v : Toml) (k : Text) (ks : List Text) : place v (k :: ks) = (place v [k]).bind fun x => place x ks := by
  cases v with
  | table es =>
    show (es.lookup k).bind _ = ((es.lookup k).bind _).bind _
    cases es.lookup k with
    | none => rfl
    | some x => cases x <;> rfl
  | _ => rfl

theorem lookup_map (f : Text → Toml → Toml) (es : List (Text × Toml)) (k : Text) :
    (es.map fun (k, v) => (k, f k v)).lookup k = (es.lookup k).map (f k) := by
  induction es with
  | nil => rfl
  | cons e es ih =>
    obtain ⟨k', v⟩ := e
    rw [List.map_cons, List.lookup_cons, List.lookup_cons]
    cases hk : k == k' with
    | true => cases (beq_iff_eq.1 hk); rfl
    | false => exact ih

theorem place_updateEntry (key : Text) (f : Toml → Toml) (v : Toml) (k : Text) :
    place (updateEntry key f v) [k] = (place v [k]).map fun x => if k = key then f x else x := by
  cases v with
  | table es =>
    show ((updateKey key f es).lookup k).bind _ = ((es.lookup k).bind _).map _
    unfold updateKey
    rw [lookup_map (fun k v => if k = key then f v else v)]
    cases es.lookup k with
    | none => rfl
    | some x =>
      show place _ [] = ((place x []).map _)
      rfl
  | _ => rfl

theorem place_updateEach (f : Toml → Toml) (v : Toml) (k : Text) : place (updateEach f v) [k] = (place v [k]).map f := by
  cases v with
  | table es =>
    show ((es.map fun (k, v) => (k, f v)).lookup k).bind _ = ((es.lookup k).bind _).map _
    rw [lookup_map (fun _ v => f v)]
    cases es.lookup k with
    | none => rfl
    | some x => rfl
  | _ => rfl

theorem place_nil_update {v w : Toml} (h : (∃ es es', v = .table es ∧ w = .table es') ∨ v = w) : SameLeaf (place v []) (place w []) := by
  rcases h with ⟨es, es', rfl, rfl⟩ | rfl
  · exact .inr ⟨es, es', rfl, rfl⟩
  · exact .inl rfl

theorem fixes_value (dir : Text) : FixesAt dir (· = []) (fixPathValue dir) := by
  intro v loc
  constructor
  · rintro rfl; exact .inl rfl
  · intro h
    cases loc with
    | nil => exact absurd rfl h
    | cons k ks => cases v <;> exact .inl rfl

theorem fixes_entry (dir : Text) (key : Text) {P : List Text → Prop} {g : Toml → Toml} (h : FixesAt dir P g) :
    FixesAt dir (fun loc => ∃ ks, loc = key :: ks ∧ P ks) (updateEntry key g) := by
  intro v loc
  cases loc with
  | nil =>
    refine ⟨fun ⟨_, e, _⟩ => (by cases e), fun _ => place_nil_update ?_⟩
    cases v with
    | table es => exact .inl ⟨_, _, rfl, rfl⟩
    | _ => exact .inr rfl
  | cons k ks =>
    rw [place_cons, place_updateEntry, place_cons v k ks]
    cases place v [k] with
    | none => exact ⟨fun _ => .inl rfl, fun _ => .inl rfl⟩
    | some x =>
      show (_ → SameLeaf (place (if k = key then g x else x) ks) ((place x ks).map _)) ∧ (_ → SameLeaf (place (if k = key then g x else x) ks) (place x ks))
      by_cases hk : k = key
      · rw [if_pos hk]
        subst hk
        refine ⟨?_, ?_⟩
        · rintro ⟨_, e, hp⟩; cases e; exact (h x ks).1 hp
        · intro hn; exact (h x ks).2 fun hp => hn ⟨ks, rfl, hp⟩
      · rw [if_neg hk]
        exact ⟨fun ⟨_, e, _⟩ => (by cases e; exact absurd rfl hk), fun _ => .inl rfl⟩

theorem fixes_each (dir : Text) {P : List Text → Prop} {g : Toml → Toml} (h : FixesAt dir P g) :
    FixesAt dir (fun loc => ∃ k ks, loc = k :: ks ∧ P ks) (updateEach g) := by
  intro v loc
  cases loc with
  | nil =>
    refine ⟨fun ⟨_, _, e, _⟩ => (by cases e), fun _ => place_nil_update ?_⟩
    cases v with
    | table es => exact .inl ⟨_, _, rfl, rfl⟩
    | _ => exact .inr rfl
  | cons k ks =>
    rw [place_cons, place_updateEach, place_cons v k ks]
    cases place v [k] with
    | none => exact ⟨fun _ => .inl rfl, fun _ => .inl rfl⟩
    | some x =>
      show (_ → SameLeaf (place (g x) ks) ((place x ks).map _)) ∧ (_ → SameLeaf _ (place x ks))
      refine ⟨?_, ?_⟩
      · rintro ⟨_, _, e, hp⟩; cases e; exact (h x ks).1 hp
      · intro hn; exact (h x ks).2 fun hp => hn ⟨k, ks, rfl, hp⟩

theorem fixes_both (dir : Text) {P Q : List Text → Prop} {g g' : Toml → Toml} (h : FixesAt dir P g) (h' : FixesAt dir Q g')
    (hd : ∀ loc, P loc → ¬ Q loc) : FixesAt dir (fun loc => P loc ∨ Q loc) (fun v => g' (g v)) := by
  intro v loc
  constructor
  · rintro (hp | hq)
    · exact ((h' (g v) loc).2 (hd loc hp)).trans ((h v loc).1 hp)
    · exact ((h' (g v) loc).1 hq).trans (((h v loc).2 fun hp => hd loc hp hq).map dir)
  · intro hn
    exact ((h' (g v) loc).2 fun hq => hn (.inr hq)).trans ((h v loc).2 fun hp => hn (.inl hp))

/-- The places that are looked at. -/
def FixedPlace (loc : List Text) : Prop :=
  (∃ name, loc = ["dependencies".toList, name, "path".toList]) ∨ (∃ name, loc = ["replace".toList, name, "path".toList]) ∨
  ∃ source name, loc = ["patch".toList, source, name, "path".toList]

theorem fixes_manifest (dir : Text) : FixesAt dir FixedPlace (fixedManifest dir) := by
  have hv := fixes_each dir (fixes_entry dir "path".toList (fixes_value dir))
  have hd := fixes_entry dir "dependencies".toList hv
  have hr := fixes_entry dir "replace".toList hv
  have hp := fixes_entry dir "patch".toList (fixes_each dir hv)
  have key : ∀ {a b : Text} {ks ls : List Text} {loc : List Text}, a ≠ b → loc = a :: ks → loc = b :: ls → False := by
    intro a b ks ls loc hab e e'
    rw [e] at e'; cases e'; exact hab rfl
  have h := fixes_both dir (fixes_both dir hd hr (by
    rintro loc ⟨_, e, _⟩ ⟨_, e', _⟩; exact key (by decide) e e')) hp (by
    rintro loc (⟨_, e, _⟩ | ⟨_, e, _⟩) ⟨_, e', _⟩ <;> exact key (by decide) e e')
  intro v loc
  have hiff : FixedPlace loc ↔ ((∃ ks, loc = "dependencies".toList :: ks ∧ ∃ k ks_1, ks = k :: ks_1 ∧ ∃ ks, ks_1 = "path".toList :: ks ∧ ks = []) ∨
      ∃ ks, loc = "replace".toList :: ks ∧ ∃ k ks_1, ks = k :: ks_1 ∧ ∃ ks, ks_1 = "path".toList :: ks ∧ ks = []) ∨
      ∃ ks, loc = "patch".toList :: ks ∧ ∃ k ks_1, ks = k :: ks_1 ∧ ∃ k ks, ks_1 = k :: ks ∧ ∃ ks_1, ks = "path".toList :: ks_1 ∧ ks_1 = [] := by
    constructor
    · rintro (⟨n, rfl⟩ | ⟨n, rfl⟩ | ⟨s, n, rfl⟩)
      · exact .inl (.inl ⟨_, rfl, _, _, rfl, _, rfl, rfl⟩)
      · exact .inl (.inr ⟨_, rfl, _, _, rfl, _, rfl, rfl⟩)
      · exact .inr ⟨_, rfl, _, _, rfl, _, _, rfl, _, rfl, rfl⟩
    · rintro ((⟨_, rfl, n, _, rfl, _, rfl, rfl⟩ | ⟨_, rfl, n, _, rfl, _, rfl, rfl⟩) | ⟨_, rfl, s, _, rfl, n, _, rfl, _, rfl, rfl⟩)
      · exact .inl ⟨n, rfl⟩
      · exact .inr (.inl ⟨n, rfl⟩)
      · exact .inr (.inr ⟨s, n, rfl⟩)
  rw [hiff]
  exact h v loc

theorem SameLeaf.str {a : Option Toml} {s : Text} (h : SameLeaf a (some (.str s))) : a = some (.str s) := by
  rcases h with h | ⟨_, _, _, h⟩
  · exact h
  · cases h

/-- **C58** in full: all paths of dependencies in the top manifest. -/
def C58_full : Prop := ∀ (v : Toml) (dir : Text) (source copy : List Text), dir.head? = some '/' → denotes [] dir = source → source ≠ [] →
  ∀ loc, DependencyPath loc → ∀ s, place v loc = some (.str s) →
    ∃ s', place (fixedManifest dir v) loc = some (.str s') ∧ Moved source copy s s'

/-- **C58** for `dependencies`, `replace` and `patch`, and paths that do not lead into the source tree from
outside of it. The other tables of dependencies are missing. -/
theorem C58_paths_partial (v : Toml) (dir : Text) (source copy : List Text) (hdir : dir.head? = some '/')
    (hsrc : denotes [] dir = source) (hne : source ≠ []) (loc : List Text) (hloc : FixedPlace loc) (s : Text)
    (hs : place v loc = some (.str s)) (h : Handled source s) :
    ∃ s', place (fixedManifest dir v) loc = some (.str s') ∧ Moved source copy s s' := by
  have := (fixes_manifest dir v loc).1 hloc
  rw [hs] at this
  exact ⟨_, this.str, fixPath_moved dir s source copy hdir hsrc hne h⟩

theorem fixedPlace_dependency {loc : List Text} (h : FixedPlace loc) : DependencyPath loc := by
  rcases h with ⟨n, rfl⟩ | ⟨n, rfl⟩ | ⟨s, n, rfl⟩
  · exact .normal _ n (List.mem_cons_self ..)
  · exact .replace n
  · exact .patch s n

/-- **C58**: everything else is unchanged: what is not a table is the same at every other place, and
there are the same tables. So is what is not a string. -/
theorem C58_rest (v : Toml) (dir : Text) (loc : List Text) (hloc : ¬ FixedPlace loc ∨ ∀ s, place v loc ≠ some (.str s)) :
    (∀ x, (∀ es, x ≠ .table es) → (place (fixedManifest dir v) loc = some x ↔ place v loc = some x)) ∧
    ((∃ es, place (fixedManifest dir v) loc = some (.table es)) ↔ ∃ es, place v loc = some (.table es)) := by
  have h : SameLeaf (place (fixedManifest dir v) loc) (place v loc) := by
    by_cases hf : FixedPlace loc
    · rcases hloc with hn | hn
      · exact absurd hf hn
      · have e : (place v loc).map (fixPathValue dir) = place v loc := by
          cases hv : place v loc with
          | none => rfl
          | some x =>
            cases x with
            | str s => exact absurd hv (hn s)
            | _ => rfl
        have := (fixes_manifest dir v loc).1 hf
        rwa [e] at this
    · exact (fixes_manifest dir v loc).2 hf
  rcases h with h | ⟨es, es', h, h'⟩
  · rw [h]; exact ⟨fun _ _ => Iff.rfl, Iff.rfl⟩
  · rw [h, h']
    refine ⟨fun x hx => ⟨fun e => ?_, fun e => ?_⟩, fun _ => ⟨_, rfl⟩, fun _ => ⟨_, rfl⟩⟩
    · cases e; exact absurd rfl (hx es)
    · cases e; exact absurd rfl (hx es')

/-- A manifest with one dependency. -/
def sampleManifest (table : String) (path : String) : Toml :=
  .table [("package".toList, .table [("name".toList, .str "p".toList)]),
    (table.toList, .table [("x".toList, .table [("version".toList, .str "1".toList), ("path".toList, .str path.toList)])])]

/-- **C58** is false for dependencies of tests: `../x` is left, and is then next to the copy. -/
theorem C58_dev_dependencies_false : ¬ C58_full := by
  intro h
  obtain ⟨s, h1, _, h2⟩ := h (sampleManifest "dev-dependencies" "../x") "/w/proj".toList ["proj".toList, "w".toList] ["tmp".toList] rfl
    (by decide) (by decide) ["dev-dependencies".toList, "x".toList, "path".toList] (.normal _ _ (by decide)) "../x".toList (by rfl)
  have e : place (fixedManifest "/w/proj".toList (sampleManifest "dev-dependencies" "../x")) ["dev-dependencies".toList, "x".toList, "path".toList] =
      some (.str "../x".toList) := by rfl
  rw [e] at h1
  cases h1
  have := h2 (by
    rintro ⟨below, hb⟩
    have e : denotes ["proj".toList, "w".toList] "../x".toList = ["x".toList, "w".toList] := by decide
    rw [e] at hb
    match below, hb with
    | [], hb => exact absurd hb (by decide)
    | [_], hb => cases congrArg List.length hb
    | _ :: _ :: below, hb => have := congrArg List.length hb; simp at this)
  exact absurd this (by decide)

/-- **C58** is false also for a path into the source tree through its parent: it means the source
itself and not the copy. -/
theorem C58_into_tree_false : ¬ C58_full := by
  intro h
  obtain ⟨s, h1, h2, _⟩ := h (sampleManifest "dependencies" "../proj/x") "/w/proj".toList ["proj".toList, "w".toList] ["tmp".toList] rfl
    (by decide) (by decide) ["dependencies".toList, "x".toList, "path".toList] (.normal _ _ (by decide)) "../proj/x".toList (by rfl)
  have e : place (fixedManifest "/w/proj".toList (sampleManifest "dependencies" "../proj/x")) ["dependencies".toList, "x".toList, "path".toList] =
      some (.str "/w/proj/../proj/x".toList) := by rfl
  rw [e] at h1
  cases h1
  exact absurd (h2 ["x".toList] (by decide)) (by decide)

/-- Examples of paths that are handled. -/
example : Handled ["proj".toList, "w".toList] "a/../b".toList := .inl ⟨by decide, (C44_check_is_exact _ _ (by simp)).1 (by decide)⟩
example : Handled ["proj".toList, "w".toList] "../x".toList := by
  refine .inr ?_
  rintro ⟨below, hb⟩
  have e : denotes ["proj".toList, "w".toList] "../x".toList = ["x".toList, "w".toList] := by decide
  rw [e] at hb
  match below, hb with
  | [], hb => exact absurd hb (by decide)
  | [_], hb => cases congrArg List.length hb
  | _ :: _ :: below, hb => have := congrArg List.length hb; simp at this

/-! ### The configuration of cargo -/

/-- **C58** for the configuration of cargo: each of the `paths` is fixed, and nothing else changes. -/
theorem C58_config_partial (v : Toml) (dir : Text) (source copy : List Text) (hdir : dir.head? = some '/')
    (hsrc : denotes [] dir = source) (hne : source ≠ []) :
    (∀ items, place v ["paths".toList] = some (.array items) → ∃ items', place (fixedConfig dir v) ["paths".toList] = some (.array items') ∧
      items'.length = items.length ∧
      ∀ (i : Nat) (s : Text), items[i]? = some (.str s) → ∃ s' : Text, items'[i]? = some (.str s') ∧ (Handled source s → Moved source copy s s')) ∧
    (∀ items (i : Nat) x, place v ["paths".toList] = some (.array items) → items[i]? = some x → (∀ s, x ≠ .str s) →
      ∃ items', place (fixedConfig dir v) ["paths".toList] = some (.array items') ∧ items'[i]? = some x) ∧
    ∀ k ks, k ≠ "paths".toList → place (fixedConfig dir v) (k :: ks) = place v (k :: ks) := by
  refine ⟨?_, ?_, ?_⟩
  · intro items h
    unfold fixedConfig
    rw [place_updateEntry, h]
    refine ⟨items.map (fixPathValue dir), rfl, List.length_map .., ?_⟩
    intro i s hi
    refine ⟨_, by rw [List.getElem?_map, hi]; rfl, fun hh => fixPath_moved dir s source copy hdir hsrc hne hh⟩
  · intro items i x h hi hx
    unfold fixedConfig
    rw [place_updateEntry, h]
    refine ⟨items.map (fixPathValue dir), rfl, ?_⟩
    rw [List.getElem?_map, hi]
    cases x with
    | str s => exact absurd rfl (hx s)
    | _ => rfl
  · intro k ks hk
    unfold fixedConfig
    rw [place_cons, place_updateEntry, place_cons v k ks]
    simp only [if_neg hk]
    cases place v [k] <;> rfl

/-! ### Files -/

mutual
theorem same_eq (a b : Toml) (h : a.same b = true) : a = b := by
  match a, b with
  | .str a, .str b => unfold Toml.same at h; rw [beq_iff_eq.1 h]
  | .scalar a, .scalar b => unfold Toml.same at h; rw [beq_iff_eq.1 h]
  | .array a, .array b => unfold Toml.same at h; rw [sameList_eq a b h]
  | .table a, .table b => unfold Toml.same at h; rw [sameEntries_eq a b h]
  | .str _, .scalar _ => cases h
  | .str _, .array _ => cases h
  | .str _, .table _ => cases h
  | .scalar _, .str _ => cases h
  | .scalar _, .array _ => cases h
  | .scalar _, .table _ => cases h
  | .array _, .str _ => cases h
  | .array _, .scalar _ => cases h
  | .array _, .table _ => cases h
  | .table _, .str _ => cases h
  | .table _, .scalar _ => cases h
  | .table _, .array _ => cases h
theorem sameList_eq (a b : List Toml) (h : Toml.sameList a b = true) : a = b := by
  match a, b with
  | [], [] => rfl
  | a :: as, b :: bs =>
    unfold Toml.sameList at h
    rw [Bool.and_eq_true] at h
    rw [same_eq a b h.1, sameList_eq as bs h.2]
  | [], _ :: _ => cases h
  | _ :: _, [] => cases h
theorem sameEntries_eq (a b : List (Text × Toml)) (h : Toml.sameEntries a b = true) : a = b := by
  match a, b with
  | [], [] => rfl
  | (k, a) :: as, (l, b) :: bs =>
    unfold Toml.sameEntries at h
    rw [Bool.and_eq_true, Bool.and_eq_true] at h
    rw [beq_iff_eq.1 h.1.1, same_eq a b h.1.2, sameEntries_eq as bs h.2]
  | [], _ :: _ => cases h
  | _ :: _, [] => cases h
end

theorem fixedConfig_same (dir : Text) (v : Toml) (h : configChanged dir v = false) : fixedConfig dir v = v := by
  cases v with
  | table es =>
    unfold configChanged at h
    show Toml.table _ = _
    congr 1
    unfold updateKey
    rw [List.any_eq_false] at h
    refine (List.map_congr_left (g := id) fun e he => ?_).trans (List.map_id _)
    obtain ⟨k, v⟩ := e
    have := h (k, v) he
    dsimp only at this ⊢
    by_cases hk : k = "paths".toList
    · rw [if_pos hk]
      cases v with
      | array items =>
        dsimp only at this ⊢
        have hi : ∀ x ∈ items, fixPathValue dir x = x := by
          intro x hx
          cases x with
          | str s =>
            have hs : (fixPath s dir).isSome = false := by
              cases hb : (fixPath s dir).isSome with
              | false => rfl
              | true =>
                exfalso
                apply this
                rw [hk]
                exact List.any_eq_true.2 ⟨_, hx, hb⟩
            show Toml.str _ = _
            rw [Option.isSome_eq_false_iff.1 hs |> Option.isNone_iff_eq_none.1]; rfl
          | _ => rfl
        rw [(List.map_congr_left (g := id) hi).trans (List.map_id _)]
        rfl
      | _ => rfl
    · rw [if_neg hk]; rfl
  | _ => rfl

theorem fixFile_some {parse : Text → Option Toml} {print : Toml → Text} {fix : Toml → Option Toml} {d d' : Dest} {p : Path}
    (h : fixFile parse print fix d p = some d') :
    ∃ text v, d p = some (.file text) ∧ parse text = some v ∧
      (fix v = none ∧ d' = d ∨ ∃ v', fix v = some v' ∧ d' = d.put p (.file (print v'))) := by
  unfold fixFile at h
  obtain ⟨text, h1, h⟩ := Option.bind_eq_some_iff.1 h
  obtain ⟨v, h2, h⟩ := Option.bind_eq_some_iff.1 h
  refine ⟨text, v, ?_, h2, ?_⟩
  · unfold Dest.read at h1
    cases hd : d p with
    | none => rw [hd] at h1; cases h1
    | some k => cases k <;> rw [hd] at h1 <;> cases h1; rfl
  · cases hf : fix v with
    | none => rw [hf] at h; cases h; exact .inl ⟨rfl, rfl⟩
    | some v' => rw [hf] at h; cases h; exact .inr ⟨v', rfl, rfl⟩

theorem build_dir (parse : Text → Option Toml) (print : Toml → Text) (dir : Text)
    (hpp : ∀ text v, parse text = some v → parse (print (fixedManifest dir v)) = some (fixedManifest dir v) ∧
      parse (print (fixedConfig dir v)) = some (fixedConfig dir v)) (o : Options)
    (ignored : Path → Bool → Bool) (source : Tree) (d' : Dest) (h : copyFrom parse print o ignored source dir = some d') :
    ∃ d, copyTree o ignored source = some d ∧
      (∀ p, p ≠ manifestFile → p ≠ configFile → d' p = d p) ∧
      (∃ text v text', d manifestFile = some (.file text) ∧ parse text = some v ∧ d' manifestFile = some (.file text') ∧
        parse text' = some (fixedManifest dir v)) ∧
      (d configFile = none ∧ d' configFile = none ∨
        ∃ text v text', d configFile = some (.file text) ∧ parse text = some v ∧ d' configFile = some (.file text') ∧
          parse text' = some (fixedConfig dir v)) := by
  unfold copyFrom at h
  obtain ⟨d, h1, h⟩ := Option.bind_eq_some_iff.1 h
  obtain ⟨d1, h2, h⟩ := Option.bind_eq_some_iff.1 h
  obtain ⟨text, v, ht, hv, hc⟩ := fixFile_some h2
  have hmc : manifestFile ≠ configFile := by decide
  have hd1 : ∀ p, p ≠ manifestFile → d1 p = d p := by
    intro p hp
    rcases hc with ⟨_, rfl⟩ | ⟨v', _, rfl⟩
    · rfl
    · exact if_neg hp
  have hm1 : ∃ text', d1 manifestFile = some (.file text') ∧ parse text' = some (fixedManifest dir v) := by
    rcases hc with ⟨hn, rfl⟩ | ⟨v', hs, rfl⟩
    · refine ⟨text, ht, ?_⟩
      unfold fixManifestToml at hn
      by_cases hb : (fixedManifest dir v).same v = true
      · rw [hv, same_eq _ _ hb]
      · dsimp only at hn; rw [if_neg hb] at hn; cases hn
    · refine ⟨print v', if_pos rfl, ?_⟩
      unfold fixManifestToml at hs
      by_cases hb : (fixedManifest dir v).same v = true
      · dsimp only at hs; rw [if_pos hb] at hs; cases hs
      · dsimp only at hs; rw [if_neg hb] at hs; cases hs; exact (hpp _ _ hv).1
  obtain ⟨text1, hm1, hm2⟩ := hm1
  refine ⟨d, h1, ?_⟩
  by_cases hcf : d1 configFile = none
  · rw [if_pos hcf] at h
    cases h
    exact ⟨fun p hp _ => hd1 p hp, ⟨text, v, text1, ht, hv, hm1, hm2⟩, .inl ⟨by rw [← hd1 _ hmc.symm]; exact hcf, hcf⟩⟩
  · rw [if_neg hcf] at h
    obtain ⟨ctext, cv, hct, hcv, hcc⟩ := fixFile_some h
    have hd2 : ∀ p, p ≠ configFile → d' p = d1 p := by
      intro p hp
      rcases hcc with ⟨_, rfl⟩ | ⟨v', _, rfl⟩
      · rfl
      · exact if_neg hp
    refine ⟨fun p hp hp' => by rw [hd2 p hp', hd1 p hp], ⟨text, v, text1, ht, hv, by rw [hd2 _ hmc]; exact hm1, hm2⟩, .inr ?_⟩
    refine ⟨ctext, cv, ?_⟩
    rw [← hd1 _ hmc.symm]
    unfold fixConfigToml at hcc
    rcases hcc with ⟨hn, rfl⟩ | ⟨v', hs, rfl⟩
    · refine ⟨ctext, hct, hcv, hct, ?_⟩
      by_cases hb : configChanged dir cv = true
      · rw [if_pos hb] at hn; cases hn
      · rw [fixedConfig_same dir cv (Bool.not_eq_true _ ▸ hb)]; exact hcv
    · refine ⟨print v', hct, hcv, if_pos rfl, ?_⟩
      by_cases hb : configChanged dir cv = true
      · rw [if_pos hb] at hs; cases hs; exact (hpp _ _ hcv).2
      · rw [if_neg hb] at hs; cases hs

/-- **C58**, **C57** for a build directory: it is the copy of the tree, in which only the manifest and the
configuration of cargo may have been written, and these are read as the fixed documents. The printer of
the library is assumed to print the documents that are fixed so that they are read back. -/
theorem C58_build_dir (parse : Text → Option Toml) (print : Toml → Text) (dir : Text)
    (hpp : ∀ text v, parse text = some v → parse (print (fixedManifest dir v)) = some (fixedManifest dir v) ∧
      parse (print (fixedConfig dir v)) = some (fixedConfig dir v)) (o : Options)
    (ignored : Path → Bool → Bool) (source : Tree) (d' : Dest) (h : copyFrom parse print o ignored source dir = some d') :
    ∃ d, copyTree o ignored source = some d ∧
      (∀ p, p ≠ cargoToml → p ≠ cargoConfig → d' p = d p) ∧
      (∃ text v text', d cargoToml = some (.file text) ∧ parse text = some v ∧ d' cargoToml = some (.file text') ∧
        parse text' = some (fixedManifest dir v)) ∧
      (d cargoConfig = none ∧ d' cargoConfig = none ∨
        ∃ text v text', d cargoConfig = some (.file text) ∧ parse text = some v ∧ d' cargoConfig = some (.file text') ∧
          parse text' = some (fixedConfig dir v)) :=
  build_dir parse print dir hpp o ignored source d' h

/-- A parser and printer that know two documents. -/
def sampleParse (t : Text) : Option Toml :=
  if t = "old".toList then some (sampleManifest "dependencies" "../x")
  else if t = "new".toList then some (sampleManifest "dependencies" "/w/p/../x") else none
def samplePrint (v : Toml) : Text :=
  match place v ["dependencies".toList, "x".toList, "path".toList] with
  | some (.str s) => if s = "../x".toList then "old".toList else "new".toList
  | _ => []

/-- These meet the hypothesis of `C58_build_dir`. -/
example (text : Text) (v : Toml) (h : sampleParse text = some v) :
    sampleParse (samplePrint (fixedManifest "/w/p".toList v)) = some (fixedManifest "/w/p".toList v) ∧
      sampleParse (samplePrint (fixedConfig "/w/p".toList v)) = some (fixedConfig "/w/p".toList v) := by
  unfold sampleParse at h
  by_cases h1 : text = "old".toList
  · rw [if_pos h1] at h; cases h; exact ⟨rfl, rfl⟩
  · rw [if_neg h1] at h
    by_cases h2 : text = "new".toList
    · rw [if_pos h2] at h; cases h; exact ⟨rfl, rfl⟩
    · rw [if_neg h2] at h; cases h

example : ((copyFrom sampleParse samplePrint {} (fun _ _ => false)
      (.dir (.cons "Cargo.toml".toList (.file "old".toList) (.cons "a".toList (.file "b".toList) .nil))) "/w/p".toList).map
        fun d => (d manifestFile, d ["a".toList], d configFile)) =
    some (some (.file "new".toList), some (.file "b".toList), none) := by decide +kernel

/-- C58 for the manifests of all packages of a workspace and not only the top one. -/
def C58_members : Prop :=
  ∀ (parse : Text → Option Toml) (print : Toml → Text) (dir : Text) (o : Options) (ignored : Path → Bool → Bool) (tree : Tree)
    (d d' : Dest) (source copy : List Text), dir.head? = some '/' → denotes [] dir = source → source ≠ [] →
    copyTree o ignored tree = some d → copyFrom parse print o ignored tree dir = some d' →
    ∀ (member : Path) (text : Text) (v : Toml) (loc : List Text) (s : Text), d (member ++ manifestFile) = some (.file text) →
      parse text = some v → loc = ["dependencies".toList, "x".toList, "path".toList] → place v loc = some (.str s) →
      ∃ text' v' s', d' (member ++ manifestFile) = some (.file text') ∧ parse text' = some v' ∧ place v' loc = some (.str s') ∧
        MovedAt source copy member s s'

/-- A workspace whose member `m` depends on `../../x`, which is next to the workspace. -/
def sampleTreeMember : Tree :=
  .dir (.cons "Cargo.toml".toList (.file "top".toList) (.cons "m".toList (.dir (.cons "Cargo.toml".toList (.file "member".toList) .nil)) .nil))

def sampleParseMember (t : Text) : Option Toml :=
  if t = "top".toList then some (.table []) else if t = "member".toList then some (sampleManifest "dependencies" "../../x") else none

/-- It is false: only the manifest in the root of the tree is fixed, and a member's dependency outside the tree is then looked for
next to the copy. -/
theorem C58_members_false : ¬ C58_members := by
  intro h
  have hd : ((copyTree {} (fun _ _ => false) sampleTreeMember).bind fun d =>
      (copyFrom sampleParseMember (fun _ => []) {} (fun _ _ => false) sampleTreeMember "/w/p".toList).map fun d' =>
        (d ["m".toList, "Cargo.toml".toList], d' ["m".toList, "Cargo.toml".toList])) =
      some (some (.file "member".toList), some (.file "member".toList)) := by decide +kernel
  obtain ⟨d, h1, hd⟩ := Option.bind_eq_some_iff.1 hd
  obtain ⟨d', h2, hd⟩ := Option.map_eq_some_iff.1 hd
  simp only [Prod.mk.injEq] at hd
  obtain ⟨text, v, s, g1, g2, g3, _, g4⟩ := h sampleParseMember (fun _ => []) "/w/p".toList {} (fun _ _ => false) sampleTreeMember d d'
    ["p".toList, "w".toList] ["tmp".toList] rfl (by decide) (by decide) h1 h2 ["m".toList] "member".toList
    (sampleManifest "dependencies" "../../x") _ "../../x".toList hd.1 rfl rfl rfl
  rw [show ["m".toList] ++ manifestFile = ["m".toList, "Cargo.toml".toList] from rfl, hd.2] at g1
  cases g1
  cases g2
  cases g3
  have e : denotes (follow ["p".toList, "w".toList] ["m".toList]) "../../x".toList = ["x".toList, "w".toList] := by decide
  have := g4 (by
    rintro ⟨below, hb⟩
    rw [e] at hb
    match below, hb with
    | [], hb => exact absurd hb (by decide)
    | [_], hb => cases congrArg List.length hb
    | _ :: _ :: below, hb => have := congrArg List.length hb; simp at this)
  rw [e] at this
  exact absurd this (by decide)

end CM.Props
