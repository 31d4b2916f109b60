import Verif.Spec.ModSource
import Verif.Spec.Path
/-! C46: `mod` statements resolve to the file that rustc would use. -/
namespace CM.Props
open CM CM.Spec

/-- **C46**: in every file of a crate, every `mod` statement for which rustc finds a file resolves to that
file. -/
def C46_full : Prop :=
  ∀ (isFile : Path → Bool) (mods : Path → List (List ModNamespace × ModNamespace)) (top : Path), top ≠ [] → Relative top →
    ∀ (sf : SourceFile) (c : DirCtx), Loaded isFile mods top sf.path c sf.isTop →
    ∀ parents m, (parents, m) ∈ mods sf.path →
    ∀ file c', Rustc isFile c parents m file c' → findModSource isFile sf (parents ++ [m]) = some (some file)

def sampleMod (name : String) (path : Option String) : ModNamespace := ⟨name.toList, path.map String.toList, ⟨⟨1, 1⟩, ⟨1, 9⟩⟩⟩

/-- Some files in a tree. -/
def sampleTree (files : List String) (p : Path) : Bool := files.any fun f => components f.toList == p

/-- A source file at a path. -/
def sampleAt (path : String) (isTop : Bool) : SourceFile := ⟨⟨[], [], [], []⟩, components path.toList, [], isTop⟩

/-- **C46** does not hold in full: a file named by a path attribute is like a `mod.rs` to rustc, which
looks for its modules next to it. Here `src/lib.rs` has `#[path = "foo_file.rs"] mod foo;` and
`src/foo_file.rs` has `mod bar;`. -/
theorem C46_path_files_false : ¬ C46_full := by
  intro h
  have := h (sampleTree ["src/lib.rs", "src/foo_file.rs", "src/bar.rs"])
    (fun f => if f = components "src/lib.rs".toList then [([], sampleMod "foo" (some "foo_file.rs"))]
      else if f = components "src/foo_file.rs".toList then [([], sampleMod "bar" none)] else [])
    (components "src/lib.rs".toList) (by decide) (by unfold Relative; decide)
    (sampleAt "src/foo_file.rs" false) ⟨components "src".toList, none⟩
    (.next (m := sampleMod "foo" (some "foo_file.rs")) (parents := []) .top (by decide) (DirCtx.External.path (p := "foo_file.rs".toList) rfl (by decide)))
    [] (sampleMod "bar" none) (by decide) (components "src/bar.rs".toList) ⟨components "src".toList, some "bar".toList⟩
    (DirCtx.External.file rfl (by decide) (by decide))
  exact absurd this (by decide)

/-- **C46** does not hold in full: a path attribute on an inline module is relative to the directory of the
file for rustc, and not to the directory of the module. Here `src/lib.rs` has `mod foo;` and `src/foo.rs`
has `#[path = "x"] mod a { mod b; }`. -/
theorem C46_inline_path_false : ¬ C46_full := by
  intro h
  have := h (sampleTree ["src/lib.rs", "src/foo.rs", "src/x/b.rs"])
    (fun f => if f = components "src/lib.rs".toList then [([], sampleMod "foo" none)]
      else if f = components "src/foo.rs".toList then [([sampleMod "a" (some "x")], sampleMod "b" none)] else [])
    (components "src/lib.rs".toList) (by decide) (by unfold Relative; decide)
    (sampleAt "src/foo.rs" false) ⟨components "src".toList, some "foo".toList⟩
    (.next (m := sampleMod "foo" none) (parents := []) .top (by decide) (DirCtx.External.file rfl (by decide) (by decide)))
    [sampleMod "a" (some "x")] (sampleMod "b" none) (by decide) (components "src/x/b.rs".toList) ⟨components "src/x".toList, some "b".toList⟩
    (DirCtx.External.file rfl (by decide) (by decide))
  exact absurd this (by decide)

/-- A file that `find_mod_source` takes to be in the directory of its own module. -/
def IsModRs (sf : SourceFile) : Prop := sf.isTop = true ∨ sf.path.getLast? = some "mod.rs".toList

/-- rustc looks where the file's path says. -/
structure Agrees (c : DirCtx) (sf : SourceFile) : Prop where
  parent : parentPath sf.path = some c.dir
  modrs : IsModRs sf → c.relative = none
  other : ¬ IsModRs sf → c.own = withoutExtension sf.path

theorem foldl_inline (ms : List ModNamespace) (d : Path) :
    ms.foldl DirCtx.inline ⟨d, none⟩ = ⟨ms.foldl (fun dir m => pushPath dir m.filesystemName) d, none⟩ := by
  induction ms generalizing d with
  | nil => rfl
  | cons m rest ih =>
    rw [List.foldl_cons, List.foldl_cons]
    have : DirCtx.inline ⟨d, none⟩ m = ⟨pushPath d m.filesystemName, none⟩ := by
      unfold DirCtx.inline ModNamespace.filesystemName DirCtx.own
      cases m.pathAttribute <;> rfl
    rw [this, ih]

/-- The directory that a module is looked for in. -/
theorem searchDir_eq (sf : SourceFile) (c : DirCtx) (h : Agrees c sf) (parents : List ModNamespace) (m : ModNamespace)
    (hp : c.relative = none ∨ ∀ q, parents.head? = some q → q.pathAttribute = none) :
    ∃ d0, modSearchDir sf m parents = some d0 ∧
      parents.foldl (fun dir m => pushPath dir m.filesystemName) d0 =
        match m.pathAttribute with
        | some _ => (parents.foldl DirCtx.inline c).dir
        | none => (parents.foldl DirCtx.inline c).own := by
  have hcond : (sf.isTop || sf.path.getLast? == some "mod.rs".toList) = true ↔ IsModRs sf := by
    simp [IsModRs]
  cases parents with
  | nil =>
    by_cases hm : IsModRs sf
    · have := hcond.2 hm
      refine ⟨c.dir, ?_, ?_⟩
      · rw [modSearchDir, this, Bool.true_or, if_pos rfl, h.parent]
      · cases m.pathAttribute with
        | some _ => rfl
        | none => simp [DirCtx.own, h.modrs hm]
    · have hc : (sf.isTop || sf.path.getLast? == some "mod.rs".toList) = false := by
        cases he : (sf.isTop || sf.path.getLast? == some "mod.rs".toList) with
        | false => rfl
        | true => exact absurd (hcond.1 he) hm
      cases hpa : m.pathAttribute with
      | some p => exact ⟨c.dir, by simp [modSearchDir, hpa, h.parent], rfl⟩
      | none => exact ⟨withoutExtension sf.path, by rw [modSearchDir, hc]; simp [hpa], by simp [h.other hm]⟩
  | cons q rest =>
    have step : ∀ d0, d0 = c.own → (q :: rest).foldl (fun dir m => pushPath dir m.filesystemName) d0 =
        match m.pathAttribute with
        | some _ => ((q :: rest).foldl DirCtx.inline c).dir
        | none => ((q :: rest).foldl DirCtx.inline c).own := by
      intro d0 hd
      have hq : c.inline q = ⟨pushPath d0 q.filesystemName, none⟩ := by
        unfold DirCtx.inline ModNamespace.filesystemName
        cases hqp : q.pathAttribute with
        | none => rw [hd]
        | some p =>
          rcases hp with hp | hp
          · simp [hd, DirCtx.own, hp]
          · have := hp q rfl
            rw [hqp] at this; cases this
      rw [List.foldl_cons, List.foldl_cons, hq, foldl_inline]
      cases m.pathAttribute <;> rfl
    by_cases hm : IsModRs sf
    · have := hcond.2 hm
      refine ⟨c.dir, ?_, step _ ?_⟩
      · rw [modSearchDir, this, Bool.true_or, if_pos rfl, h.parent]
      · simp [DirCtx.own, h.modrs hm]
    · have hc : (sf.isTop || sf.path.getLast? == some "mod.rs".toList) = false := by
        cases he : (sf.isTop || sf.path.getLast? == some "mod.rs".toList) with
        | false => rfl
        | true => exact absurd (hcond.1 he) hm
      exact ⟨withoutExtension sf.path, by rw [modSearchDir, hc]; simp, step _ (h.other hm).symm⟩

/-- The files that are tried. -/
theorem find_eq (isFile : Path → Bool) (sf : SourceFile) (c : DirCtx) (h : Agrees c sf) (parents : List ModNamespace) (m : ModNamespace)
    (hp : c.relative = none ∨ ∀ q, parents.head? = some q → q.pathAttribute = none) :
    findModSource isFile sf (parents ++ [m]) = some (
      match m.pathAttribute with
      | some p => [pushPath (parents.foldl DirCtx.inline c).dir (components p)].find? isFile
      | none => [pushPath (parents.foldl DirCtx.inline c).own [m.name ++ ".rs".toList],
          pushPath (parents.foldl DirCtx.inline c).own [m.name, "mod.rs".toList]].find? isFile) := by
  obtain ⟨d0, h1, h2⟩ := searchDir_eq sf c h parents m hp
  unfold findModSource
  rw [List.getLast?_concat, List.dropLast_concat]
  simp only [Option.bind_eq_bind, Option.bind_some]
  rw [h1]
  simp only [Option.bind_some]
  rw [h2]
  cases m.pathAttribute <;> rfl

/-- **C46** for one file: if rustc looks where the file's path says, and the outermost of the inline
modules has no path attribute or the file is a `mod.rs`, then whatever file rustc finds is found. -/
theorem C46_resolves_partial (isFile : Path → Bool) (sf : SourceFile) (c : DirCtx) (h : Agrees c sf)
    (parents : List ModNamespace) (m : ModNamespace)
    (hp : c.relative = none ∨ ∀ q, parents.head? = some q → q.pathAttribute = none)
    (file : Path) (c' : DirCtx) (hr : Rustc isFile c parents m file c') :
    findModSource isFile sf (parents ++ [m]) = some (some file) := by
  rw [find_eq isFile sf c h parents m hp]
  cases hr with
  | path hpa hf => rw [hpa]; simp [hf]
  | file hpa hf hn => rw [hpa]; dsimp only; rw [List.find?_cons_of_pos hf]
  | modrs hpa hf hn =>
    rw [hpa]; dsimp only
    rw [List.find?_cons_of_neg (by rw [hf]; exact Bool.false_ne_true), List.find?_cons_of_pos hn]

/-- **C46** for one file, the other way: what is found is what rustc finds, unless there are two files, for
which rustc gives an error. -/
theorem C46_found_partial (isFile : Path → Bool) (sf : SourceFile) (c : DirCtx) (h : Agrees c sf)
    (parents : List ModNamespace) (m : ModNamespace)
    (hp : c.relative = none ∨ ∀ q, parents.head? = some q → q.pathAttribute = none) :
    ∃ r, findModSource isFile sf (parents ++ [m]) = some r ∧ ∀ file, r = some file →
      (∃ c', Rustc isFile c parents m file c') ∨
      (m.pathAttribute = none ∧ ∃ d, isFile (pushPath d [m.name ++ ".rs".toList]) = true ∧
        isFile (pushPath d [m.name, "mod.rs".toList]) = true ∧ file = pushPath d [m.name ++ ".rs".toList]) := by
  refine ⟨_, find_eq isFile sf c h parents m hp, ?_⟩
  intro file hf
  cases hpa : m.pathAttribute with
  | some p =>
    rw [hpa] at hf
    dsimp only at hf
    have h1 := List.find?_some hf
    have h2 := List.mem_of_find?_eq_some hf
    cases List.mem_singleton.1 h2
    exact .inl ⟨_, .path hpa h1⟩
  | none =>
    rw [hpa] at hf
    dsimp only at hf
    cases h1 : isFile (pushPath (parents.foldl DirCtx.inline c).own [m.name ++ ".rs".toList]) with
    | true =>
      rw [List.find?_cons_of_pos h1] at hf
      cases hf
      cases h2 : isFile (pushPath (parents.foldl DirCtx.inline c).own [m.name, "mod.rs".toList]) with
      | true => exact .inr ⟨rfl, _, h1, h2, rfl⟩
      | false => exact .inl ⟨_, .file hpa h1 h2⟩
    | false =>
      rw [List.find?_cons_of_neg (by rw [h1]; exact Bool.false_ne_true)] at hf
      have h2 := List.find?_some hf
      have h3 := List.mem_of_find?_eq_some hf
      cases List.mem_singleton.1 h3
      exact .inl ⟨_, .modrs hpa h1 h2⟩

/-- The name of a module: an identifier. -/
def ModName (n : Text) : Prop := n ≠ [] ∧ '/' ∉ n ∧ '.' ∉ n

theorem push_one {d : Path} {n : Text} (h1 : n ≠ "/".toList) (h2 : n ≠ ".".toList) : pushPath d [n] = d ++ [n] := by
  unfold pushPath
  by_cases h : d = []
  · subst h; simp
  · have h1' : ¬ n = ['/'] := h1
    have h2' : n ≠ dot := h2
    simp [h, h1', h2']

theorem push_two {d : Path} {n k : Text} (h1 : n ≠ "/".toList) (h2 : n ≠ ".".toList) (h3 : k ≠ ".".toList) :
    pushPath d [n, k] = d ++ [n, k] := by
  unfold pushPath
  by_cases h : d = []
  · subst h; simp
  · have h1' : ¬ n = ['/'] := h1
    have h2' : n ≠ dot := h2
    have h3' : k ≠ dot := h3
    simp [h, h1', h2', h3']

theorem modName_ne {n : Text} (h : ModName n) : n ≠ "/".toList ∧ n ≠ ".".toList ∧ n ++ ".rs".toList ≠ "/".toList ∧
    n ++ ".rs".toList ≠ ".".toList := by
  obtain ⟨h1, h2, h3⟩ := h
  refine ⟨?_, ?_, ?_, ?_⟩
  · rintro rfl; exact h2 (by simp)
  · rintro rfl; exact h3 (by simp)
  · intro e; have := congrArg List.length e; simp at this
  · intro e; have := congrArg List.length e; simp at this

theorem stem_rs {n : Text} (h : ModName n) : fileStem (n ++ ".rs".toList) = n := by
  unfold fileStem
  have e : (n ++ ".rs".toList).reverse = 's' :: 'r' :: '.' :: n.reverse := by simp
  have e2 : ((n ++ ".rs".toList).reverse.dropWhile (· ≠ '.')).drop 1 = n.reverse := by
    rw [e]; rfl
  rw [e2, List.reverse_reverse]
  have : ¬ (n = [] ∨ n ++ ".rs".toList = dotdot) := by
    rintro (h' | h')
    · exact h.1 h'
    · have := congrArg List.length h'; simp [dotdot] at this
  dsimp only
  rw [if_neg this]

/-- Modules for which the directory is known from the file's path: those without path attribute, and not
called `r#mod`, or for a path to a `mod.rs`; inline modules may have one except for the outermost. -/
def Plain46 (parents : List ModNamespace) (m : ModNamespace) : Prop :=
  ModName m.name ∧ m.name ≠ "mod".toList ∧ (∀ q, parents.head? = some q → q.pathAttribute = none) ∧
  (∀ p, m.pathAttribute = some p → (components p).getLast? = some "mod.rs".toList)

theorem agrees_of_rustc {isFile : Path → Bool} {c : DirCtx} {parents : List ModNamespace} {m : ModNamespace} {sf : SourceFile}
    {c' : DirCtx} (hp : Plain46 parents m) (h : Rustc isFile c parents m sf.path c') (ht : sf.isTop = false) : Agrees c' sf := by
  obtain ⟨hn, hmod, _, hpath⟩ := hp
  obtain ⟨n1, n2, n3, n4⟩ := modName_ne hn
  obtain ⟨pkg, path, code, top⟩ := sf
  dsimp only at *
  subst ht
  cases h with
  | @path p hpa hf =>
    have hl := hpath p hpa
    have hne : components p ≠ [] := by intro e; rw [e] at hl; cases hl
    have hlast : (pushPath (parents.foldl DirCtx.inline c).dir (components p)).getLast? = some "mod.rs".toList := by
      unfold pushPath
      obtain ⟨pre, hpre⟩ := List.getLast?_eq_some_iff.1 hl
      by_cases h1 : (components p).head? = some "/".toList
      · rw [if_pos h1]; exact hl
      · rw [if_neg h1]
        by_cases h2 : (parents.foldl DirCtx.inline c).dir = []
        · rw [if_pos h2]; exact hl
        · rw [if_neg h2, hpre, List.filter_append]
          have : ["mod.rs".toList].filter (fun x => decide (x ≠ dot)) = ["mod.rs".toList] := by decide
          rw [this, ← List.append_assoc, List.getLast?_concat]
    obtain ⟨pre, hpre⟩ := List.getLast?_eq_some_iff.1 hlast
    rw [hpre]
    refine ⟨?_, fun _ => rfl, fun hno => absurd (.inr (by simp)) hno⟩
    dsimp only
    unfold parentPath
    rw [if_neg]
    rintro (e | e)
    · simp at e
    · cases pre <;> simp at e
  | file hpa hf hnf =>
    rw [push_one n3 n4]
    refine ⟨?_, ?_, ?_⟩
    · show parentPath _ = some _
      unfold parentPath
      rw [if_neg, List.dropLast_concat]
      rintro (e | e)
      · simp at e
      · have := congrArg List.getLast? e
        rw [List.getLast?_concat] at this
        exact n3 (Option.some.inj this)
    · intro hm
      exfalso
      rcases hm with hm | hm
      · cases hm
      · dsimp only at hm
        rw [List.getLast?_concat] at hm
        have e : m.name ++ ".rs".toList = "mod".toList ++ ".rs".toList := Option.some.inj hm
        exact hmod (List.append_cancel_right e)
    · intro _
      show pushPath _ [m.name] = withoutExtension _
      unfold withoutExtension
      rw [List.getLast?_concat, List.dropLast_concat]
      dsimp only
      rw [stem_rs hn, push_one n1 n2]
  | modrs hpa hf hyes =>
    rw [push_two n1 n2 (by decide), push_one n1 n2]
    refine ⟨?_, fun _ => rfl, fun hno => absurd (.inr (by simp)) hno⟩
    dsimp only
    unfold parentPath
    rw [if_neg]
    · simp [List.dropLast_append]
    · rintro (e | e)
      · simp at e
      · have := congrArg List.getLast? e
        simp at this

/-- **C46**, for crates where path attributes are only used for files called `mod.rs` and on inline
modules that are not outermost: in every file, every `mod` statement for which rustc finds a file resolves
to that file. Missing are the cases of `C46_path_files_false` and `C46_inline_path_false`. -/
theorem C46_crate_partial (isFile : Path → Bool) (mods : Path → List (List ModNamespace × ModNamespace)) (top : Path)
    (hne : top ≠ []) (hrel : Relative top) (hplain : ∀ f parents m, (parents, m) ∈ mods f → Plain46 parents m)
    (sf : SourceFile) (c : DirCtx) (hl : Loaded isFile mods top sf.path c sf.isTop)
    (parents : List ModNamespace) (m : ModNamespace) (hm : (parents, m) ∈ mods sf.path)
    (file : Path) (c' : DirCtx) (hr : Rustc isFile c parents m file c') :
    findModSource isFile sf (parents ++ [m]) = some (some file) := by
  have hag : Agrees c sf := by
    obtain ⟨pkg, path, code, t⟩ := sf
    dsimp only at *
    cases hl with
    | top =>
      refine ⟨?_, fun _ => rfl, fun h => absurd (.inl rfl) h⟩
      dsimp only
      unfold parentPath
      rw [if_neg]
      rintro (e | e)
      · exact hne e
      · exact hrel (by rw [e]; rfl)
    | next hl' hm' hr' => exact agrees_of_rustc (sf := ⟨pkg, path, code, false⟩) (hplain _ _ _ hm') hr' rfl
  exact C46_resolves_partial isFile sf c hag parents m (.inr (hplain _ _ _ hm).2.2.1) file c' hr

/-- `mod a { mod b; }` in `src/foo.rs` -/
example : findModSource (sampleTree ["src/foo/a/b/mod.rs"]) (sampleAt "src/foo.rs" false) [sampleMod "a" none, sampleMod "b" none] =
    some (some (components "src/foo/a/b/mod.rs".toList)) := by decide
example : findModSource (sampleTree ["src/a/b.rs"]) (sampleAt "src/lib.rs" true) [sampleMod "a" none, sampleMod "b" none] =
    some (some (components "src/a/b.rs".toList)) := by decide
example : findModSource (sampleTree ["src/a/../x/b.rs"]) (sampleAt "src/mod.rs" false) [sampleMod "a" none, sampleMod "b" (some "./../x/b.rs")] =
    some (some (components "src/a/../x/b.rs".toList)) := by decide
/-- The hypotheses of `C46_crate_partial` are met: `src/lib.rs` has `mod foo;` and `src/foo.rs` has `mod a { mod b; }`. -/
example : let isFile := sampleTree ["src/lib.rs", "src/foo.rs", "src/foo/a/b.rs"]
    let mods := fun f => if f = components "src/lib.rs".toList then [([], sampleMod "foo" none)]
      else if f = components "src/foo.rs".toList then [([sampleMod "a" none], sampleMod "b" none)] else []
    (∀ f parents m, (parents, m) ∈ mods f → Plain46 parents m) ∧
    Loaded isFile mods (components "src/lib.rs".toList) (components "src/foo.rs".toList) ⟨components "src".toList, some "foo".toList⟩ false ∧
    ∃ c', Rustc isFile ⟨components "src".toList, some "foo".toList⟩ [sampleMod "a" none] (sampleMod "b" none) (components "src/foo/a/b.rs".toList) c' := by
  refine ⟨?_, .next (m := sampleMod "foo" none) (parents := []) .top (by decide) (DirCtx.External.file rfl (by decide) (by decide)),
    _, DirCtx.External.file rfl (by decide) (by decide)⟩
  intro f parents m h
  dsimp only at h
  split at h
  · cases List.mem_singleton.1 h
    exact ⟨⟨by decide, by decide, by decide⟩, by decide, (fun q h => nomatch h), (fun p h => nomatch h)⟩
  · split at h
    · cases List.mem_singleton.1 h
      exact ⟨⟨by decide, by decide, by decide⟩, by decide, (fun q h => by cases h; rfl), (fun p h => nomatch h)⟩
    · cases h

end CM.Props
