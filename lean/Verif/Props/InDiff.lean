import Verif.Proofs.Output
import Verif.Proofs.InDiff
import Verif.Props.Outcome
import Verif.Proofs.Text
/-! `--in-diff`: C19, C20, C21, C22. -/
namespace CM.Props
open CM CM.Spec

/-! ### C20 -/

/-- C20, full statement: for hunks that are in order and fit the file. -/
def AffectedLinesExact : Prop :=
  ∀ (len : Nat) (p : Patch), HunksFit len 1 p.hunks →
    (affectedLines p).Pairwise (· < ·) ∧
    ∀ n, n ∈ affectedLines p ↔ ∃ h ∈ p.hunks, AffectedBy len h n

/-- A diff without context that deletes one line after line 5. -/
def bareDeletion : Patch := ⟨"b/src/lib.rs".toList, [⟨5, [.remove "x".toList]⟩]⟩

/-- C20 is false for diffs without context (`git diff -U0`): deleting a line after line 5 affects
lines 5 and 6, and the program finds only line 4. -/
theorem C20_affected_lines_false : ¬ AffectedLinesExact := by
  intro h
  obtain ⟨_, h⟩ := h 9 bareDeletion (by decide)
  have h5 : 5 ∈ affectedLines bareDeletion := by
    rw [h]
    refine ⟨_, List.Mem.head _, ?_⟩
    exact ⟨[], .remove "x".toList, [], rfl, .inr ⟨⟨_, rfl⟩, .inl (by decide), by decide, by decide⟩⟩
  revert h5
  decide

/-- C20: if every hunk has context after its deletions (or they are at the end of the file), the
affected lines are exactly those that were added and those next to a deletion, in increasing
order. Missing: hunks without any new line, and deletions at the end of a hunk within the file. -/
theorem C20_affected_lines_partial (len : Nat) (p : Patch) (hfit : HunksFit len 1 p.hunks)
    (hctx : ∀ h ∈ p.hunks, WithContext len h) :
    (affectedLines p).Pairwise (· < ·) ∧
    ∀ n, n ∈ affectedLines p ↔ ∃ h ∈ p.hunks, AffectedBy len h n := by
  have h := affected_foldl len p.hunks [] 1 hfit hctx (by simp) (by simp)
  refine ⟨h.1, fun n => ?_⟩
  have := h.2 n
  simp only [List.not_mem_nil, false_or] at this
  exact this

/-- Two hunks: a replaced line and an added line; a deletion. -/
def samplePatch : Patch :=
  ⟨"b/src/lib.rs".toList,
   [⟨1, [.context "a".toList, .remove "x".toList, .add "b".toList, .add "c".toList, .context "d".toList]⟩,
    ⟨7, [.context "e".toList, .remove "y".toList, .remove "z".toList, .context "f".toList]⟩]⟩

example : affectedLines samplePatch = [1, 2, 3, 7, 8] := by decide

/-- A hunk that ends with a line of the new file has the context asked for. -/
theorem withContext_of_last (len : Nat) (h : Hunk) (l : DiffLine) (hl : h.lines.getLast? = some l)
    (hn : isNew l = true) : WithContext len h := by
  constructor
  · have : 1 ≤ newCount h.lines := newCount_pos_of_kept ⟨l, List.mem_of_getLast? hl, hn⟩
    omega
  · rintro ⟨pre, t, e⟩
    rw [e] at hl
    simp only [List.getLast?_append, List.getLast?_singleton, Option.some_or, Option.some.injEq] at hl
    subst hl
    cases hn

example : HunksFit 8 1 samplePatch.hunks ∧ ∀ h ∈ samplePatch.hunks, WithContext 8 h := by
  refine ⟨by decide, ?_⟩
  intro h hh
  rcases List.mem_cons.1 hh with rfl | hh
  · exact withContext_of_last _ _ (.context "d".toList) (by decide) rfl
  · rcases List.mem_cons.1 hh with rfl | hh
    · exact withContext_of_last _ _ (.context "f".toList) (by decide) rfl
    · cases hh

/-! ### C22: paths -/

theorem describes_iff (p : Patch) (path : Path) : DescribesFile p path ↔ stripPatchPath p.newPath = path := by
  unfold DescribesFile stripPatchPath
  cases components p.newPath with
  | nil =>
    constructor
    · rintro (h | ⟨h, _⟩)
      · cases h
      · exact h
    · rintro rfl; exact .inr ⟨rfl, by simp⟩
  | cons c rest =>
    simp only []
    by_cases hc : c = "b".toList
    · rw [if_pos hc]
      subst hc
      constructor
      · rintro (h | ⟨h, h2⟩)
        · exact (List.cons.inj h).2
        · subst h; exact absurd rfl h2
      · rintro rfl; exact .inl rfl
    · rw [if_neg hc]
      constructor
      · rintro (h | ⟨h, _⟩)
        · exact absurd (List.cons.inj h).1 hc
        · exact h
      · rintro rfl; exact .inr ⟨rfl, by simpa using hc⟩

/-- A mutant is kept only if the changed lines of a section for its file are found. -/
theorem kept_iff {patches : List Patch} {ms kept : List Mutant}
    (h : diffFilterPatches patches ms = some kept) :
    ∃ sel : Mutant → Bool, kept = ms.filter sel ∧ ∀ m, sel m = true ↔
      m.sourceFile.path ≠ devNull ∧ ∃ p ∈ patches, DescribesFile p m.sourceFile.path ∧
        probeLines (affectedLines p) m.span.start.line (m.span.stop.line + 1 - m.span.start.line) = true := by
  unfold diffFilterPatches at h
  split at h
  · obtain ⟨changed, h1, h2⟩ := Option.map_eq_some_iff.1 h
    refine ⟨_, h2.symm, fun m => ?_⟩
    have hl := linesChanged_spec patches [] changed h1 m.sourceFile.path
    simp only [List.lookup, reduceCtorEq, false_or, true_and] at hl
    constructor
    · intro hs
      split at hs
      · rename_i lines heq
        obtain ⟨h3, p, h4, h5, h6⟩ := (hl lines).1 heq
        exact ⟨h3, p, h4, (describes_iff _ _).2 h5, by rw [h6]; exact hs⟩
      · cases hs
    · rintro ⟨h3, p, h4, h5, h6⟩
      rw [(hl (affectedLines p)).2 ⟨h3, p, h4, (describes_iff _ _).1 h5, rfl⟩]
      exact h6
  · cases h

/-- C22: for every accepted diff, a mutant is kept only if the diff has a section for its file: one
whose new path is the path of the file, apart from a leading `b` component. -/
theorem C22_kept_are_named {patches : List Patch} {ms kept : List Mutant}
    (h : diffFilterPatches patches ms = some kept) :
    ∀ m ∈ kept, ∃ p ∈ patches,
      components p.newPath = "b".toList :: m.sourceFile.path ∨
      (components p.newPath = m.sourceFile.path ∧ m.sourceFile.path.head? ≠ some "b".toList) := by
  obtain ⟨sel, rfl, hsel⟩ := kept_iff h
  intro m hm
  obtain ⟨_, hm⟩ := List.mem_filter.1 hm
  obtain ⟨_, p, hp, hd, _⟩ := (hsel m).1 hm
  exact ⟨p, hp, hd⟩

/-- The text of a path of ordinary names has the names as its components. -/
theorem components_joined (path : Path) (hne : path ≠ [])
    (hp : ∀ c ∈ path, c ≠ [] ∧ c ≠ ".".toList ∧ '/' ∉ c) : components (joinWith "/".toList path) = path := by
  have hs : splitOn '/' (joinWith "/".toList path) = path :=
    splitOn_joinWith '/' path hne fun c hc => (hp c hc).2.2
  unfold components
  rw [hs]
  have hf : path.filter (fun c => c ≠ [] && c ≠ ".".toList) = path := by
    rw [List.filter_eq_self]
    intro c hc
    have := hp c hc
    simp only [Bool.and_eq_true, decide_eq_true_eq, ne_eq]
    exact ⟨this.1, this.2.1⟩
  rw [hf]
  obtain ⟨c, rest, rfl⟩ := List.exists_cons_of_ne_nil hne
  have hc := hp c (by simp)
  have h1 : (joinWith "/".toList (c :: rest)).head? ≠ some '/' := by
    obtain ⟨x, xs, rfl⟩ := List.exists_cons_of_ne_nil hc.1
    have hx : x ≠ '/' := fun e => hc.2.2 (by simp [e])
    cases rest <;> simp [joinWith, hx]
  rw [if_neg h1, if_neg (by simpa using hc.2.1), List.nil_append]

/-- C22: said of the texts: a section whose new path is a tree path as written with slashes, after `b/`
or without that if it does not begin with `b`, is about the file at that path and about no other. -/
theorem C22_named_as_written (p : Patch) (path q : Path) (hne : path ≠ [])
    (hp : ∀ c ∈ path, c ≠ [] ∧ c ≠ ".".toList ∧ '/' ∉ c)
    (h : p.newPath = "b/".toList ++ joinWith "/".toList path ∨
      (p.newPath = joinWith "/".toList path ∧ path.head? ≠ some "b".toList)) :
    DescribesFile p q ↔ q = path := by
  have hb : components ("b/".toList ++ joinWith "/".toList path) = "b".toList :: path := by
    have := components_joined ("b".toList :: path) (by simp) (by
      intro c hc
      rcases List.mem_cons.1 hc with rfl | hc
      · decide
      · exact hp c hc)
    obtain ⟨c, rest, rfl⟩ := List.exists_cons_of_ne_nil hne
    exact this
  unfold DescribesFile
  rcases h with h | ⟨h, hh⟩
  · rw [h, hb]
    constructor
    · rintro (h | ⟨h, h'⟩)
      · exact (List.cons.inj h).2.symm
      · rw [← h] at h'; exact absurd rfl h'
    · rintro rfl; exact .inl rfl
  · rw [h, components_joined path hne hp]
    constructor
    · rintro (h | ⟨h, _⟩)
      · rw [h] at hh; exact absurd rfl hh
      · exact h.symm
    · rintro rfl; exact .inr ⟨rfl, hh⟩

example : DescribesFile ⟨"b/src/lib.rs".toList, []⟩ ["src".toList, "lib.rs".toList] :=
  (C22_named_as_written _ ["src".toList, "lib.rs".toList] _ (by decide) (by decide) (.inl (by decide))).2 rfl

/-- A file in a directory that is itself called `b`: with the usual prefix it is found. -/
example : DescribesFile ⟨"b/b/lib.rs".toList, []⟩ ["b".toList, "lib.rs".toList] := .inl (by decide)

/-- … and with `--no-prefix` it is mistaken for the file outside that directory. -/
example : ¬ DescribesFile ⟨"b/lib.rs".toList, []⟩ ["b".toList, "lib.rs".toList] ∧
    DescribesFile ⟨"b/lib.rs".toList, []⟩ ["lib.rs".toList] := by
  constructor
  · rintro (h | ⟨_, h⟩)
    · revert h; decide
    · exact h rfl
  · exact .inl (by decide)

/-- C22: a diff with two sections for the same file is refused. -/
theorem C22_repeated_refused (a b c : List Patch) (p q : Patch) (path : Path) (ms : List Mutant)
    (hp : DescribesFile p path) (hq : DescribesFile q path) (hn : path ≠ ["/".toList, "dev".toList, "null".toList]) :
    diffFilterPatches (a ++ p :: b ++ q :: c) ms = none := by
  have hn : path ≠ devNull := hn
  unfold diffFilterPatches
  split
  · rw [Option.map_eq_none_iff]
    cases hr : linesChangedByPath [] (a ++ p :: b ++ q :: c) with
    | none => rfl
    | some r =>
      exfalso
      have := ((linesChanged_total (a ++ p :: b ++ q :: c) []).1 ⟨r, hr⟩).1
      rw [describes_iff] at hp hq
      simp only [List.map_append, List.map_cons, List.filter_append, List.append_assoc, List.cons_append] at this
      rw [List.filter_cons_of_pos (by simp [hp, hn]), List.filter_append,
        List.filter_cons_of_pos (by simp [hq, hn]), hp, hq] at this
      have := (List.nodup_append.1 this).2.1
      rw [List.nodup_cons] at this
      exact this.1 (by simp)
  · rfl

/-- If the new text agrees, a diff is refused for naming a file twice and for nothing else. -/
theorem refused_only_if_repeated (patches : List Patch) (ms : List Mutant)
    (hcheck : checkDiffNewTextMatches patches ms = true)
    (hnd : ((patches.map fun p => stripPatchPath p.newPath).filter
      (fun p => decide (p ≠ devNull))).Nodup) :
    ∃ kept, diffFilterPatches patches ms = some kept := by
  unfold diffFilterPatches
  rw [if_pos hcheck]
  obtain ⟨r, hr⟩ := (linesChanged_total patches []).2 ⟨hnd, by simp⟩
  rw [hr]
  exact ⟨_, rfl⟩

example : diffFilterPatches [samplePatch, samplePatch] [] = none := by decide

theorem linesChanged_skip (a b : List Patch) (p : Patch) (acc) (h : stripPatchPath p.newPath = devNull) :
    linesChangedByPath acc (a ++ p :: b) = linesChangedByPath acc (a ++ b) := by
  induction a generalizing acc with
  | nil => simp only [List.nil_append]; rw [linesChangedByPath]; simp only [h, if_true]
  | cons x a ih =>
    simp only [List.cons_append]
    unfold linesChangedByPath
    simp only [ih]

/-- C22: the sections of deleted files make no difference, wherever they are. -/
theorem C22_deleted_ignored (a b : List Patch) (p : Patch) (ms : List Mutant)
    (hp : p.newPath = "/dev/null".toList)
    (hms : ∀ m ∈ ms, m.sourceFile.path.head? ≠ some "/".toList) :
    diffFilterPatches (a ++ p :: b) ms = diffFilterPatches (a ++ b) ms := by
  have hd : stripPatchPath p.newPath = devNull := by rw [hp]; decide
  unfold diffFilterPatches
  rw [linesChanged_skip a b p [] hd]
  have : checkDiffNewTextMatches (a ++ p :: b) ms = checkDiffNewTextMatches (a ++ b) ms := by
    unfold checkDiffNewTextMatches
    simp only [List.all_append, List.all_cons]
    have hf : (ms.find? fun m => decide (m.sourceFile.path = stripPatchPath p.newPath)) = none := by
      rw [List.find?_eq_none]
      intro m hm e
      have e : m.sourceFile.path = devNull := by rw [← hd]; exact of_decide_eq_true e
      exact hms m hm (by rw [e]; rfl)
    rw [hf]
    simp
  rw [this]

example : diffFilterPatches [⟨"/dev/null".toList, [⟨0, [.remove "x".toList]⟩]⟩,
      ⟨"b/src/lib.rs".toList, [⟨1, [.add "fn f() -> bool { a() }".toList]⟩]⟩] [sampleMutant] =
    some [sampleMutant] := by decide

theorem joinWith_blank (ls : List Text) (h : ∀ l ∈ ls, isBlank l = true) :
    isBlank (joinWith "\n".toList ls) = true := by
  induction ls with
  | nil => rfl
  | cons l ls ih =>
    cases ls with
    | nil => exact h l (by simp)
    | cons m ls =>
      have : joinWith "\n".toList (l :: m :: ls) = l ++ "\n".toList ++ joinWith "\n".toList (m :: ls) := by
        simp [joinWith]
      rw [this]
      unfold isBlank at *
      rw [List.all_append, List.all_append, h l (by simp), ih (fun x hx => h x (by simp [hx]))]
      rfl

/-- Lines that end with LF or CRLF, joined as they are in a file. -/
theorem rustLines_ends (ls : List (Text × Bool)) (h : ∀ l ∈ ls, '\n' ∉ l.1 ∧ l.1.getLast? ≠ some '\r') :
    rustLines (ls.flatMap fun l => l.1 ++ if l.2 then "\r\n".toList else "\n".toList) = ls.map (·.1) := by
  unfold rustLines
  induction ls with
  | nil => rfl
  | cons l ls ih =>
    obtain ⟨h1, h2⟩ := h l List.mem_cons_self
    have ih := ih fun x hx => h x (List.mem_cons_of_mem _ hx)
    rw [List.flatMap_cons, List.map_cons, ← ih]
    cases hb : l.2 with
    | false => simpa [hb] using linesFrom_clean l.1 _ h1 h2
    | true =>
      have : '\n' ∉ l.1 ++ ['\r'] := by simpa using h1
      have := linesFrom_line [] (l.1 ++ ['\r'])
        (ls.flatMap fun l => l.1 ++ if l.2 then "\r\n".toList else "\n".toList) this
      simpa [stripCrRev] using this

theorem joinWith_lines (ls : List Text) : joinWith "\n".toList (ls ++ [[]]) = ls.flatMap fun l => l ++ "\n".toList := by
  induction ls with
  | nil => rfl
  | cons l ls ih =>
    rw [List.flatMap_cons, ← ih]
    cases ls <;> simp [joinWith]

/-- C22: a diff that has a line which is neither blank nor a note about a binary file is parsed as it is, without the notes
about binary files and with LF line ends; what is parsed is all that decides. -/
theorem C22_what_is_parsed (parse : Text → Option (List Patch)) (ms : List Mutant) (ls : List (Text × Bool))
    (hl : ∀ l ∈ ls, '\n' ∉ l.1 ∧ l.1.getLast? ≠ some '\r')
    (hb : ∃ l ∈ ls, ¬ "Binary files ".toList <+: l.1 ∧ ∃ c ∈ l.1, '!' ≤ c) :
    diffFilter parse ms (ls.flatMap fun l => l.1 ++ if l.2 then "\r\n".toList else "\n".toList) =
      (parse (((ls.map (·.1)).filter fun l => ¬ "Binary files ".toList <+: l).flatMap fun l => l ++ "\n".toList)).bind
        fun patches => diffFilterPatches patches ms := by
  have hf : fixedDiff (ls.flatMap fun l => l.1 ++ if l.2 then "\r\n".toList else "\n".toList) =
      ((ls.map (·.1)).filter fun l => ¬ "Binary files ".toList <+: l).flatMap fun l => l ++ "\n".toList := by
    unfold fixedDiff
    rw [rustLines_ends ls hl, joinWith_lines]
    congr 1
    refine List.filter_congr fun l _ => ?_
    generalize "Binary files ".toList = b
    cases hp : b.isPrefixOf l with
    | true => exact (decide_eq_false (not_not_intro (List.isPrefixOf_iff_prefix.1 hp))).symm
    | false =>
      have : ¬ b <+: l := fun h => by rw [List.isPrefixOf_iff_prefix.2 h] at hp; cases hp
      exact (decide_eq_true this).symm
  unfold diffFilter
  rw [hf, if_neg]
  · cases parse _ <;> rfl
  · obtain ⟨l, h1, h2, c, h3, h4⟩ := hb
    unfold isBlank
    rw [List.all_eq_true]
    intro hall
    have := hall c (List.mem_flatMap.2 ⟨l.1, List.mem_filter.2 ⟨List.mem_map.2 ⟨l, h1, rfl⟩, decide_eq_true h2⟩,
      List.mem_append_left _ h3⟩)
    simp only [List.mem_cons, List.not_mem_nil, or_false, decide_eq_true_eq] at this
    rcases this with rfl | rfl | rfl | rfl | rfl | rfl <;> revert h4 <;> decide

/-- A diff with CRLF line ends and a note about a binary file. -/
example : diffFilter (fun t => if t = "--- a\n+++ b\n".toList then some [] else none) []
    "--- a\r\nBinary files x and y differ\n+++ b\r\n".toList = some [] :=
  C22_what_is_parsed _ [] [("--- a".toList, true), ("Binary files x and y differ".toList, false), ("+++ b".toList, true)]
    (by decide) ⟨("--- a".toList, true), by simp, by decide, '-', by decide, by decide⟩

/-- C22: a diff with nothing but blank lines and notes about binary files selects nothing, and is not
an error, whatever the parser would make of it. -/
theorem C22_empty_selects_nothing (parse : Text → Option (List Patch)) (ms : List Mutant) (text : Text)
    (h : ∀ l ∈ rustLines text, (∀ c ∈ l, c = ' ' ∨ c = '\t') ∨ "Binary files ".toList <+: l) :
    diffFilter parse ms text = some [] := by
  unfold diffFilter
  rw [if_pos]
  unfold fixedDiff
  apply joinWith_blank
  intro l hl
  rcases List.mem_append.1 hl with hl | hl
  · obtain ⟨h1, h2⟩ := List.mem_filter.1 hl
    rcases h l h1 with h3 | h3
    · unfold isBlank
      rw [List.all_eq_true]
      intro c hc
      rcases h3 c hc with rfl | rfl <;> decide
    · rw [List.isPrefixOf_iff_prefix.2 h3] at h2
      cases h2
  · rw [List.mem_singleton.1 hl]; rfl

example : diffFilter (fun _ => none) [sampleMutant] "\nBinary files a/x and b/x differ\n".toList = some [] := by
  decide

/-! ### C19 -/

/-- C19, full statement. -/
def KeepsExactlyOverlapping : Prop :=
  ∀ (patches : List Patch) (ms kept : List Mutant), DiffFits patches ms →
    (∀ m ∈ ms, m.sourceFile.path.head? ≠ some "/".toList) →
    diffFilterPatches patches ms = some kept →
    ∃ sel : Mutant → Bool, (∀ m ∈ ms, sel m = true ↔ Overlaps patches m) ∧ kept = ms.filter sel

/-- C19 is false for diffs without context, because C20 is: deleting the line after line 1 affects
line 1, and the mutant there is dropped. -/
theorem C19_keeps_overlapping_false : ¬ KeepsExactlyOverlapping := by
  intro h
  have hk : diffFilterPatches [⟨"b/src/lib.rs".toList, [⟨1, [.remove "x".toList]⟩]⟩] [sampleMutant] = some [] := by
    decide
  obtain ⟨sel, h1, h2⟩ := h _ _ _ (by
    intro p hp m hm _
    simp only [List.mem_singleton] at hp hm
    subst hp; subst hm
    decide) (by
    intro m hm
    simp only [List.mem_singleton] at hm
    subst hm; decide) hk
  have hs : sel sampleMutant = true := by
    rw [h1 _ (by simp)]
    refine ⟨_, List.Mem.head _, .inl (by decide), 1, by decide, by decide, _, List.Mem.head _, ?_⟩
    exact ⟨[], _, [], rfl, .inr ⟨⟨_, rfl⟩, .inl (by decide), by decide, by decide⟩⟩
  rw [List.filter_cons_of_pos hs] at h2
  cases h2

/-- C19: the mutants kept are exactly those that overlap an affected line of their file, in the same
order and multiplicity. Missing: diffs without context. -/
theorem C19_keeps_overlapping_partial (patches : List Patch) (ms kept : List Mutant)
    (hfit : DiffFits patches ms)
    (hctx : ∀ p ∈ patches, ∀ m ∈ ms, DescribesFile p m.sourceFile.path →
      ∀ h ∈ p.hunks, WithContext (fileLength m) h)
    (habs : ∀ m ∈ ms, m.sourceFile.path.head? ≠ some "/".toList)
    (h : diffFilterPatches patches ms = some kept) :
    ∃ sel : Mutant → Bool, (∀ m ∈ ms, sel m = true ↔ Overlaps patches m) ∧ kept = ms.filter sel := by
  obtain ⟨sel, h1, h2⟩ := kept_iff h
  refine ⟨sel, fun m hm => ?_, h1⟩
  rw [h2]
  have hne : m.sourceFile.path ≠ devNull := fun e => habs m hm (by rw [e]; rfl)
  unfold Overlaps
  constructor
  · rintro ⟨_, p, hp, hd, hs⟩
    obtain ⟨hsort, hmem⟩ := C20_affected_lines_partial _ p (hfit p hp m hm hd) (hctx p hp m hm hd)
    obtain ⟨n, h3, h4, h5⟩ := (probeLines_spec _ hsort _ _).1 hs
    exact ⟨p, hp, hd, n, h4, by omega, (hmem n).1 h3⟩
  · rintro ⟨p, hp, hd, n, h3, h4, h5⟩
    obtain ⟨hsort, hmem⟩ := C20_affected_lines_partial _ p (hfit p hp m hm hd) (hctx p hp m hm hd)
    refine ⟨hne, p, hp, hd, (probeLines_spec _ hsort _ _).2 ⟨n, (hmem n).2 h5, h3, by omega⟩⟩

/-- For every accepted diff, with or without context, what is kept is a sublist: nothing is
duplicated, invented or reordered. -/
theorem C19_keeps_sublist {patches : List Patch} {ms kept : List Mutant}
    (h : diffFilterPatches patches ms = some kept) : kept.Sublist ms := by
  obtain ⟨sel, rfl, _⟩ := kept_iff h
  exact List.filter_sublist

/-! ### C21 -/

/-- C21, full statement: a diff that has, for a file with mutants, a line that differs from the line
of the file at that number, is refused. -/
def StaleRefused : Prop :=
  ∀ (patches : List Patch) (ms : List Mutant), SameSource ms →
    ∀ p ∈ patches, ∀ m ∈ ms, DescribesFile p m.sourceFile.path →
    ∀ h ∈ p.hunks, ∀ n t, HasLine h n t → lineAt m.sourceFile.code n ≠ some t →
    diffFilterPatches patches ms = none

/-- C21 is false in one case: an empty line beyond the end of the file is taken as agreeing. -/
theorem C21_stale_refused_false : ¬ StaleRefused := by
  intro h
  have := h [⟨"b/src/lib.rs".toList, [⟨2, [.add []]⟩]⟩] [sampleMutant]
    (by intro a ha b hb _; simp only [List.mem_singleton] at ha hb; rw [ha, hb])
    _ (List.Mem.head _) _ (List.Mem.head _) (.inl (by decide)) _ (List.Mem.head _) 2 []
    ⟨[], .add [], [], rfl, .inr rfl, by decide⟩ (by decide)
  revert this
  decide

theorem find_path {ms : List Mutant} (hs : SameSource ms) {m : Mutant} (hm : m ∈ ms) {path : Path}
    (hp : path = m.sourceFile.path) :
    ∃ m', (ms.find? fun x => decide (x.sourceFile.path = path)) = some m' ∧
      m'.sourceFile.code = m.sourceFile.code := by
  cases hf : ms.find? fun x => decide (x.sourceFile.path = path) with
  | none =>
    have := List.find?_eq_none.1 hf m hm
    simp [hp] at this
  | some m' =>
    have h1 := List.find?_some hf
    have h2 := List.mem_of_find?_eq_some hf
    exact ⟨m', rfl, hs m' h2 m hm (by rw [← hp]; exact of_decide_eq_true h1)⟩

theorem sourceLine_eq (code : Text) (n : Nat) : sourceLine (rustLines code) n = (lineAt code n).getD [] := by
  unfold sourceLine lineAt
  split <;> rfl

theorem check_iff (patches : List Patch) (ms : List Mutant) (hs : SameSource ms) :
    checkDiffNewTextMatches patches ms = true ↔
    ∀ p ∈ patches, ∀ m ∈ ms, DescribesFile p m.sourceFile.path → ∀ h ∈ p.hunks, ∀ n t, HasLine h n t →
      t = (lineAt m.sourceFile.code n).getD [] := by
  unfold checkDiffNewTextMatches
  rw [List.all_eq_true]
  constructor
  · intro h p hp m hm hd k hk n t ht
    obtain ⟨m', h1, h2⟩ := find_path hs hm ((describes_iff _ _).1 hd)
    have := h p hp
    rw [h1] at this
    simp only [List.all_eq_true] at this
    have := this (n, t) ((mem_partialNewFile p n t).2 ⟨k, hk, ht⟩)
    have := of_decide_eq_true this
    rw [sourceLine_eq, h2] at this
    exact this
  · intro h p hp
    cases hf : ms.find? fun x => decide (x.sourceFile.path = stripPatchPath p.newPath) with
    | none => rfl
    | some m =>
      simp only [List.all_eq_true]
      rintro ⟨n, t⟩ hx
      obtain ⟨k, hk, ht⟩ := (mem_partialNewFile p n t).1 hx
      have h1 : m.sourceFile.path = stripPatchPath p.newPath := by
        have := List.find?_some hf
        exact of_decide_eq_true this
      have h2 := List.mem_of_find?_eq_some hf
      have := h p hp m h2 ((describes_iff _ _).2 h1.symm) k hk n t ht
      simp only [sourceLine_eq, this, decide_eq_true_eq]

/-- C21: a diff that does not describe the tree is refused. Missing: an empty line beyond the end of
the file. -/
theorem C21_stale_refused_partial (patches : List Patch) (ms : List Mutant) (hs : SameSource ms)
    (p : Patch) (hp : p ∈ patches) (m : Mutant) (hm : m ∈ ms) (hd : DescribesFile p m.sourceFile.path)
    (h : Hunk) (hh : h ∈ p.hunks) (n : Nat) (t : Text) (ht : HasLine h n t)
    (hdiff : lineAt m.sourceFile.code n ≠ some t)
    (hreal : t ≠ [] ∨ (lineAt m.sourceFile.code n).isSome) :
    diffFilterPatches patches ms = none := by
  unfold diffFilterPatches
  rw [if_neg]
  intro hc
  have := (check_iff patches ms hs).1 hc p hp m hm hd h hh n t ht
  cases hl : lineAt m.sourceFile.code n with
  | some x =>
    rw [hl] at this hdiff
    exact hdiff (by rw [this]; rfl)
  | none =>
    rw [hl] at this hreal
    rcases hreal with h1 | h1
    · exact h1 this
    · cases h1

/-- C21, the other direction: if every line of the diff agrees with the file, the diff is accepted
unless it names a file twice. -/
theorem C21_agreeing_accepted (patches : List Patch) (ms : List Mutant) (hs : SameSource ms)
    (hagree : ∀ p ∈ patches, ∀ m ∈ ms, DescribesFile p m.sourceFile.path → ∀ h ∈ p.hunks, ∀ n t,
      HasLine h n t → lineAt m.sourceFile.code n = some t)
    (honce : patches.Pairwise fun p q => ∀ path, ¬ (DescribesFile p path ∧ DescribesFile q path ∧ path ≠ devNull)) :
    ∃ kept, diffFilterPatches patches ms = some kept := by
  apply refused_only_if_repeated
  · rw [check_iff _ _ hs]
    intro p hp m hm hd h hh n t ht
    rw [hagree p hp m hm hd h hh n t ht]; rfl
  · have : (patches.map fun p => stripPatchPath p.newPath).Pairwise (fun a b => ¬ (a = b ∧ a ≠ devNull)) := by
      rw [List.pairwise_map]
      refine honce.imp ?_
      intro p q h ⟨e, hn⟩
      exact h _ ⟨(describes_iff _ _).2 rfl, (describes_iff _ _).2 e.symm, hn⟩
    unfold List.Nodup
    rw [List.pairwise_filter]
    refine this.imp ?_
    intro a b h ha _ e
    exact h ⟨e, of_decide_eq_true ha⟩

example : ∃ kept, diffFilterPatches [⟨"b/src/lib.rs".toList, [⟨1, [.add "fn f() -> bool { a() }".toList]⟩]⟩]
    [sampleMutant] = some kept := ⟨[sampleMutant], by decide⟩

example : diffFilterPatches [⟨"b/src/lib.rs".toList, [⟨1, [.add "fn g() -> bool { a() }".toList]⟩]⟩]
    [sampleMutant] = none := by decide

/-- C21, exactly: a diff is refused if and only if some line of it differs from the file at that line (an empty line beyond the
end is not seen to differ), or two of its sections are for the same file. -/
theorem C21_refused_exactly (patches : List Patch) (ms : List Mutant) (hs : SameSource ms) :
    diffFilterPatches patches ms = none ↔
      (∃ p ∈ patches, ∃ m ∈ ms, DescribesFile p m.sourceFile.path ∧ ∃ h ∈ p.hunks, ∃ n t, HasLine h n t ∧
        lineAt m.sourceFile.code n ≠ some t ∧ (t ≠ [] ∨ (lineAt m.sourceFile.code n).isSome)) ∨
      ∃ a p b q c path, patches = a ++ p :: b ++ q :: c ∧ DescribesFile p path ∧ DescribesFile q path ∧
        path ≠ ["/".toList, "dev".toList, "null".toList] := by
  constructor
  · intro hnone
    refine Classical.byContradiction fun hno => ?_
    rw [not_or] at hno
    obtain ⟨h1, h2⟩ := hno
    have : ∃ kept, diffFilterPatches patches ms = some kept := by
      apply refused_only_if_repeated
      · rw [check_iff _ _ hs]
        intro p hp m hm hd h hh n t ht
        refine Classical.byContradiction fun hne => h1 ⟨p, hp, m, hm, hd, h, hh, n, t, ht, ?_, ?_⟩
        · intro e; rw [e] at hne; exact hne rfl
        · cases hl : lineAt m.sourceFile.code n with
          | some x => exact .inr rfl
          | none => rw [hl] at hne; exact .inl hne
      · have : (patches.map fun p => stripPatchPath p.newPath).Pairwise (fun a b => ¬ (a = b ∧ a ≠ devNull)) := by
          rw [List.pairwise_map]
          have key : ∀ (pre ps : List Patch), patches = pre ++ ps →
              ps.Pairwise fun p q => ¬ (stripPatchPath p.newPath = stripPatchPath q.newPath ∧ stripPatchPath p.newPath ≠ devNull) := by
            intro pre ps
            induction ps generalizing pre with
            | nil => intro _; exact .nil
            | cons p ps ih =>
              intro e
              refine .cons ?_ (ih (pre ++ [p]) (by simp [e]))
              rintro q hq ⟨e1, e2⟩
              obtain ⟨b, c, rfl⟩ := List.append_of_mem hq
              exact h2 ⟨pre, p, b, q, c, _, by simp [e], (describes_iff _ _).2 rfl, (describes_iff _ _).2 e1.symm, e2⟩
          exact key [] patches rfl
        unfold List.Nodup
        rw [List.pairwise_filter]
        refine this.imp ?_
        intro a b h ha _ e
        exact h ⟨e, of_decide_eq_true ha⟩
    obtain ⟨k, hk⟩ := this
    rw [hk] at hnone
    cases hnone
  · rintro (⟨p, hp, m, hm, hd, h, hh, n, t, ht, h1, h2⟩ | ⟨a, p, b, q, c, path, rfl, hp, hq, hn⟩)
    · exact C21_stale_refused_partial patches ms hs p hp m hm hd h hh n t ht h1 h2
    · exact C22_repeated_refused a b c p q path ms hp hq hn

end CM.Props
