import Verif.Proofs.Span
/-!
Properties C01, C02, C03, C05: editing one region of a source file.

A file is given as `pre ++ mid ++ post`, where `mid` is the region; the mutant's span is the one
that the parser reports for it (`Spec.spanOf pre mid`).
-/
namespace CM.Props
open CM Spec

/-! ### C01 -/

/-- Full statement of C01, for every split of every text. -/
def EditsExactlyRegion : Prop :=
  ∀ pre mid post repl : Text,
    mutatedCode (pre ++ mid ++ post) (spanOf pre mid) repl =
      pre ++ (repl ++ " ".toList ++ markerText) ++ post

/-- The full statement fails: with a lone carriage return (legal white space in Rust) earlier on the
line, the edit is made at the wrong place. -/
theorem C01_edits_exactly_region_false : ¬ EditsExactlyRegion := by
  intro h
  have := h "\r".toList "1".toList "+2".toList "0".toList
  revert this
  decide

/-- C01 for every region whose two ends are on lines without lone carriage returns before them, and
that is not directly followed by one. Missing from the full statement: lines with a lone CR. -/
theorem C01_edits_exactly_region_partial (pre mid post repl : Text)
    (hstart : CleanAt pre) (hend : CleanAt (pre ++ mid)) (hnext : (mid ++ post).head? ≠ some '\r') :
    mutatedCode (pre ++ mid ++ post) (spanOf pre mid) repl =
      pre ++ (repl ++ " ".toList ++ markerText) ++ post :=
  replace_scan (sp := spanOf pre mid) (scanPos_of_clean hstart) (scanPos_of_clean hend)
    (getLast_of_clean hstart) (getLast_mid_of_clean hend) hnext

/-- C01 for every text without carriage returns (every LF or CRLF file after it has been read). -/
theorem C01_edits_exactly_region_lf_partial (pre mid post repl : Text)
    (h : '\r' ∉ pre ++ mid ++ post) :
    mutatedCode (pre ++ mid ++ post) (spanOf pre mid) repl =
      pre ++ (repl ++ " ".toList ++ markerText) ++ post := by
  simp only [List.mem_append, not_or] at h
  refine C01_edits_exactly_region_partial pre mid post repl (clean_of_noCR h.1.1)
    (clean_of_noCR (by simp [h.1])) ?_
  intro hh
  have := List.mem_of_mem_head? hh
  simp_all

example : '\r' ∉ "fn f() -> i32 {\n    1 +\n 2\n}\n".toList ∧
    spanOf "fn f() -> i32 {\n    ".toList "1 +\n 2".toList = ⟨⟨2, 5⟩, ⟨3, 3⟩⟩ ∧
    mutatedCode "fn f() -> i32 {\n    1 +\n 2\n}\n".toList ⟨⟨2, 5⟩, ⟨3, 3⟩⟩ "0".toList =
      "fn f() -> i32 {\n    0 /* ~ changed by cargo-mutants ~ */\n}\n".toList := by decide

/-- A lone CR on another line does not matter. -/
example : CleanAt "//\r a\nlet x = ".toList ∧ CleanAt "//\r a\nlet x = 1".toList ∧
    (("1".toList) ++ ";\n//\r".toList).head? ≠ some '\r' := by decide

/-- From a position that is not before the region. -/
private theorem replaceFrom_within {sp : Span} {repl : Text} (hlt : sp.start.lt sp.stop) :
    ∀ (t : Text) (p : LineColumn), sp.start.le p →
      ∃ (m c : Text) (k : Nat), t = m ++ c ∧ sp.replaceFrom repl p t = (List.replicate k repl).flatten ++ c := by
  have hle : sp.start.le sp.stop := by unfold LineColumn.lt at hlt; unfold LineColumn.le; omega
  intro t
  induction t with
  | nil =>
    intro p _
    by_cases h : p = sp.start
    · exact ⟨[], [], 1, rfl, by simp [Span.replaceFrom, h]⟩
    · exact ⟨[], [], 0, rfl, by simp [Span.replaceFrom, h]⟩
  | cons ch t ih =>
    intro p hp
    by_cases hs : sp.stop.le p
    · exact ⟨[], ch :: t, 0, rfl, by simpa using replaceFrom_after hle (lt_of_lt_le hlt hs) hs⟩
    · obtain ⟨m, c, k, rfl, h⟩ := ih (p.advance ch) (le_trans hp (le_advance p ch))
      have hk : sp.keepsAt p = false := by
        cases hk : sp.keepsAt p with
        | false => rfl
        | true =>
          rcases (keepsAt_iff hle p).1 hk with h1 | h1
          · unfold LineColumn.lt at h1; unfold LineColumn.le at hp; omega
          · exact absurd h1 hs
      by_cases h1 : p = sp.start
      · exact ⟨ch :: m, c, k + 1, rfl, by rw [Span.replaceFrom, h, hk]; simp [h1, List.replicate_succ]⟩
      · exact ⟨ch :: m, c, k, rfl, by rw [Span.replaceFrom, h, hk]; simp [h1]⟩

/-- C01 for every text, also with lone carriage returns, and every span that is not empty: whatever the scanner takes for the
region, this is one piece of the text, nothing before or after it changes, and only the replacement is put there. -/
theorem C01_nothing_else (code repl : Text) (sp : Span)
    (hlt : sp.start.line < sp.stop.line ∨ (sp.start.line = sp.stop.line ∧ sp.start.column < sp.stop.column)) :
    ∃ (pre mid post : Text) (k : Nat), code = pre ++ mid ++ post ∧
      mutatedCode code sp repl = pre ++ (List.replicate k (repl ++ " ".toList ++ markerText)).flatten ++ post := by
  have hle : sp.start.le sp.stop := by unfold LineColumn.le; omega
  unfold mutatedCode Span.replace
  show ∃ (pre mid post : Text) (k : Nat), code = pre ++ mid ++ post ∧
    sp.replaceFrom (repl ++ " ".toList ++ markerText) ⟨1, 1⟩ code = _
  generalize repl ++ " ".toList ++ markerText = r
  suffices ∀ (t : Text) (p : LineColumn), ∃ (pre mid post : Text) (k : Nat), t = pre ++ mid ++ post ∧
      sp.replaceFrom r p t = pre ++ (List.replicate k r).flatten ++ post from this code ⟨1, 1⟩
  intro t
  induction t with
  | nil =>
    intro p
    by_cases h : p = sp.start
    · exact ⟨[], [], [], 1, rfl, by simp [Span.replaceFrom, h]⟩
    · exact ⟨[], [], [], 0, rfl, by simp [Span.replaceFrom, h]⟩
  | cons ch t ih =>
    intro p
    by_cases hp : sp.start.le p
    · obtain ⟨m, c, k, h1, h2⟩ := replaceFrom_within (repl := r) hlt (ch :: t) p hp
      exact ⟨[], m, c, k, by simpa using h1, by simpa using h2⟩
    · obtain ⟨pre, mid, post, k, rfl, h⟩ := ih (p.advance ch)
      have hlt' : p.lt sp.start := by unfold LineColumn.le at hp; unfold LineColumn.lt; omega
      have hk : sp.keepsAt p = true := (keepsAt_iff hle p).2 (.inl hlt')
      have hne : p ≠ sp.start := fun e => hp (e ▸ le_refl _)
      exact ⟨ch :: pre, mid, post, k, rfl, by rw [Span.replaceFrom, h, hk]; simp [hne]⟩

/-- With a lone CR at the start of the region the replacement is put there twice. -/
example : mutatedCode "\ra+b".toList ⟨⟨1, 1⟩, ⟨1, 2⟩⟩ "0".toList =
    ("0 /* ~ changed by cargo-mutants ~ */".toList ++ "0 /* ~ changed by cargo-mutants ~ */".toList) ++ "+b".toList := by decide

/-! ### C02 -/

/-- Full statement of C02. -/
def OriginalIsRegion : Prop :=
  ∀ pre mid post : Text,
    originalText (pre ++ mid ++ post) (spanOf pre mid) = mid ∧
    (spanOf pre mid).replace (pre ++ mid ++ post)
      (originalText (pre ++ mid ++ post) (spanOf pre mid)) = pre ++ mid ++ post

theorem C02_original_is_region_false : ¬ OriginalIsRegion := by
  intro h
  have := (h "\r".toList "1".toList "+2".toList).1
  revert this
  decide

/-- C02: what is shown as the original is the region. Missing: lines with a lone CR. -/
theorem C02_original_is_region_partial (pre mid post : Text)
    (hstart : CleanAt pre) (hend : CleanAt (pre ++ mid)) :
    originalText (pre ++ mid ++ post) (spanOf pre mid) = mid :=
  extract_scan (sp := spanOf pre mid) (scanPos_of_clean hstart) (scanPos_of_clean hend)
    (getLast_of_clean hstart) (getLast_mid_of_clean hend)

/-- C02: putting the original back gives the same file. Missing: lines with a lone CR. -/
theorem C02_put_back_partial (pre mid post : Text)
    (hstart : CleanAt pre) (hend : CleanAt (pre ++ mid)) (hnext : (mid ++ post).head? ≠ some '\r') :
    (spanOf pre mid).replace (pre ++ mid ++ post)
      (originalText (pre ++ mid ++ post) (spanOf pre mid)) = pre ++ mid ++ post := by
  rw [C02_original_is_region_partial pre mid post hstart hend]
  exact replace_scan (sp := spanOf pre mid) (scanPos_of_clean hstart) (scanPos_of_clean hend)
    (getLast_of_clean hstart) (getLast_mid_of_clean hend) hnext

example : originalText "fn f() -> i32 {\n    1 +\n 2\n}\n".toList ⟨⟨2, 5⟩, ⟨3, 3⟩⟩ =
    "1 +\n 2".toList := by decide

/-! ### C05 -/

/-- Full statement of C05: for every region of every text. -/
def MarkerPresent : Prop :=
  ∀ pre mid post repl : Text,
    markerText <:+: mutatedCode (pre ++ mid ++ post) (spanOf pre mid) repl

/-- With two lone CRs on the line the mutation is not made at all. -/
theorem C05_marker_present_false : ¬ MarkerPresent := by
  intro h
  have h1 := h "\r\r".toList "1".toList "\n".toList "0".toList
  have h2 : mutatedCode ("\r\r".toList ++ "1".toList ++ "\n".toList)
    (spanOf "\r\r".toList "1".toList) "0".toList = "\r\r1\n".toList := by decide
  rw [h2] at h1
  have := h1.length_le
  revert this
  decide

private theorem replaceFrom_reaches {sp : Span} {repl : Text} :
    ∀ (t rest : Text) (p : LineColumn), scanPos p t = sp.start →
      repl <:+: sp.replaceFrom repl p (t ++ rest) := by
  intro t
  induction t with
  | nil =>
    intro rest p hp
    simp at hp
    subst hp
    cases rest with
    | nil => simp [Span.replaceFrom]
    | cons c cs =>
      simp only [List.nil_append, Span.replaceFrom, if_true, List.append_assoc]
      exact (List.prefix_append _ _).isInfix
  | cons c t ih =>
    intro rest p hp
    simp only [List.cons_append, Span.replaceFrom]
    exact (ih rest _ hp).trans (List.suffix_append _ _).isInfix

/-- C05 for every region that starts on a line without a lone CR before it. Missing: lines with a
lone CR before the region. -/
theorem C05_marker_present_partial (pre mid post repl : Text) (hstart : CleanAt pre) :
    markerText <:+: mutatedCode (pre ++ mid ++ post) (spanOf pre mid) repl := by
  have h := replaceFrom_reaches (sp := spanOf pre mid) (repl := repl ++ " ".toList ++ markerText)
    pre (mid ++ post) ⟨1, 1⟩ (scanPos_of_clean hstart)
  unfold mutatedCode Span.replace
  rw [List.append_assoc pre]
  exact (List.suffix_append _ _).isInfix.trans h

example : CleanAt ([] : Text) ∧ spanOf [] [] = ⟨⟨1, 1⟩, ⟨1, 1⟩⟩ ∧
    mutatedCode [] ⟨⟨1, 1⟩, ⟨1, 1⟩⟩ [] = " /* ~ changed by cargo-mutants ~ */".toList := by decide

/-! ### C03 -/

/-- Specification of newline normalisation as a relation: `Erases a b` if `b` arises from `a` by
deleting exactly the carriage returns that are directly before a line feed. -/
inductive Erases : Text → Text → Prop
  | nil : Erases [] []
  | crlf {a b} : Erases ('\n' :: a) b → Erases ('\r' :: '\n' :: a) b
  | keep {c a b} : ¬ (c = '\r' ∧ a.head? = some '\n') → Erases a b → Erases (c :: a) (c :: b)

/-- C03: a loaded text is the file's text with exactly the CRs before LFs deleted. -/
theorem C03_normalize_spec (t : Text) : Erases t (normalizeNewlines t) := by
  fun_induction normalizeNewlines t with
  | case1 => exact .nil
  | case2 c => exact .keep (by simp) .nil
  | case3 c d cs h ih =>
    obtain ⟨rfl, rfl⟩ := h
    exact .crlf (.keep (by simp) ih)
  | case4 c d cs h ih => exact .keep (by simpa using h) ih

theorem Erases.unique {a b b' : Text} (h : Erases a b) (h' : Erases a b') : b = b' := by
  induction h generalizing b' with
  | nil => cases h'; rfl
  | crlf h ih =>
    cases h' with
    | crlf h' => exact ih h'
    | keep hn _ => simp at hn
  | keep hn h ih =>
    cases h' with
    | crlf _ => simp at hn
    | keep _ h' => rw [ih h']

/-- C03: and it is the only such text. -/
theorem C03_normalize_unique (t u : Text) (h : Erases t u) : u = normalizeNewlines t :=
  h.unique (C03_normalize_spec t)

/-- C03: nothing but carriage returns is removed; in particular the number of lines is the same. -/
theorem C03_other_characters_kept (t : Text) :
    (normalizeNewlines t).filter (· ≠ '\r') = t.filter (· ≠ '\r') := by
  fun_induction normalizeNewlines t with
  | case1 => rfl
  | case2 c => rfl
  | case3 c d cs h ih => obtain ⟨rfl, rfl⟩ := h; simpa using ih
  | case4 c d cs h ih => simp only [List.filter_cons (x := c), ih]

/-- The carriage returns of the text all belong to CR LF pairs. -/
def OnlyCrLf : Text → Prop
  | [] => True
  | c :: cs => (c = '\r' → cs.head? = some '\n') ∧ OnlyCrLf cs

/-- C03: a file whose carriage returns all belong to CR LF pairs has none left once loaded. -/
theorem C03_no_cr_left (t : Text) (h : OnlyCrLf t) : '\r' ∉ normalizeNewlines t := by
  fun_induction normalizeNewlines t with
  | case1 => simp
  | case2 c => simp_all [OnlyCrLf, eq_comm]
  | case3 c d cs hc ih =>
    obtain ⟨rfl, rfl⟩ := hc
    simpa using ih h.2.2
  | case4 c d cs hc ih =>
    have h1 := h.1
    simp only [List.mem_cons, not_or]
    refine ⟨?_, ih h.2⟩
    rintro rfl
    exact hc ⟨rfl, by simpa using h1 rfl⟩

/-- A text without CR LF pairs is unchanged. -/
theorem C03_unchanged_without_crlf (t : Text) (h : '\r' ∉ t) : normalizeNewlines t = t := by
  fun_induction normalizeNewlines t with
  | case1 => rfl
  | case2 c => rfl
  | case3 c d cs hc ih => simp_all
  | case4 c d cs hc ih => rw [ih (by simp_all)]

/-- One pass is not always enough to remove all CR LF pairs. -/
theorem C03_not_idempotent : ∃ t, normalizeNewlines (normalizeNewlines t) ≠ normalizeNewlines t :=
  ⟨"\r\r\n".toList, by decide⟩

example : normalizeNewlines "a\r\nb\rc\r\n".toList = "a\nb\rc\n".toList := by decide
example : OnlyCrLf "fn main() {\r\n    640 << 10;\r\n}\n".toList := by
  simp [OnlyCrLf]

end CM.Props
