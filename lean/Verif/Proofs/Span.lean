import Verif.Spec.Span
import Verif.Proofs.ListUtil
/-! Helper lemmas about the scanners of `src/span.rs`. -/
namespace CM
open Spec

/-- Lexicographic order on positions. -/
def LineColumn.lt (p q : LineColumn) : Prop :=
  p.line < q.line ∨ (p.line = q.line ∧ p.column < q.column)

def LineColumn.le (p q : LineColumn) : Prop :=
  p.line < q.line ∨ (p.line = q.line ∧ p.column ≤ q.column)

def scanPos (p : LineColumn) (t : Text) : LineColumn := t.foldl LineColumn.advance p

@[simp] theorem scanPos_nil (p) : scanPos p [] = p := rfl
@[simp] theorem scanPos_cons (p c t) : scanPos p (c :: t) = scanPos (p.advance c) t := rfl
theorem scanPos_append (p a b) : scanPos p (a ++ b) = scanPos (scanPos p a) b := by
  simp [scanPos, List.foldl_append]

theorem LineColumn.ext' {p q : LineColumn} (h : p.line = q.line) (h' : p.column = q.column) :
    p = q := by cases p; cases q; simp_all

theorem le_refl (p : LineColumn) : p.le p := Or.inr ⟨rfl, Nat.le_refl _⟩

theorem le_trans {p q r : LineColumn} (h : p.le q) (h' : q.le r) : p.le r := by
  unfold LineColumn.le at *; omega

theorem lt_of_lt_le {p q r : LineColumn} (h : p.lt q) (h' : q.le r) : p.lt r := by
  unfold LineColumn.le LineColumn.lt at *; omega

theorem le_advance (p : LineColumn) (c) : p.le (p.advance c) := by
  unfold LineColumn.le LineColumn.advance; split
  · simp
  · split <;> simp

theorem lt_advance (p : LineColumn) (c) (h : c ≠ '\r') : p.lt (p.advance c) := by
  unfold LineColumn.lt LineColumn.advance; split
  · simp
  · simp

theorem le_scanPos (p : LineColumn) (t) : p.le (scanPos p t) := by
  induction t generalizing p with
  | nil => exact le_refl p
  | cons c t ih => exact le_trans (le_advance p c) (ih _)

/-- If `t` does not end in CR then every character of `t` is at a position before the end. -/
theorem lt_scanPos {p : LineColumn} {t : Text} (hne : t ≠ []) (h : t.getLast? ≠ some '\r') :
    p.lt (scanPos p t) := by
  induction t generalizing p with
  | nil => exact absurd rfl hne
  | cons c t ih =>
    cases t with
    | nil => exact lt_advance p c (by simpa using h)
    | cons d t =>
      have h1 := ih (p := p.advance c) (by simp) (by simpa [List.getLast?_cons_cons] using h)
      have h2 := le_advance p c
      simp only [scanPos_cons] at h1 ⊢
      unfold LineColumn.lt LineColumn.le at *; omega

theorem keepsAt_iff {sp : Span} (_hle : sp.start.le sp.stop) (p : LineColumn) :
    sp.keepsAt p = true ↔ p.lt sp.start ∨ sp.stop.le p := by
  unfold Span.keepsAt LineColumn.lt LineColumn.le at *
  simp only [Bool.or_eq_true, Bool.and_eq_true, decide_eq_true_eq, beq_iff_eq]
  omega

theorem extractsAt_iff (sp : Span) (p : LineColumn) :
    sp.extractsAt p = true ↔ sp.start.le p ∧ p.lt sp.stop := by
  unfold Span.extractsAt LineColumn.lt LineColumn.le
  simp only [Bool.or_eq_true, Bool.and_eq_true, decide_eq_true_eq, beq_iff_eq]
  omega

/-! ### replace -/

theorem replaceFrom_before {sp : Span} {repl : Text} (hle : sp.start.le sp.stop)
    {p : LineColumn} {t rest : Text} (hlast : t.getLast? ≠ some '\r')
    (hp : scanPos p t = sp.start) :
    sp.replaceFrom repl p (t ++ rest) = t ++ sp.replaceFrom repl sp.start rest := by
  induction t generalizing p with
  | nil => simp at hp; simp [hp]
  | cons c t ih =>
    have hlt : p.lt sp.start := hp ▸ lt_scanPos (by simp) hlast
    have hne : p ≠ sp.start := by rintro rfl; unfold LineColumn.lt at hlt; omega
    have hk : sp.keepsAt p = true := (keepsAt_iff hle p).2 (Or.inl hlt)
    have hl' : t.getLast? ≠ some '\r' := by
      cases t with
      | nil => simp
      | cons d t => simpa [List.getLast?_cons_cons] using hlast
    simp only [List.cons_append, Span.replaceFrom, hne, hk, if_false, if_true, List.nil_append]
    rw [ih hl' hp]

theorem replaceFrom_after {sp : Span} {repl : Text} (hle : sp.start.le sp.stop)
    {p : LineColumn} {t : Text} (hs : sp.start.lt p) (he : sp.stop.le p) :
    sp.replaceFrom repl p t = t := by
  induction t generalizing p with
  | nil =>
    have hne : p ≠ sp.start := by rintro rfl; unfold LineColumn.lt at hs; omega
    simp [Span.replaceFrom, hne]
  | cons c t ih =>
    have hne : p ≠ sp.start := by rintro rfl; unfold LineColumn.lt at hs; omega
    have hk : sp.keepsAt p = true := (keepsAt_iff hle p).2 (Or.inr he)
    simp only [Span.replaceFrom, hne, hk, if_false, if_true, List.nil_append]
    rw [ih (lt_of_lt_le hs (le_advance p c)) (le_trans he (le_advance p c))]
    rfl

theorem replaceFrom_inside {sp : Span} {repl : Text} (hle : sp.start.le sp.stop)
    {p : LineColumn} {t rest : Text} (hs : sp.start.lt p) (hp : scanPos p t = sp.stop)
    (hlast : t.getLast? ≠ some '\r') :
    sp.replaceFrom repl p (t ++ rest) = rest := by
  induction t generalizing p with
  | nil =>
    simp at hp
    simpa using replaceFrom_after hle hs (hp ▸ le_refl p)
  | cons c t ih =>
    have hlt : p.lt sp.stop := hp ▸ lt_scanPos (by simp) hlast
    have hne : p ≠ sp.start := by rintro rfl; unfold LineColumn.lt at hs; omega
    have hk : sp.keepsAt p = false := by
      rw [Bool.eq_false_iff, ne_eq, keepsAt_iff hle]
      unfold LineColumn.lt LineColumn.le at *; omega
    have hl' : t.getLast? ≠ some '\r' := by
      cases t with
      | nil => simp
      | cons d t => simpa [List.getLast?_cons_cons] using hlast
    simp only [List.cons_append, Span.replaceFrom, hne, hk, if_false, List.nil_append]
    exact ih (lt_of_lt_le hs (le_advance p c)) hp hl'

theorem replaceFrom_at {sp : Span} {repl mid post : Text} (hle : sp.start.le sp.stop)
    (hp : scanPos sp.start mid = sp.stop) (hlast : mid.getLast? ≠ some '\r')
    (hhead : (mid ++ post).head? ≠ some '\r') :
    sp.replaceFrom repl sp.start (mid ++ post) = repl ++ post := by
  cases mid with
  | cons c mid =>
    have hc : c ≠ '\r' := by simpa using hhead
    have hl' : mid.getLast? ≠ some '\r' := by
      cases mid with
      | nil => simp
      | cons d t => simpa [List.getLast?_cons_cons] using hlast
    have hlt : sp.start.lt sp.stop := hp ▸ lt_scanPos (by simp) hlast
    have hk : sp.keepsAt sp.start = false := by
      rw [Bool.eq_false_iff, ne_eq, keepsAt_iff hle]
      unfold LineColumn.lt LineColumn.le at *; omega
    simp only [List.cons_append, Span.replaceFrom, hk, if_true]
    rw [replaceFrom_inside hle (lt_advance _ c hc) hp hl']
    simp
  | nil =>
    simp at hp
    cases post with
    | nil => simp [Span.replaceFrom]
    | cons c post =>
      have hc : c ≠ '\r' := by simpa using hhead
      have hk : sp.keepsAt sp.start = true := (keepsAt_iff hle _).2 (Or.inr (hp ▸ le_refl _))
      simp only [List.nil_append, Span.replaceFrom, hk, if_true]
      rw [replaceFrom_after hle (lt_advance _ c hc) (hp ▸ le_advance _ c)]
      simp

theorem replace_scan {sp : Span} {repl pre mid post : Text}
    (hs : scanPos ⟨1, 1⟩ pre = sp.start) (he : scanPos ⟨1, 1⟩ (pre ++ mid) = sp.stop)
    (h1 : pre.getLast? ≠ some '\r') (h2 : mid.getLast? ≠ some '\r')
    (h3 : (mid ++ post).head? ≠ some '\r') :
    sp.replace (pre ++ mid ++ post) repl = pre ++ repl ++ post := by
  have hp : scanPos sp.start mid = sp.stop := by rw [← hs, ← scanPos_append, he]
  have hle : sp.start.le sp.stop := hp ▸ le_scanPos _ _
  unfold Span.replace
  rw [List.append_assoc, replaceFrom_before hle h1 hs, replaceFrom_at hle hp h2 h3]
  simp

/-! ### extract -/

theorem extractFrom_after {sp : Span} {p : LineColumn} {t : Text} (he : sp.stop.le p) :
    sp.extractFrom p t = [] := by
  induction t generalizing p with
  | nil => rfl
  | cons c t ih =>
    have hk : sp.extractsAt p = false := by
      rw [Bool.eq_false_iff, ne_eq, extractsAt_iff]
      unfold LineColumn.lt LineColumn.le at *; omega
    simp only [Span.extractFrom, hk]
    rw [ih (le_trans he (le_advance p c))]
    simp

/-- The early exits of `extract` never lose anything. -/
theorem extractFrom_cons {sp : Span} {p : LineColumn} {c : Char} {t : Text} :
    sp.extractFrom p (c :: t) =
      (if sp.extractsAt p then [c] else []) ++ sp.extractFrom (p.advance c) t := by
  simp only [Span.extractFrom]
  have key : (if c = '\n' ∧ (p.advance c).line > sp.stop.line then []
      else if (p.advance c).line = sp.stop.line ∧ (p.advance c).column ≥ sp.stop.column then []
      else sp.extractFrom (p.advance c) t) = sp.extractFrom (p.advance c) t := by
    split
    · rename_i h; rw [extractFrom_after]; unfold LineColumn.le; omega
    · split
      · rename_i h; rw [extractFrom_after]; unfold LineColumn.le; omega
      · rfl
  rw [key]
  split <;> simp

theorem extractFrom_before {sp : Span} {p : LineColumn} {t rest : Text}
    (hlast : t.getLast? ≠ some '\r') (hp : scanPos p t = sp.start) :
    sp.extractFrom p (t ++ rest) = sp.extractFrom sp.start rest := by
  induction t generalizing p with
  | nil => simp at hp; simp [hp]
  | cons c t ih =>
    have hlt : p.lt sp.start := hp ▸ lt_scanPos (by simp) hlast
    have hk : sp.extractsAt p = false := by
      rw [Bool.eq_false_iff, ne_eq, extractsAt_iff]
      unfold LineColumn.lt LineColumn.le at *; omega
    have hl' : t.getLast? ≠ some '\r' := by
      cases t with
      | nil => simp
      | cons d t => simpa [List.getLast?_cons_cons] using hlast
    rw [List.cons_append, extractFrom_cons, hk]
    simpa using ih hl' hp

theorem extractFrom_inside {sp : Span} {p : LineColumn} {t rest : Text} (hs : sp.start.le p)
    (hlast : t.getLast? ≠ some '\r') (hp : scanPos p t = sp.stop) :
    sp.extractFrom p (t ++ rest) = t := by
  induction t generalizing p with
  | nil => simp at hp; simpa using extractFrom_after (hp ▸ le_refl p)
  | cons c t ih =>
    have hlt : p.lt sp.stop := hp ▸ lt_scanPos (by simp) hlast
    have hk : sp.extractsAt p = true := (extractsAt_iff _ _).2 ⟨hs, hlt⟩
    have hl' : t.getLast? ≠ some '\r' := by
      cases t with
      | nil => simp
      | cons d t => simpa [List.getLast?_cons_cons] using hlast
    rw [List.cons_append, extractFrom_cons, hk]
    simpa using ih (le_trans hs (le_advance p c)) hl' hp

theorem extract_scan {sp : Span} {pre mid post : Text}
    (hs : scanPos ⟨1, 1⟩ pre = sp.start) (he : scanPos ⟨1, 1⟩ (pre ++ mid) = sp.stop)
    (h1 : pre.getLast? ≠ some '\r') (h2 : mid.getLast? ≠ some '\r') :
    sp.extract (pre ++ mid ++ post) = mid := by
  have hp : scanPos sp.start mid = sp.stop := by rw [← hs, ← scanPos_append, he]
  unfold Span.extract
  rw [List.append_assoc, extractFrom_before h1 hs, extractFrom_inside (le_refl _) h2 hp]

/-! ### scanner positions and parser positions -/

theorem lineTail_snoc (t : Text) (c : Char) :
    lineTail (t ++ [c]) = if c = '\n' then [] else c :: lineTail t := by
  unfold lineTail
  by_cases h : c = '\n' <;> simp [h]

theorem scanPos_eq (t : Text) :
    scanPos ⟨1, 1⟩ t = ⟨1 + t.count '\n', 1 + ((lineTail t).filter (· ≠ '\r')).length⟩ := by
  induction t using snocInduction with
  | nil => rfl
  | snoc t c ih =>
    rw [scanPos_append, ih, lineTail_snoc]
    simp only [scanPos_cons, scanPos_nil, LineColumn.advance]
    by_cases h : c = '\n'
    · subst h; simp; omega
    · by_cases h' : c = '\r'
      · subst h'; simp
      · simp [h, h']; omega

theorem scanPos_of_clean {t : Text} (h : CleanAt t) : scanPos ⟨1, 1⟩ t = posAfter t := by
  rw [scanPos_eq, posAfter]
  have : (lineTail t).filter (· ≠ '\r') = lineTail t := by
    rw [List.filter_eq_self]
    intro a ha
    simp only [decide_eq_true_eq, ne_eq]
    rintro rfl
    exact h ha
  rw [this]

theorem getLast_of_clean {t : Text} (h : CleanAt t) : t.getLast? ≠ some '\r' := by
  intro hl
  apply h
  obtain ⟨ys, rfl⟩ := List.getLast?_eq_some_iff.1 hl
  rw [lineTail_snoc]
  simp

theorem getLast_mid_of_clean {pre mid : Text} (h : CleanAt (pre ++ mid)) :
    mid.getLast? ≠ some '\r' := by
  intro hl
  apply getLast_of_clean h
  obtain ⟨ys, rfl⟩ := List.getLast?_eq_some_iff.1 hl
  simp [← List.append_assoc]

theorem clean_of_noCR {t : Text} (h : '\r' ∉ t) : CleanAt t := by
  intro hm
  exact h (List.mem_reverse.1 ((List.takeWhile_sublist _).subset hm))

end CM
