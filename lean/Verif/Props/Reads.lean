import Verif.Spec.Reads
import Verif.Props.Pretty
import Verif.Props.Lex
/-! C95: printed code reads as the text it comes from. -/
namespace CM.Props
open CM CM.Spec

/-! ### What is between two pieces of printed code -/

def openers : List Char := ['(', ')', '[', ']', '{', '}']

/-- What may be between two pieces: `p` is the one before, if any, and `b` all text before. -/
def Gap (p : Option Piece) (b : Text) (q : Piece) (sep : Text) : Prop :=
  (sep = [] ∨ sep = [' ']) ∧ match p, q with
    | none, _ => sep = []
    | some (.word _), .word _ => sep = [' ']
    | some (.word _), .mark c => sep = [] → c ∈ [',', ';', '<', '>', ':', '.', '!'] ++ openers
    | some (.mark c), .mark _ => sep = [' '] → c = ',' ∨ c = ';' ∨ endsWith b "->".toList = true
    | some (.mark c), .word _ => sep = [' '] → c = ',' ∨ c = ';' ∨ endsWith b "->".toList = true ∨ endsWith b "=".toList = true ∨
        endsWith b "=>".toList = true

/-- The text goes on with these pieces, up to all of `t`. -/
inductive Laid : Option Piece → Text → List Piece → Text → Prop
  | nil (p b) : Laid p b [] b
  | cons {p b q sep qs t} : Gap p b q sep → Laid (some q) (b ++ sep ++ q.text) qs t → Laid p b (q :: qs) t

theorem Laid.append {p : Option Piece} {b : Text} {ps qs : List Piece} {m t : Text} (h : Laid p b ps m)
    (h' : Laid (ps.getLast?.or p) m qs t) : Laid p b (ps ++ qs) t := by
  induction h with
  | nil p b => simpa using h'
  | @cons p b q sep qs' t' hg _ ih =>
    refine .cons hg (ih ?_)
    cases qs' with
    | nil => simpa using h'
    | cons x xs =>
      rw [List.getLast?_cons_cons] at h'
      cases hx : (x :: xs).getLast? with
      | none => simp at hx
      | some y => rw [hx] at h'; exact h'

theorem Laid.split {p : Option Piece} {b : Text} {ps qs : List Piece} {t : Text} (h : Laid p b (ps ++ qs) t) :
    ∃ m, Laid p b ps m ∧ Laid (ps.getLast?.or p) m qs t := by
  induction ps generalizing p b with
  | nil => exact ⟨b, .nil _ _, by simpa using h⟩
  | cons x xs ih =>
    cases h with
    | cons hg h =>
      obtain ⟨m, h1, h2⟩ := ih h
      refine ⟨m, .cons hg h1, ?_⟩
      cases xs with
      | nil => simpa using h2
      | cons y ys =>
        rw [List.getLast?_cons_cons]
        cases hx : (y :: ys).getLast? with
        | none => simp at hx
        | some z => rw [hx] at h2; exact h2

theorem endsWith_laid {b s : Text} (P : Text) (h : endsWith b s = true) : endsWith (P ++ b) s = true := by
  unfold endsWith at *
  rw [List.isSuffixOf_iff_suffix] at *
  exact h.trans (List.suffix_append P b)

/-- Nothing is always allowed after punctuation. -/
theorem gap_mark (c : Char) (b : Text) (q : Piece) : Gap (some (.mark c)) b q [] := by
  refine ⟨.inl rfl, ?_⟩
  cases q <;> exact fun h => by cases h

/-- How the loop goes on. -/
theorem laid_tokens (ts : Tokens) : Visible ts → ∀ (p : Option Piece) (P b post : Text), (p = none → b = []) →
    (∀ q ∈ (pieces ts).head?, Gap p (P ++ b) q post) → (ts = [] → post = []) →
    Laid p (P ++ b) (pieces ts) (P ++ prettyFrom (b ++ post) ts) := by
  have word : ∀ (t : Text) (ts : Tokens), Visible ts →
      (Visible ts → ∀ (p : Option Piece) (P b post : Text), (p = none → b = []) →
        (∀ q ∈ (pieces ts).head?, Gap p (P ++ b) q post) → (ts = [] → post = []) →
        Laid p (P ++ b) (pieces ts) (P ++ prettyFrom (b ++ post) ts)) →
      ∀ (p : Option Piece) (P b post : Text), (p = none → b = []) → Gap p (P ++ b) (.word t) post →
        Laid p (P ++ b) (.word t :: pieces ts) (P ++ prettyFrom (printWord (b ++ post) t ts.head?) ts) := by
    intro t ts hv ih p P b post hn hg
    have hpre : ∃ sep, (if endsWith (b ++ post) "=".toList || endsWith (b ++ post) "=>".toList then b ++ post ++ [' '] else b ++ post) =
        b ++ sep ∧ Gap p (P ++ b) (.word t) sep := by
      split
      · rename_i h
        have hp : post = [] := by
          rcases hg.1 with hp | hp
          · exact hp
          · rw [hp] at h
            have e1 : endsWith (b ++ [' ']) "=".toList = false := not_endsWith_of_last (s := []) (by decide)
            have e2 : endsWith (b ++ [' ']) "=>".toList = false := not_endsWith_of_last (s := ['=']) (by decide)
            rw [e1, e2] at h; cases h
        subst hp
        refine ⟨[' '], by simp, .inr rfl, ?_⟩
        rw [List.append_nil] at h
        cases p with
        | none => rw [hn rfl] at h; exact absurd h (by decide)
        | some p =>
          cases p with
          | word w => exact absurd hg.2 (by simp)
          | mark c =>
            intro _
            rcases Bool.or_eq_true_iff.1 h with h | h
            · exact .inr (.inr (.inr (.inl (endsWith_laid P h))))
            · exact .inr (.inr (.inr (.inr (endsWith_laid P h))))
      · exact ⟨post, rfl, hg⟩
    obtain ⟨sep, e, hg'⟩ := hpre
    have hpost : ∃ post', printWord (b ++ post) t ts.head? = (b ++ sep ++ t) ++ post' ∧ (post' = [] ∨ post' = [' ']) ∧
        (spaceAfterWord ts.head? = true ↔ post' = [' ']) := by
      unfold printWord
      rw [e]
      cases hs : spaceAfterWord ts.head? with
      | true => exact ⟨[' '], by simp, .inr rfl, by simp⟩
      | false => exact ⟨[], by simp, .inl rfl, by simp⟩
    obtain ⟨post', e', hs1, hs2⟩ := hpost
    rw [e']
    refine .cons hg' ?_
    have := ih hv (some (.word t)) P (b ++ sep ++ t) post' (fun h => by cases h) ?_ ?_
    · simpa only [List.append_assoc, Piece.text] using this
    · intro q hq
      refine ⟨hs1, ?_⟩
      cases q with
      | word w => exact hs2.1 (spaceAfterWord_pieces hv _ hq rfl)
      | mark c =>
        intro hp
        have hns : spaceAfterWord ts.head? = false := by
          cases h : spaceAfterWord ts.head? with
          | false => rfl
          | true => rw [hs2.1 h] at hp; cases hp
        cases ts with
        | nil => simp [pieces] at hq
        | cons tok rest =>
          cases tok with
          | punct d =>
            simp [pieces, piecesOf] at hq
            subst hq
            simp only [List.head?_cons, spaceAfterWord, Bool.not_eq_false', decide_eq_true_eq] at hns
            exact List.mem_append_left _ hns
          | ident w => cases hns
          | literal w => cases hns
          | group d inner =>
            cases d <;> simp [pieces, piecesOf, brackets, Visible, VisibleTree] at hq hv
            all_goals (subst hq; decide)
    · rintro rfl
      rcases hs1 with h | h
      · exact h
      · exact absurd (hs2.2 h) (by simp [spaceAfterWord])
  induction ts using tokens_induction with
  | nil =>
    intro _ p P b post _ _ hp
    rw [hp rfl, List.append_nil]
    exact .nil _ _
  | punct c ts ih =>
    intro hv p P b post hn hg _
    have hv : Visible ts := by simpa [Visible, VisibleTree, and_assoc] using hv
    have hpost : ∃ post', printPunct (b ++ post) c (!ts.isEmpty) = (b ++ post ++ [c]) ++ post' ∧ (post' = [] ∨ post' = [' ']) ∧
        (ts = [] → post' = []) ∧ (post' = [' '] → c = ',' ∨ c = ';' ∨ endsWith (b ++ post ++ [c]) "->".toList = true) := by
      unfold printPunct
      dsimp only
      split
      · rename_i h
        refine ⟨[' '], rfl, .inr rfl, ?_, fun _ => ?_⟩
        · rintro rfl; simp at h
        · simp only [Bool.and_eq_true, Bool.or_eq_true, beq_iff_eq] at h
          rcases h.2 with (h | h) | h
          · exact .inr (.inr h)
          · exact .inl h
          · exact .inr (.inl h)
      · exact ⟨[], by simp, .inl rfl, fun _ => rfl, fun h => by cases h⟩
    obtain ⟨post', e, h1, h2, h3⟩ := hpost
    rw [prettyFrom, printToken, e, pieces, piecesOf, List.singleton_append]
    refine .cons (hg (.mark c) (by simp [pieces, piecesOf])) ?_
    have := ih hv (some (.mark c)) P (b ++ post ++ [c]) post' (fun h => by cases h) ?_ h2
    · simpa only [List.append_assoc, Piece.text] using this
    · intro q _
      refine ⟨h1, ?_⟩
      cases q with
      | word w =>
        intro h
        rcases h3 h with h | h | h
        · exact .inl h
        · exact .inr (.inl h)
        · exact .inr (.inr (.inl (endsWith_laid P h)))
      | mark d =>
        intro h
        rcases h3 h with h | h | h
        · exact .inl h
        · exact .inr (.inl h)
        · exact .inr (.inr (endsWith_laid P h))
  | ident t ts ih =>
    intro hv p P b post hn hg _
    rw [prettyFrom, printToken, pieces, piecesOf]
    exact word t ts (by simpa [Visible, VisibleTree, and_assoc] using hv) ih p P b post hn (hg _ (by simp [pieces, piecesOf]))
  | literal t ts ih =>
    intro hv p P b post hn hg _
    rw [prettyFrom, printToken, pieces, piecesOf]
    exact word t ts (by simpa [Visible, VisibleTree, and_assoc] using hv) ih p P b post hn (hg _ (by simp [pieces, piecesOf]))
  | group d inner ts ih1 ih2 =>
    intro hv p P b post hn hg _
    have hv : d ≠ .none ∧ Visible inner ∧ Visible ts := by simpa [Visible, VisibleTree, and_assoc] using hv
    obtain ⟨hd, hvi, hvt⟩ := hv
    obtain ⟨o, c, hb, ho, hc, hoc⟩ : ∃ o c, brackets d = some (o, c) ∧ d.opening = [o] ∧ d.closing = [c] ∧ c ∈ openers := by
      cases d with
      | none => exact absurd rfl hd
      | _ => exact ⟨_, _, rfl, rfl, rfl, by decide⟩
    have hp : pieces (.group d inner :: ts) = .mark o :: ((pieces inner ++ [.mark c]) ++ pieces ts) := by
      simp [pieces, piecesOf, hb]
    rw [hp] at hg ⊢
    refine .cons (hg (.mark o) (by simp)) ?_
    rw [prettyFrom, printToken, ho, hc]
    have h1 := ih1 hvi (some (.mark o)) (P ++ b ++ post ++ [o]) [] [] (fun h => by cases h) (fun q _ => gap_mark _ _ _) (fun _ => rfl)
    have h2 := ih2 hvt (some (.mark c)) P (b ++ post ++ [o] ++ prettyFrom [] inner ++ [c]) [] (fun h => by cases h)
      (fun q _ => gap_mark _ _ _) (fun _ => rfl)
    rw [List.append_nil] at h1 h2
    refine Laid.append (Laid.append h1 (.cons (sep := []) ?_ (.nil _ _))) ?_
    · refine ⟨.inl rfl, ?_⟩
      cases (pieces inner).getLast? with
      | none => exact fun h => by cases h
      | some x =>
        cases x with
        | word w => exact fun _ => List.mem_append_right _ hoc
        | mark d => exact fun h => by cases h
    · rw [List.getLast?_concat]
      simpa only [List.append_assoc, Piece.text, Option.or, List.nil_append, List.append_nil] using h2

theorem laid_pretty (ts : Tokens) (hv : Visible ts) : Laid none [] (pieces ts) (pretty ts) := by
  have := laid_tokens ts hv none [] [] [] (fun _ => rfl) (fun q _ => ⟨.inl rfl, rfl⟩) (fun _ => rfl)
  simpa [pretty] using this

/-! ### Tokens of a text -/

/-- A token by itself reads as this token. -/
structure Proper (a : Lexeme) : Prop where
  self : lexemes a.text = [a]
  closed : (modeAfter a.text).closed = true
  first : a.isMark = false → ∃ c, a.text.head? = some c ∧ (wordChar c = true ∨ c = '"' ∨ c = '\'')
  marks : a.isMark = true → (∃ c, a.text = [c]) ∨ a.text ∈ longMarks

/-- What has been read of a token reads as this. -/
def _root_.CM.Spec.Mode.sound : Mode → Prop
  | .start | .line | .block _ _ => True
  | .word t => Mode.start.read t = ([], .word t) ∧ ∃ c, t.head? = some c ∧ wordChar c = true
  | .point t => Mode.start.read t = ([], .point t) ∧ Proper (.word t.dropLast) ∧ t.getLast? = some '.' ∧ ∃ c, t.head? = some c ∧ wordChar c = true
  | .mark t => Mode.start.read t = ([], .mark t) ∧ ((∃ c, t = [c]) ∨ t ∈ longMarks)
  | .tick t => Mode.start.read t = ([], .tick t) ∧ ∃ c, t.head? = some c ∧ (wordChar c = true ∨ c = '"' ∨ c = '\'')
  | .quote q t s => Mode.start.read t = ([], .quote q t s) ∧ ∃ c, t.head? = some c ∧ (wordChar c = true ∨ c = '"' ∨ c = '\'')
  | .hashes t n => Mode.start.read t = ([], .hashes t n) ∧ ∃ c, t.head? = some c ∧ wordChar c = true
  | .raw t n s => Mode.start.read t = ([], .raw t n s) ∧ ∃ c, t.head? = some c ∧ wordChar c = true

theorem read_one (m : Mode) (c : Char) : m.read [c] = m.step c := by simp [Mode.read]

theorem read_snoc {t : Text} {m : Mode} (h : Mode.start.read t = ([], m)) (c : Char) : Mode.start.read (t ++ [c]) = m.step c := by
  rw [read_append, h, read_one]; simp

theorem head_snoc {t : Text} {x : Char} (h : t.head? = some x) (c : Char) : (t ++ [c]).head? = some x := by
  cases t with
  | nil => cases h
  | cons y t => exact h

/-- A token that ends. -/
theorem sound_flush {m : Mode} (h : m.sound) (hc : m.closed = true) : ∀ a ∈ m.flush, Proper a := by
  intro a ha
  have key : ∀ {t : Text}, Mode.start.read t = ([], m) → m.flush = [a] → lexemes t = [a] ∧ (modeAfter t).closed = true := by
    intro t hr hf
    unfold lexemes modeAfter
    rw [hr]
    exact ⟨by simpa using hf, hc⟩
  cases m with
  | start | line | block => simp [Mode.flush] at ha
  | quote | raw => cases hc
  | word t =>
    simp [Mode.flush] at ha; subst ha
    obtain ⟨k1, k2⟩ := key h.1 rfl
    obtain ⟨_, x, hx, hw⟩ := h
    exact ⟨k1, k2, fun _ => ⟨x, hx, .inl hw⟩, fun h => by cases h⟩
  | point t =>
    simp [Mode.flush] at ha; subst ha
    obtain ⟨k1, k2⟩ := key h.1 rfl
    obtain ⟨_, _, _, x, hx, hw⟩ := h
    exact ⟨k1, k2, fun _ => ⟨x, hx, .inl hw⟩, fun h => by cases h⟩
  | mark t =>
    simp [Mode.flush] at ha; subst ha
    obtain ⟨k1, k2⟩ := key h.1 rfl
    exact ⟨k1, k2, (fun h => by cases h), fun _ => h.2⟩
  | tick t =>
    simp [Mode.flush] at ha; subst ha
    obtain ⟨k1, k2⟩ := key h.1 rfl
    obtain ⟨_, x, hx, hw⟩ := h
    exact ⟨k1, k2, fun _ => ⟨x, hx, hw⟩, fun h => by cases h⟩
  | hashes t n =>
    simp [Mode.flush] at ha; subst ha
    obtain ⟨k1, k2⟩ := key h.1 rfl
    obtain ⟨_, x, hx, hw⟩ := h
    exact ⟨k1, k2, fun _ => ⟨x, hx, .inl hw⟩, fun h => by cases h⟩

/-- A character with nothing before it. -/
theorem sound_fresh (c : Char) : (freshStep c).2.sound ∧ ∀ a ∈ (freshStep c).1, Proper a := by
  have hr : Mode.start.read [c] = freshStep c := read_one _ _
  unfold freshStep at *
  by_cases h1 : whiteChar c = true
  · rw [if_pos h1] at *; exact ⟨trivial, fun a ha => by cases ha⟩
  rw [if_neg h1] at *
  by_cases h2 : wordChar c = true
  · rw [if_pos h2] at *; exact ⟨⟨hr, c, rfl, h2⟩, fun a ha => by cases ha⟩
  rw [if_neg h2] at *
  by_cases h3 : c = '"'
  · rw [if_pos h3] at *; exact ⟨⟨hr, c, rfl, .inr (.inl h3)⟩, fun a ha => by cases ha⟩
  rw [if_neg h3] at *
  by_cases h4 : c = '\''
  · rw [if_pos h4] at *; exact ⟨⟨hr, c, rfl, .inr (.inr h4)⟩, fun a ha => by cases ha⟩
  rw [if_neg h4] at *
  by_cases h5 : c ∈ ['(', ')', '[', ']', '{', '}', ',', ';', '?', '#', '$', '~', '@']
  · rw [if_pos h5] at *
    refine ⟨trivial, fun a ha => ?_⟩
    simp at ha; subst ha
    refine ⟨?_, ?_, (fun h => by cases h), fun _ => .inl ⟨c, rfl⟩⟩
    · unfold lexemes; rw [Lexeme.text, hr]; rfl
    · unfold modeAfter; rw [Lexeme.text, hr]; rfl
  · rw [if_neg h5] at *; exact ⟨⟨hr, .inl ⟨c, rfl⟩⟩, fun a ha => by cases ha⟩

theorem sound_cut {m : Mode} (h : m.sound) (hc : m.closed = true) (c : Char) :
    (m.cut c).2.sound ∧ ∀ a ∈ (m.cut c).1, Proper a := by
  refine ⟨(sound_fresh c).1, fun a ha => ?_⟩
  rcases List.mem_append.1 ha with ha | ha
  · exact sound_flush h hc a ha
  · exact (sound_fresh c).2 a ha

/-- A literal in quotes is complete. -/
theorem proper_quoted {t : Text} {x : Char} (h : Mode.start.read t = ([.quoted t], .start)) (hx : t.head? = some x)
    (hw : wordChar x = true ∨ x = '"' ∨ x = '\'') : Proper (.quoted t) := by
  refine ⟨?_, ?_, fun _ => ⟨x, hx, hw⟩, fun h => by cases h⟩
  · unfold lexemes; rw [Lexeme.text, h]; rfl
  · unfold modeAfter; rw [Lexeme.text, h]; rfl

theorem proper_point : Proper (.mark ".".toList) := ⟨by decide, by decide, (fun h => by cases h), fun _ => .inl ⟨'.', rfl⟩⟩

theorem word_not_white {c : Char} (h : wordChar c = true) : whiteChar c = false := by
  unfold wordChar whiteChar at *
  cases hw : (decide (9 ≤ c.toNat) && decide (c.toNat ≤ 13) || c == ' ' || decide (c.toNat ∈ [0x85, 0x200E, 0x200F, 0x2028, 0x2029]))
  · rfl
  · exfalso
    simp only [Bool.or_eq_true, Bool.and_eq_true, decide_eq_true_eq, beq_iff_eq] at hw
    rcases hw with (hw | hw) | hw
    · have ha : c.isAlphanum = false := by
        simp only [Char.isAlphanum, Char.isAlpha, Char.isUpper, Char.isLower, Char.isDigit]
        simp [UInt32.le_iff_toNat_le]
        omega
      have hu : (c == '_') = false := by
        rw [beq_eq_false_iff_ne]
        rintro rfl
        exact absurd hw.2 (by decide)
      rw [ha, hu] at h
      simp at h
      omega
    · subst hw; exact absurd h (by decide)
    · have ha : c.isAlphanum = false := by
        simp only [Char.isAlphanum, Char.isAlpha, Char.isUpper, Char.isLower, Char.isDigit]
        simp only [List.mem_cons, List.not_mem_nil, or_false] at hw
        simp [UInt32.le_iff_toNat_le]
        omega
      have hu : (c == '_') = false := by
        rw [beq_eq_false_iff_ne]
        rintro rfl
        exact absurd hw (by decide)
      rw [ha, hu] at h
      simp [hw] at h

/-- What is read of a token reads as this, character by character. -/
theorem sound_step {m : Mode} (h : m.sound) (c : Char) : (m.step c).2.sound ∧ ∀ a ∈ (m.step c).1, Proper a := by
  have none : ∀ a ∈ ([] : List Lexeme), Proper a := fun a ha => by cases ha
  cases m with
  | start => exact sound_fresh c
  | line =>
    dsimp only [Mode.step]
    split <;> exact ⟨trivial, none⟩
  | block d l =>
    dsimp only [Mode.step]
    repeat' split
    all_goals exact ⟨trivial, none⟩
  | word t =>
    obtain ⟨hr, x, hx, hw⟩ := h
    have hs := read_snoc hr c
    have hx' := head_snoc hx c
    dsimp only [Mode.step] at hs ⊢
    by_cases c1 : wordChar c = true
    · rw [if_pos c1] at *; exact ⟨⟨hs, x, hx', hw⟩, none⟩
    rw [if_neg c1] at *
    by_cases c2 : c = '.' ∧ t.head?.any Char.isDigit ∧ '.' ∉ t
    · rw [if_pos c2] at *
      refine ⟨⟨hs, ?_, by rw [List.getLast?_concat, c2.1], x, hx', hw⟩, none⟩
      rw [List.dropLast_concat]
      exact sound_flush (m := .word t) ⟨hr, x, hx, hw⟩ rfl _ (by simp [Mode.flush])
    rw [if_neg c2] at *
    by_cases c3 : (c = '+' ∨ c = '-') ∧ beforeExponent t
    · rw [if_pos c3] at *; exact ⟨⟨hs, x, hx', hw⟩, none⟩
    rw [if_neg c3] at *
    by_cases c4 : c = '"' ∧ t ∈ ["b".toList, "c".toList]
    · rw [if_pos c4] at *; exact ⟨⟨hs, x, hx', .inl hw⟩, none⟩
    rw [if_neg c4] at *
    by_cases c5 : c = '\'' ∧ t = "b".toList
    · rw [if_pos c5] at *; exact ⟨⟨hs, x, hx', .inl hw⟩, none⟩
    rw [if_neg c5] at *
    by_cases c6 : c = '"' ∧ t ∈ ["r".toList, "br".toList, "cr".toList]
    · rw [if_pos c6] at *; exact ⟨⟨hs, x, hx', hw⟩, none⟩
    rw [if_neg c6] at *
    by_cases c7 : c = '#' ∧ t ∈ ["r".toList, "br".toList, "cr".toList]
    · rw [if_pos c7] at *; exact ⟨⟨hs, x, hx', hw⟩, none⟩
    rw [if_neg c7] at *
    exact sound_cut (m := .word t) ⟨hr, x, hx, hw⟩ rfl c
  | point t =>
    obtain ⟨hr, hp, hpt, x, hx, hw⟩ := h
    have hs := read_snoc hr c
    have hx' := head_snoc hx c
    dsimp only [Mode.step] at hs ⊢
    by_cases c1 : c.isDigit = true
    · rw [if_pos c1] at *; exact ⟨⟨hs, x, hx', hw⟩, none⟩
    rw [if_neg c1] at *
    by_cases c2 : c = '.'
    · rw [if_pos c2] at *
      refine ⟨⟨by decide, .inr (by decide)⟩, fun a ha => ?_⟩
      simp at ha; subst ha; exact hp
    rw [if_neg c2] at *
    by_cases c3 : wordChar c = true
    · rw [if_pos c3] at *
      refine ⟨⟨?_, c, rfl, c3⟩, fun a ha => ?_⟩
      · have hww : whiteChar c = false := word_not_white c3
        rw [read_one]
        simp [Mode.step, freshStep, hww, c3]
      · simp only [List.mem_cons, List.not_mem_nil, or_false] at ha
        rcases ha with rfl | rfl
        · exact hp
        · exact proper_point
    rw [if_neg c3] at *
    exact sound_cut (m := .point t) ⟨hr, hp, hpt, x, hx, hw⟩ rfl c
  | mark t =>
    obtain ⟨hr, hl⟩ := h
    have hs := read_snoc hr c
    dsimp only [Mode.step] at hs ⊢
    by_cases c1 : t = "/".toList ∧ c = '/'
    · rw [if_pos c1] at *; exact ⟨trivial, none⟩
    rw [if_neg c1] at *
    by_cases c2 : t = "/".toList ∧ c = '*'
    · rw [if_pos c2] at *; exact ⟨trivial, none⟩
    rw [if_neg c2] at *
    by_cases c3 : t ++ [c] ∈ longMarks
    · rw [if_pos c3] at *; exact ⟨⟨hs, .inr c3⟩, none⟩
    rw [if_neg c3] at *
    exact sound_cut (m := .mark t) ⟨hr, hl⟩ rfl c
  | tick t =>
    obtain ⟨hr, x, hx, hw⟩ := h
    have hs := read_snoc hr c
    have hx' := head_snoc hx c
    dsimp only [Mode.step] at hs ⊢
    by_cases c1 : t.getLast? = some '\''
    · rw [if_pos c1] at *
      by_cases c2 : wordChar c = true
      · rw [if_pos c2] at *; exact ⟨⟨hs, x, hx', hw⟩, none⟩
      · rw [if_neg c2] at *; exact ⟨⟨hs, x, hx', hw⟩, none⟩
    rw [if_neg c1] at *
    by_cases c2 : c = '\''
    · rw [if_pos c2] at *
      refine ⟨trivial, fun a ha => ?_⟩
      simp only [List.mem_singleton] at ha; subst ha
      exact proper_quoted hs hx' hw
    rw [if_neg c2] at *
    by_cases c3 : wordChar c = true
    · rw [if_pos c3] at *; exact ⟨⟨hs, x, hx', hw⟩, none⟩
    rw [if_neg c3] at *
    exact sound_cut (m := .tick t) ⟨hr, x, hx, hw⟩ (by simpa [Mode.closed] using c1) c
  | quote q t s =>
    obtain ⟨hr, x, hx, hw⟩ := h
    have hs := read_snoc hr c
    have hx' := head_snoc hx c
    dsimp only [Mode.step] at hs ⊢
    by_cases c1 : s = true
    · rw [if_pos c1] at *; exact ⟨⟨hs, x, hx', hw⟩, none⟩
    rw [if_neg c1] at *
    by_cases c2 : c = q
    · rw [if_pos c2] at *
      refine ⟨trivial, fun a ha => ?_⟩
      simp only [List.mem_singleton] at ha; subst ha
      exact proper_quoted hs hx' hw
    rw [if_neg c2] at *
    exact ⟨⟨hs, x, hx', hw⟩, none⟩
  | hashes t n =>
    obtain ⟨hr, x, hx, hw⟩ := h
    have hs := read_snoc hr c
    have hx' := head_snoc hx c
    dsimp only [Mode.step] at hs ⊢
    by_cases c1 : c = '#'
    · rw [if_pos c1] at *; exact ⟨⟨hs, x, hx', hw⟩, none⟩
    rw [if_neg c1] at *
    by_cases c2 : c = '"'
    · rw [if_pos c2] at *; exact ⟨⟨hs, x, hx', hw⟩, none⟩
    rw [if_neg c2] at *
    by_cases c3 : wordChar c = true
    · rw [if_pos c3] at *; exact ⟨⟨hs, x, hx', hw⟩, none⟩
    rw [if_neg c3] at *
    exact sound_cut (m := .hashes t n) ⟨hr, x, hx, hw⟩ rfl c
  | raw t n s =>
    obtain ⟨hr, x, hx, hw⟩ := h
    have hs := read_snoc hr c
    have hx' := head_snoc hx c
    dsimp only [Mode.step] at hs ⊢
    by_cases c1 : c = '"'
    · rw [if_pos c1] at *
      by_cases c2 : n = 0
      · rw [if_pos c2] at *
        refine ⟨trivial, fun a ha => ?_⟩
        simp only [List.mem_singleton] at ha; subst ha
        exact proper_quoted hs hx' (.inl hw)
      · rw [if_neg c2] at *; exact ⟨⟨hs, x, hx', hw⟩, none⟩
    rw [if_neg c1] at *
    cases s with
    | none => exact ⟨⟨hs, x, hx', hw⟩, none⟩
    | some k =>
      dsimp only at hs ⊢
      by_cases c2 : c = '#'
      · rw [if_pos c2] at *
        by_cases c3 : k + 1 = n
        · rw [if_pos c3] at *
          refine ⟨trivial, fun a ha => ?_⟩
          simp only [List.mem_singleton] at ha; subst ha
          exact proper_quoted hs hx' (.inl hw)
        · rw [if_neg c3] at *; exact ⟨⟨hs, x, hx', hw⟩, none⟩
      · rw [if_neg c2] at *; exact ⟨⟨hs, x, hx', hw⟩, none⟩

theorem sound_read (t : Text) : ∀ {m : Mode}, m.sound → (m.read t).2.sound ∧ ∀ a ∈ (m.read t).1, Proper a := by
  induction t with
  | nil => exact fun h => ⟨h, fun a ha => by cases ha⟩
  | cons c t ih =>
    intro m h
    obtain ⟨h1, h2⟩ := sound_step h c
    obtain ⟨h3, h4⟩ := ih h1
    refine ⟨h3, fun a ha => ?_⟩
    rcases List.mem_append.1 ha with ha | ha
    · exact h2 a ha
    · exact h4 a ha

/-- Each token of a text, by itself, reads as this token. -/
theorem proper_lexemes (t : Text) (h : (modeAfter t).closed = true) : ∀ a ∈ lexemes t, Proper a := by
  intro a ha
  obtain ⟨h1, h2⟩ := sound_read t (m := .start) trivial
  rcases List.mem_append.1 ha with ha | ha
  · exact h2 a ha
  · exact sound_flush h1 h a ha

/-! ### Reading what is printed -/

theorem long_marks_plain : ∀ m ∈ longMarks, ',' ∉ m ∧ ';' ∉ m ∧ (∀ i < 3, m[i]? = some '-' → m[i + 1]? = some '>' → m[i + 2]? = none) ∧
    (m.getLast? = some '-' → False) ∧ (∀ c ∈ m, wordChar c = false ∧ c ≠ '"' ∧ c ≠ '\'') := by decide

/-- Nothing is printed inside of punctuation. -/
theorem laid_inside : ∀ (cs : Text) (u : Text) (d : Char) (B t : Text) (rest : List Piece), (cs ≠ [] → u ++ d :: cs ∈ longMarks) →
    (cs ≠ [] → u = [] → d = '>' → B.getLast? ≠ some '-') →
    Laid (some (.mark d)) (B ++ u ++ [d]) (cs.map .mark ++ rest) t →
    Laid ((d :: cs).map Piece.mark).getLast? (B ++ u ++ d :: cs) rest t
  | [], u, d, B, t, rest, _, _, h => by simpa using h
  | c :: cs, u, d, B, t, rest, hm, hb, h => by
    cases h with
    | @cons _ _ _ sep _ _ hg h =>
      have hm' := hm (by simp)
      obtain ⟨n1, n2, n3, _⟩ := long_marks_plain _ hm'
      have hs : sep = [] := by
        rcases hg.1 with hs | hs
        · exact hs
        exfalso
        rcases hg.2 hs with hd | hd | hd
        · exact n1 (by simp [hd])
        · exact n2 (by simp [hd])
        · unfold endsWith at hd
          rw [List.isSuffixOf_iff_suffix] at hd
          obtain ⟨v, hv⟩ := hd
          have hv : (v ++ ['-']) ++ ['>'] = (B ++ u) ++ [d] := by simpa using hv
          obtain ⟨e1, e2⟩ := List.append_inj' hv rfl
          have e2 : d = '>' := by simpa using e2.symm
          cases hu : u.getLast? with
          | none =>
            have hu' : u = [] := by simpa using hu
            subst hu'
            refine hb (by simp) rfl e2 ?_
            rw [List.append_nil] at e1
            rw [← e1, List.getLast?_concat]
          | some x =>
            obtain ⟨u', rfl⟩ := List.getLast?_eq_some_iff.1 hu
            have e1 : v ++ ['-'] = (B ++ u') ++ [x] := by simpa using e1
            obtain ⟨_, e3⟩ := List.append_inj' e1 rfl
            have e3 : x = '-' := by simpa using e3.symm
            subst e2 e3
            have hlen : ∀ m ∈ longMarks, m.length ≤ 3 := by decide
            have hl := hlen _ hm'
            simp at hl
            have := n3 u'.length (by omega) (by simp) (by simp)
            simp at this
      subst hs
      have e : (Piece.mark c :: (cs.map Piece.mark)) = (c :: cs).map Piece.mark := rfl
      have := laid_inside cs (u ++ [d]) c B t rest (fun _ => by simpa using hm') (fun _ hn => by simp at hn) (by simpa [Piece.text] using h)
      rw [List.map_cons, List.map_cons, List.getLast?_cons_cons, ← List.map_cons]
      simpa using this

/-- One token of those that are printed. -/
theorem laid_token {p : Option Piece} {b t : Text} {a : Lexeme} {rest : List Piece} (ha : Proper a)
    (hb : a.isMark = true → a.text ∈ longMarks → a.text.head? = some '>' → ∀ sep, Gap p b (.mark '>') sep → (b ++ sep).getLast? ≠ some '-')
    (h : Laid p b (a.parts ++ rest) t) :
    ∃ q sep, a.parts.head? = some q ∧ Gap p b q sep ∧ Laid a.parts.getLast? (b ++ sep ++ a.text) rest t := by
  have one : ∀ w : Text, a.parts = [.word w] → a.text = w →
      ∃ q sep, a.parts.head? = some q ∧ Gap p b q sep ∧ Laid a.parts.getLast? (b ++ sep ++ a.text) rest t := by
    intro w hp hw
    rw [hp] at h ⊢
    cases h with
    | cons hg h => exact ⟨_, _, rfl, hg, by rw [hw]; exact h⟩
  cases a with
  | quoted w => exact one w rfl rfl
  | word w =>
    cases w with
    | nil => exact one [] rfl rfl
    | cons c w =>
      by_cases hc : c = '\''
      · subst hc
        cases h with
        | cons hg h =>
          cases h with
          | @cons _ _ _ sep _ _ hg' h =>
            have hs : sep = [] := by
              rcases hg'.1 with hs | hs
              · exact hs
              have no : ∀ {B s : Text} {x : Char}, x ≠ '\'' → endsWith (B ++ ['\'']) (s ++ [x]) = true → False := by
                intro B s x hx he
                rw [not_endsWith_of_last (Ne.symm hx)] at he; cases he
              rcases hg'.2 hs with hd | hd | hd | hd | hd
              · exact absurd hd (by decide)
              · exact absurd hd (by decide)
              · exact (no (s := ['-']) (x := '>') (by decide) hd).elim
              · exact (no (s := []) (x := '=') (by decide) hd).elim
              · exact (no (s := ['=']) (x := '>') (by decide) hd).elim
            subst hs
            exact ⟨_, _, rfl, hg, by simpa [Piece.text, Lexeme.text, Lexeme.parts] using h⟩
      · have hp : (Lexeme.word (c :: w)).parts = [.word (c :: w)] := by
          unfold Lexeme.parts
          split
          · rename_i heq; cases heq; exact absurd rfl hc
          · rename_i heq; cases heq; rfl
          · rename_i heq; cases heq
          · rename_i heq; cases heq
        exact one _ hp rfl
  | mark m =>
    cases m with
    | nil => rcases ha.marks rfl with ⟨c, hc⟩ | hm
             · cases hc
             · exact absurd hm (by decide)
    | cons c cs =>
      rw [show (Lexeme.mark (c :: cs)).parts = .mark c :: cs.map .mark from rfl] at h ⊢
      cases h with
      | @cons _ _ _ sep _ _ hg h =>
        refine ⟨_, _, rfl, hg, ?_⟩
        have hl : cs ≠ [] → c :: cs ∈ longMarks := by
          intro hne
          rcases ha.marks rfl with ⟨d, hd⟩ | hm
          · exact absurd (List.cons.inj hd).2 hne
          · exact hm
        have := laid_inside cs [] c (b ++ sep) t rest (by simpa using hl) (fun hne _ hc => by
          subst hc; exact hb rfl (hl hne) rfl sep hg) (by simpa [Piece.text] using h)
        simpa [Lexeme.text] using this

theorem mode_of_word {a : Lexeme} (ha : Proper a) (hm : a.isMark = false) (t : Text) : modeAfter a.text ≠ .mark t := by
  intro h
  have hs := ha.self
  unfold lexemes at hs
  unfold modeAfter at h
  rw [h, Mode.flush] at hs
  have := (List.append_inj' (s₁ := []) hs.symm rfl).2
  simp at this
  rw [this] at hm; cases hm

theorem mode_of_mark {a : Lexeme} (ha : Proper a) (hm : a.isMark = true) : modeAfter a.text = .start ∨ ∃ t, modeAfter a.text = .mark t := by
  have hc := ha.closed
  have hs := ha.self
  unfold lexemes at hs
  unfold modeAfter at *
  have key : ∀ x, (Mode.start.read a.text).2.flush = [x] → x = a := by
    intro x hx
    rw [hx] at hs
    have := (List.append_inj' (s₁ := []) hs.symm rfl).2
    simpa using this.symm
  cases h : (Mode.start.read a.text).2 with
  | start => exact .inl rfl
  | mark t => exact .inr ⟨t, rfl⟩
  | word t => have := key (.word t) (by rw [h]; rfl); rw [← this] at hm; cases hm
  | point t => have := key (.word t) (by rw [h]; rfl); rw [← this] at hm; cases hm
  | tick t => have := key (.word t) (by rw [h]; rfl); rw [← this] at hm; cases hm
  | hashes t n => have := key (.word t) (by rw [h]; rfl); rw [← this] at hm; cases hm
  | quote | raw | line | block => rw [h] at hc; cases hc

theorem Clear.of_apart {a b : Lexeme} (ha : Proper a) (hb : Proper b) (hne : b.text ≠ []) (h : Apart a.text b.text) : Clear a b :=
  ⟨by rw [lexemes_apart h, ha.self, hb.self]; rfl, mode_apart h hne⟩

theorem proper_nonempty {a : Lexeme} (ha : Proper a) : a.text ≠ [] := by
  intro h
  have := ha.self
  rw [h] at this
  cases this

/-- A space is needed in fewer places than there are spaces. -/
theorem clear_of_gap {a a' : Lexeme} (ha : Proper a) (ha' : Proper a')
    (hcl : a'.isMark = true → (a.isMark = true ∨ a'.text.head? = some '.') → Clear a a')
    {b sep : Text} {q : Piece} (hq : a'.parts.head? = some q) (hg : Gap a.parts.getLast? b q sep) :
    sep = [' '] ∨ (sep = [] ∧ Clear a a') := by
  rcases hg.1.symm with hs | hs
  · exact .inl hs
  refine .inr ⟨hs, ?_⟩
  subst hs
  cases hm' : a'.isMark with
  | true =>
    obtain ⟨m, rfl⟩ : ∃ m, a' = .mark m := by
      cases a' with
      | mark m => exact ⟨m, rfl⟩
      | word | quoted => cases hm'
    cases hm : a.isMark with
    | true => exact hcl hm' (.inl hm)
    | false =>
      by_cases hd : (Lexeme.mark m).text.head? = some '.'
      · exact hcl hm' (.inr hd)
      · cases m with
        | nil => exact absurd rfl (proper_nonempty ha')
        | cons c cs =>
          have hq : q = .mark c := by simpa [Lexeme.parts] using hq.symm
          subst hq
          have hlast : ∃ w, a.parts.getLast? = some (.word w) := by
            cases a with
            | mark => cases hm
            | quoted w => exact ⟨w, rfl⟩
            | word w =>
              unfold Lexeme.parts
              split
              · exact ⟨_, rfl⟩
              · exact ⟨_, rfl⟩
              · exact ⟨_, rfl⟩
              · rename_i heq; cases heq
          obtain ⟨w, hw⟩ := hlast
          rw [hw] at hg
          have hc : c ∈ [',', ';', '<', '>', ':', '.', '!'] ++ openers := hg.2 rfl
          have hc' : c ≠ '.' := fun h => hd (by rw [h]; rfl)
          have hpl : wordChar c = false ∧ c.isDigit = false ∧ c ≠ '+' ∧ c ≠ '-' ∧ c ≠ '"' ∧ c ≠ '\'' ∧ c ≠ '#' := by
            revert hc
            generalize c = c
            revert c
            decide
          obtain ⟨p1, p2, p3, p4, p5, p6, p7⟩ := hpl
          refine Clear.of_apart ha ha' (by simp [Lexeme.text]) ⟨ha.closed, fun x hx => ?_⟩
          have hx : c = x := by simpa [Lexeme.text] using hx
          subst hx
          have hcl := ha.closed
          have hnm := mode_of_word ha hm
          revert hcl hnm
          generalize modeAfter a.text = mode
          intro hcl hnm
          cases mode with
          | start => simp [Mode.step, Mode.cut, Mode.flush]
          | word t => simp [Mode.step, p1, hc', p3, p4, p5, p6, p7]
          | point t => simp [Mode.step, p1, p2, hc']
          | mark t => exact absurd rfl (hnm t)
          | tick t =>
            have : t.getLast? ≠ some '\'' := by simpa [Mode.closed] using hcl
            simp [Mode.step, p1, p6, this]
          | hashes t n => simp [Mode.step, p1, p5, p7]
          | quote | raw | line | block => cases hcl
  | false =>
    cases hm : a.isMark with
    | true =>
      obtain ⟨c, hc, hw⟩ := ha'.first hm'
      refine Clear.of_apart ha ha' (proper_nonempty ha') ⟨ha.closed, fun x hx => ?_⟩
      have hx : c = x := Option.some.inj (hc.symm.trans hx)
      subst hx
      rcases mode_of_mark ha hm with h | ⟨t, h⟩
      · rw [h]; simp [Mode.step, Mode.cut, Mode.flush]
      · rw [h]
        have h1 : c ≠ '/' := by
          rintro rfl
          exact absurd hw (by decide)
        have h2 : c ≠ '*' := by
          rintro rfl
          exact absurd hw (by decide)
        have h3 : t ++ [c] ∉ longMarks := by
          intro hl
          obtain ⟨n1, n2, n3⟩ := (long_marks_plain _ hl).2.2.2.2 c (by simp)
          rcases hw with hw | hw | hw
          · rw [hw] at n1; cases n1
          · exact n2 hw
          · exact n3 hw
        simp [Mode.step, h1, h2, h3]
    | false =>
      exfalso
      have hlast : ∃ w, a.parts.getLast? = some (.word w) := by
        cases a with
        | mark => cases hm
        | quoted w => exact ⟨w, rfl⟩
        | word w =>
          unfold Lexeme.parts
          split
          · exact ⟨_, rfl⟩
          · exact ⟨_, rfl⟩
          · exact ⟨_, rfl⟩
          · rename_i heq; cases heq
      obtain ⟨w, hw⟩ := hlast
      rw [hw] at hg
      cases q with
      | word v => exact absurd hg.2 (by simp)
      | mark c =>
        have hc : c = '\'' := by
          cases a' with
          | mark => cases hm'
          | quoted w => cases hq
          | word w =>
            unfold Lexeme.parts at hq
            split at hq
            · simpa using hq.symm
            · cases hq
            · cases hq
            · rename_i heq; cases heq
        subst hc
        exact absurd (hg.2 rfl) (by decide)

/-- The text so far reads as the tokens so far, the last of which is `a`. -/
structure SoFar (b : Text) (L : List Lexeme) (a : Lexeme) : Prop where
  mode : (Mode.start.read b).2 = modeAfter a.text
  toks : (Mode.start.read b).1 ++ (modeAfter a.text).flush = L ++ [a]
  last : b.getLast? = a.text.getLast?

theorem SoFar.step {b sep : Text} {L : List Lexeme} {a a' : Lexeme} (h : SoFar b L a) (ha : Proper a) (ha' : Proper a')
    (hs : sep = [' '] ∨ (sep = [] ∧ Clear a a')) : SoFar (b ++ sep ++ a'.text) (L ++ [a]) a' := by
  have hlast : (b ++ sep ++ a'.text).getLast? = a'.text.getLast? := by
    have := proper_nonempty ha'
    rw [List.getLast?_append]
    cases hx : a'.text.getLast? with
    | none => exact absurd (by simpa using hx) this
    | some x => rfl
  rcases hs with rfl | ⟨rfl, h1, h2⟩
  · have e : (modeAfter a.text).read [' '] = ((modeAfter a.text).flush, .start) := by
      rw [read_one, space_cuts _ ha.closed]
      simp [Mode.cut, show freshStep ' ' = ([], .start) by decide]
    refine ⟨?_, ?_, hlast⟩
    · rw [read_append, read_append, h.mode, e]; rfl
    · rw [read_append, read_append, h.mode, e]
      dsimp only
      rw [h.toks, List.append_assoc]
      exact congrArg _ ha'.self
  · have hr : modeAfter (a.text ++ a'.text) = ((modeAfter a.text).read a'.text).2 := by
      unfold modeAfter; rw [read_append]
    have hself := ha.self
    unfold lexemes at hself h1
    rw [read_append] at h1
    dsimp only at h1
    have hcl : ((Mode.start.read a.text).2.read a'.text).2 = modeAfter a'.text := by rw [← h2, hr]; rfl
    rw [hcl] at h1
    refine ⟨?_, ?_, hlast⟩
    · rw [List.append_nil, read_append, h.mode, ← hr, h2]
    · rw [List.append_nil, read_append, h.mode]
      dsimp only
      have ht := h.toks
      have hm : (Mode.start.read a.text).2 = modeAfter a.text := rfl
      rw [hm] at h1 hself
      -- either the token before was complete already, or it is what is read of it
      cases hf : (modeAfter a.text).flush with
      | nil =>
        rw [hf, List.append_nil] at ht hself
        rw [hself] at h1
        have h1 : ((modeAfter a.text).read a'.text).1 ++ (modeAfter a'.text).flush = [a'] := by simpa using h1
        rw [ht, List.append_assoc, h1]
      | cons x xs =>
        rw [hf] at hself ht
        have hlen := congrArg List.length hself
        simp at hlen
        have hE : (Mode.start.read a.text).1 = [] := List.eq_nil_of_length_eq_zero (by omega)
        rw [hE] at h1 hself
        have hx : x :: xs = [a] := by simpa using hself
        rw [hx] at ht
        have hb : (Mode.start.read b).1 = L := (List.append_inj' ht rfl).1
        have h1 : ((modeAfter a.text).read a'.text).1 ++ (modeAfter a'.text).flush = [a, a'] := by simpa using h1
        rw [hb, List.append_assoc, h1]
        simp

/-- The tokens that follow. -/
theorem laid_reads : ∀ (ls : List Lexeme) (b t : Text) (L : List Lexeme) (a : Lexeme), SoFar b L a → Proper a → (∀ x ∈ ls, Proper x) →
    SpaceFree (a :: ls) → Laid a.parts.getLast? b (ls.flatMap Lexeme.parts) t → ∃ L' a', SoFar t L' a' ∧ Proper a' ∧ L' ++ [a'] = L ++ a :: ls
  | [], b, t, L, a, h, ha, _, _, hl => by
    cases hl
    exact ⟨L, a, h, ha, by simp⟩
  | a' :: ls, b, t, L, a, h, ha, hp, hf, hl => by
    have ha' := hp a' (by simp)
    rw [List.flatMap_cons] at hl
    have hcl : a'.isMark = true → (a.isMark = true ∨ a'.text.head? = some '.') → Clear a a' := fun h1 h2 =>
      hf.clear a a' ⟨[], ls, by simp⟩ h1 h2
    obtain ⟨q, sep, hq, hg, hl'⟩ := laid_token ha' (by
      intro hm' hlong hhd sep hg hlast
      rcases hg.1 with rfl | rfl
      · rw [List.append_nil, h.last] at hlast
        cases hm : a.isMark with
        | false => exact hf.sign a (by simp) hm hlast
        | true =>
          have hmin : a.text = ['-'] := by
            rcases ha.marks hm with ⟨c, hc⟩ | hlm
            · rw [hc] at hlast ⊢; simp at hlast; rw [hlast]
            · exact ((long_marks_plain _ hlm).2.2.2.1 hlast).elim
          have hc := (hcl hm' (.inl hm)).1
          rw [hmin] at hc
          have hne : ∀ m ∈ longMarks, m.head? = some '>' → ∀ x y, lexemes (['-'] ++ m) = [x, y] → x ≠ .mark ['-'] := by
            intro m hmem hh x y hxy
            have key : ∀ m ∈ longMarks, m.head? = some '>' → (lexemes (['-'] ++ m)).head? = some (.mark "->".toList) := by decide +kernel
            have := key m hmem hh
            rw [hxy] at this
            have : x = .mark "->".toList := by simpa using this
            rw [this]; decide
          refine hne _ hlong hhd _ _ hc ?_
          cases a with
          | mark m => exact congrArg _ hmin
          | word | quoted => cases hm
      · rw [List.getLast?_concat] at hlast
        exact absurd hlast (by decide)) hl
    obtain ⟨L', x, h1, h2, h3⟩ := laid_reads ls _ t (L ++ [a]) a' (h.step ha ha' (clear_of_gap ha ha' hcl hq hg)) ha' (fun x hx => hp x (by simp [hx]))
      ⟨fun x y hi => hf.clear x y (hi.trans ⟨[a], [], by simp⟩), fun x hx => hf.sign x (by simp [List.mem_cons.1 hx])⟩ hl'
    exact ⟨L', x, h1, h2, by rw [h3]; simp⟩

/-- What is printed reads as the text. -/
theorem pretty_reads (src : Text) (ts : Tokens) (h : TokensOf src ts) (hf : SpaceFree (lexemes src)) :
    lexemes (pretty ts) = lexemes src ∧ (modeAfter (pretty ts)).closed = true := by
  have hp := proper_lexemes src h.closed
  have hl := laid_pretty ts h.visible
  rw [h.parts] at hl
  revert hp hl hf
  generalize lexemes src = ls
  intro hf hp hl
  cases ls with
  | nil =>
    generalize pretty ts = t at hl
    cases hl
    exact ⟨rfl, rfl⟩
  | cons a ls =>
    have ha := hp a (by simp)
    rw [List.flatMap_cons] at hl
    obtain ⟨q, sep, hq, hg, hl'⟩ := laid_token ha (by
      intro _ _ _ sep hg hlast
      rw [show sep = [] from hg.2] at hlast
      cases hlast) hl
    rw [show sep = [] from hg.2] at hl'
    have h0 : SoFar ([] ++ [] ++ a.text) [] a := by
      rw [List.append_nil, List.nil_append]
      exact ⟨rfl, ha.self, rfl⟩
    obtain ⟨L', x, h1, h2, h3⟩ := laid_reads ls _ _ [] a h0 ha (fun x hx => hp x (by simp [hx])) hf hl'
    constructor
    · unfold lexemes
      rw [h1.mode, h1.toks, h3]
      rfl
    · rw [show modeAfter (pretty ts) = _ from h1.mode]
      exact h2.closed

end CM.Props
