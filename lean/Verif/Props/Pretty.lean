import Verif.Spec.Tokens
/-! C65: printing generated code. -/
namespace CM.Props
open CM CM.Spec

theorem Printed.append : ∀ (ps : List Piece) (qs : List Piece) (a sep b : Text), ps ≠ [] → qs ≠ [] →
    Printed ps a → Printed qs b → (sep = [] ∨ sep = [' ']) →
    (∀ p ∈ ps.getLast?, ∀ q ∈ qs.head?, p.isWord = true → q.isWord = true → sep = [' ']) →
    Printed (ps ++ qs) (a ++ sep ++ b)
  | [], _, _, _, _, h, _, _, _, _, _ => absurd rfl h
  | [p], qs, a, sep, b, _, hq, h1, h2, h3, h4 => by
    cases qs with
    | nil => exact absurd rfl hq
    | cons q rest =>
      refine ⟨sep, b, ?_, h3, ?_, h2⟩
      · rw [show a = p.text from h1]
      · exact h4 p (by simp) q (by simp)
  | p :: p' :: ps, qs, a, sep, b, _, hq, h1, h2, h3, h4 => by
    obtain ⟨s, t, e, hs, hw, ht⟩ := h1
    have ih := Printed.append (p' :: ps) qs t sep b (by simp) hq ht h2 h3 (by
      intro x hx; exact h4 x (by simpa using hx))
    refine ⟨s, t ++ sep ++ b, ?_, hs, hw, ih⟩
    rw [e]; simp only [List.append_assoc]

theorem endsWith_append (b s : Text) : endsWith (b ++ s) s = true := by
  unfold endsWith; rw [List.isSuffixOf_iff_suffix]; exact List.suffix_append b s

theorem not_endsWith_of_last {b : Text} {c : Char} {s : Text} {d : Char} (h : c ≠ d) :
    endsWith (b ++ [c]) (s ++ [d]) = false := by
  rw [Bool.eq_false_iff]
  unfold endsWith; rw [ne_eq, List.isSuffixOf_iff_suffix]
  rintro ⟨t, ht⟩
  have := congrArg List.getLast? ht
  rw [← List.append_assoc, List.getLast?_concat, List.getLast?_concat] at this
  exact h (Option.some.inj this).symm

theorem pieces_ne_nil : ∀ {ts : Tokens}, ts ≠ [] → Visible ts → pieces ts ≠ []
  | [], h, _ => absurd rfl h
  | .punct _ :: _, _, _ | .ident _ :: _, _, _ | .literal _ :: _, _, _ => by simp [pieces, piecesOf]
  | .group d _ :: _, _, hv => by
    cases d <;> simp_all [pieces, piecesOf, brackets, Visible, VisibleTree]

/-- Induction on token sequences. -/
theorem tokens_induction {P : List TokenTree → Prop} (nil : P [])
    (punct : ∀ c ts, P ts → P (.punct c :: ts)) (ident : ∀ t ts, P ts → P (.ident t :: ts))
    (literal : ∀ t ts, P ts → P (.literal t :: ts))
    (group : ∀ d inner ts, P inner → P ts → P (.group d inner :: ts)) : ∀ ts, P ts
  | [] => nil
  | .punct c :: ts => punct c ts (tokens_induction nil punct ident literal group ts)
  | .ident t :: ts => ident t ts (tokens_induction nil punct ident literal group ts)
  | .literal t :: ts => literal t ts (tokens_induction nil punct ident literal group ts)
  | .group d inner :: ts => group d inner ts (tokens_induction nil punct ident literal group inner)
      (tokens_induction nil punct ident literal group ts)

/-- One token and the rest: how the texts fit together. -/
theorem Printed.token (b b1 : Text) (ps : List Piece) (a post : Text) (ts : Tokens)
    (hb : b1 = b ++ a) (hps : ps ≠ []) (hP : Printed ps a)
    (hpost : post = [] ∨ post = [' ']) (hnil : ts = [] → post = [])
    (hw : ∀ p ∈ ps.getLast?, ∀ q ∈ (pieces ts).head?, p.isWord = true → q.isWord = true → post = [' '])
    (ih : ts ≠ [] → ∃ sep t, prettyFrom (b1 ++ post) ts = b1 ++ post ++ sep ++ t ∧ (sep = [] ∨ sep = [' ']) ∧
      Printed (pieces ts) t ∧ (∀ b', b1 ++ post = b' ++ [' '] → sep = []) ∧ pieces ts ≠ []) :
    ∃ t, prettyFrom (b1 ++ post) ts = b ++ t ∧ Printed (ps ++ pieces ts) t := by
  by_cases hts : ts = []
  · subst hts
    rw [hnil rfl, hb]
    exact ⟨a, by simp [prettyFrom], by simpa [pieces] using hP⟩
  · obtain ⟨sep, t, e, hs, ht, hsp, hne⟩ := ih hts
    refine ⟨a ++ (post ++ sep) ++ t, by rw [e, hb]; simp only [List.append_assoc], ?_⟩
    apply Printed.append ps (pieces ts) a (post ++ sep) t hps hne hP ht
    · rcases hpost with rfl | rfl
      · exact hs
      · right; rw [hsp b1 rfl]; rfl
    · intro p hp q hq h1 h2
      have hpost' := hw p hp q hq h1 h2
      rw [hpost', hsp b1 (by rw [hpost'])]; rfl

theorem spaceAfterWord_pieces {ts : Tokens} (hv : Visible ts) :
    ∀ q ∈ (pieces ts).head?, q.isWord = true → spaceAfterWord ts.head? = true := by
  intro q hq hw
  cases ts with
  | nil => simp [pieces] at hq
  | cons tok rest =>
    cases tok with
    | punct c => simp [pieces, piecesOf] at hq; subst hq; cases hw
    | ident t => rfl
    | literal t => rfl
    | group d inner =>
      cases d <;> simp [pieces, piecesOf, brackets, Visible, VisibleTree] at hq hv
      all_goals (subst hq; cases hw)

/-- What the loop adds to the text so far. -/
theorem prettyFrom_spec (b : Text) (ts : Tokens) (hv : Visible ts) (hne : ts ≠ []) :
    ∃ sep t, prettyFrom b ts = b ++ sep ++ t ∧ (sep = [] ∨ sep = [' ']) ∧ Printed (pieces ts) t ∧
      (∀ b', b = b' ++ [' '] → sep = []) ∧ (b = [] → sep = []) := by
  have word : ∀ (b t : Text) (ts : Tokens), Visible ts →
      (Visible ts → ts ≠ [] → ∃ sep t', prettyFrom (printWord b t ts.head?) ts = printWord b t ts.head? ++ sep ++ t' ∧
        (sep = [] ∨ sep = [' ']) ∧ Printed (pieces ts) t' ∧
        (∀ b', printWord b t ts.head? = b' ++ [' '] → sep = []) ∧ (printWord b t ts.head? = [] → sep = [])) →
      ∃ sep t', prettyFrom (printWord b t ts.head?) ts = b ++ sep ++ t' ∧ (sep = [] ∨ sep = [' ']) ∧
        Printed (.word t :: pieces ts) t' ∧ (∀ b', b = b' ++ [' '] → sep = []) ∧ (b = [] → sep = []) := by
    intro b t ts hv ih
    have hpre : ∃ sep, (if endsWith b "=".toList || endsWith b "=>".toList then b ++ [' '] else b) = b ++ sep ∧
        (sep = [] ∨ sep = [' ']) ∧ (∀ b', b = b' ++ [' '] → sep = []) ∧ (b = [] → sep = []) := by
      split
      · rename_i h
        refine ⟨[' '], rfl, .inr rfl, ?_, ?_⟩
        · rintro b' rfl
          have e1 : endsWith (b' ++ [' ']) "=".toList = false :=
            not_endsWith_of_last (s := []) (by decide)
          have e2 : endsWith (b' ++ [' ']) "=>".toList = false :=
            not_endsWith_of_last (s := ['=']) (by decide)
          rw [e1, e2] at h; cases h
        · rintro rfl; exact absurd h (by decide)
      · exact ⟨[], by simp, .inl rfl, fun _ _ => rfl, fun _ => rfl⟩
    obtain ⟨sep, e, h1, h2, h3⟩ := hpre
    have hpost : ∃ post, printWord b t ts.head? = (b ++ sep) ++ t ++ post ∧ (post = [] ∨ post = [' ']) ∧
        (ts = [] → post = []) ∧ (spaceAfterWord ts.head? = true → post = [' ']) := by
      unfold printWord
      rw [e]
      cases hs : spaceAfterWord ts.head? with
      | true =>
        refine ⟨[' '], by simp, .inr rfl, ?_, fun _ => rfl⟩
        rintro rfl; cases hs
      | false => exact ⟨[], by simp, .inl rfl, fun _ => rfl, fun h => by cases h⟩
    obtain ⟨post, e', h1', h2', h3'⟩ := hpost
    rw [e'] at ih ⊢
    obtain ⟨t', ht, hP⟩ := Printed.token (b ++ sep) ((b ++ sep) ++ t) [.word t] t post ts rfl (by simp) rfl
      h1' h2' (by intro p _ q hq _ hw; exact h3' (spaceAfterWord_pieces hv q hq hw)) (by
        intro hts
        obtain ⟨s, t', a1, a2, a3, a4, _⟩ := ih hv hts
        exact ⟨s, t', a1, a2, a3, a4, pieces_ne_nil hts hv⟩)
    exact ⟨sep, t', ht, h1, hP, h2, h3⟩
  induction ts using tokens_induction generalizing b with
  | nil => exact absurd rfl hne
  | punct c ts ih =>
    have ih := ih (printPunct b c (!ts.isEmpty))
    have hv : Visible ts := by simpa [Visible, VisibleTree, and_assoc] using hv
    have hpost : ∃ post, printPunct b c (!ts.isEmpty) = b ++ [c] ++ post ∧ (post = [] ∨ post = [' ']) ∧
        (ts = [] → post = []) := by
      unfold printPunct
      dsimp only
      split
      · rename_i h
        refine ⟨[' '], rfl, .inr rfl, ?_⟩
        rintro rfl
        simp at h
      · exact ⟨[], by simp, .inl rfl, fun _ => rfl⟩
    obtain ⟨post, e, h1, h2⟩ := hpost
    rw [prettyFrom, printToken]
    rw [e] at ih ⊢
    obtain ⟨t, ht, hP⟩ := Printed.token b (b ++ [c]) [.mark c] [c] post ts rfl (by simp) rfl h1 h2
      (by intro p hp q _ hw; simp at hp; subst hp; cases hw) (by
        intro hts
        obtain ⟨s, t', a1, a2, a3, a4, _⟩ := ih hv hts
        exact ⟨s, t', a1, a2, a3, a4, pieces_ne_nil hts hv⟩)
    exact ⟨[], t, by simpa using ht, .inl rfl, by simpa [pieces, piecesOf] using hP, fun _ _ => rfl, fun _ => rfl⟩
  | ident t ts ih =>
    rw [prettyFrom, printToken, pieces, piecesOf]
    exact word b t ts (by simpa [Visible, VisibleTree, and_assoc] using hv) (ih (printWord b t ts.head?))
  | literal t ts ih =>
    rw [prettyFrom, printToken, pieces, piecesOf]
    exact word b t ts (by simpa [Visible, VisibleTree, and_assoc] using hv) (ih (printWord b t ts.head?))
  | group d inner ts ih1 ih2 =>
    have ih1 := ih1 []
    have ih2 := ih2 (b ++ d.opening ++ prettyFrom [] inner ++ d.closing)
    have hv : d ≠ .none ∧ Visible inner ∧ Visible ts := by simpa [Visible, VisibleTree, and_assoc] using hv
    obtain ⟨hd, hvi, hvt⟩ := hv
    obtain ⟨o, c, hb, ho, hc⟩ : ∃ o c, brackets d = some (o, c) ∧ d.opening = [o] ∧ d.closing = [c] := by
      cases d with
      | none => exact absurd rfl hd
      | _ => exact ⟨_, _, rfl, rfl, rfl⟩
    have hin : Printed (.mark o :: (pieces inner ++ [.mark c])) ([o] ++ prettyFrom [] inner ++ [c]) := by
      by_cases hi : inner = []
      · subst hi
        rw [prettyFrom, pieces]
        exact ⟨[], [c], rfl, .inl rfl, (fun h => by cases h), rfl⟩
      · obtain ⟨sep, t, e, _, hP, _, hs⟩ := ih1 hvi hi
        rw [e, hs rfl]
        have hne := pieces_ne_nil hi hvi
        have h1 := Printed.append (pieces inner) [.mark c] t [] [c] hne (by simp) hP rfl (.inl rfl) (by
          intro p _ q hq _ hw; simp at hq; subst hq; cases hw)
        have h2 := Printed.append [.mark o] (pieces inner ++ [.mark c]) [o] [] (t ++ [] ++ [c]) (by simp)
          (by simp) rfl h1 (.inl rfl) (by intro p hp q _ hw; simp at hp; subst hp; cases hw)
        simpa using h2
    rw [prettyFrom, printToken]
    rw [ho, hc] at ih2 ⊢
    obtain ⟨t, ht, hP⟩ := Printed.token b (b ++ ([o] ++ prettyFrom [] inner ++ [c]))
      (.mark o :: (pieces inner ++ [.mark c])) _ [] ts rfl (by simp) hin (.inl rfl) (fun _ => rfl)
      (by
        intro p hp q _ hw
        rw [← List.cons_append, List.getLast?_concat] at hp
        simp at hp; subst hp; cases hw) (by
        intro hts
        obtain ⟨s, t', a1, a2, a3, a4, _⟩ := ih2 hvt hts
        have e : b ++ [o] ++ prettyFrom [] inner ++ [c] = b ++ ([o] ++ prettyFrom [] inner ++ [c]) ++ [] := by
          simp only [List.append_assoc, List.append_nil]
        rw [e] at a1 a4
        exact ⟨s, t', a1, a2, a3, a4, pieces_ne_nil hts hvt⟩)
    refine ⟨[], t, ?_, .inl rfl, ?_, fun _ _ => rfl, fun _ => rfl⟩
    · have e : b ++ [o] ++ prettyFrom [] inner ++ [c] = b ++ ([o] ++ prettyFrom [] inner ++ [c]) ++ [] := by
        simp only [List.append_assoc, List.append_nil]
      rw [e, ht]; simp
    · rw [pieces, piecesOf, hb]; simpa using hP

/-! ### C65 -/

/-- C65 in full, for every token sequence, with invisible groups. -/
def C65_full : Prop := ∀ ts : Tokens, Printed (pieces ts) (pretty ts)

/-- The full claim is false: no space is printed before an invisible group, so words run together. -/
theorem C65_invisible_groups_false : ¬ C65_full := by
  intro h
  obtain ⟨sep, t', e, _, hs, ht⟩ := h [.ident "a".toList, .group .none [.ident "b".toList]]
  rw [hs rfl rfl] at e
  have ht : t' = "b".toList := ht
  rw [ht] at e
  revert e
  decide +kernel

/-- C65: for every token sequence without invisible groups (code that was parsed from text has none)
the printed text consists of all its tokens in order, separated by at most one space, and adjacent words
are always separated. -/
theorem C65_printed_partial (ts : Tokens) (hv : Visible ts) : Printed (pieces ts) (pretty ts) := by
  by_cases hts : ts = []
  · subst hts; rw [pieces]; rfl
  · obtain ⟨sep, t, e, _, hP, _, hs⟩ := prettyFrom_spec [] ts hv hts
    unfold pretty
    rw [e, hs rfl]
    simpa using hP

theorem Printed.getLast : ∀ {ps : List Piece} {t : Text}, Printed ps t → (∀ p ∈ ps, p.text ≠ []) →
    t.getLast? = ps.getLast?.bind fun p => p.text.getLast?
  | [], t, h, _ => by rw [show t = [] from h]; rfl
  | [p], t, h, _ => by rw [show t = p.text from h]; rfl
  | p :: q :: rest, t, h, hne => by
    obtain ⟨sep, t', e, _, _, ht⟩ := h
    have ih := Printed.getLast ht (fun x hx => hne x (by simp [hx]))
    have : t' ≠ [] := by
      intro h0
      rw [h0] at ih
      obtain ⟨x, hx⟩ : ∃ x, (q :: rest).getLast? = some x := ⟨_, List.getLast?_cons⟩
      rw [hx] at ih
      have hxm : x ∈ q :: rest := List.mem_of_getLast? hx
      have hx' := hne x (List.mem_cons_of_mem _ hxm)
      simp only [List.getLast?_nil, Option.bind_some] at ih
      exact hx' (List.getLast?_eq_none_iff.1 ih.symm)
    rw [e, List.getLast?_append, List.getLast?_cons_cons, ← ih]
    cases h : t'.getLast? with
    | none => exact absurd (List.getLast?_eq_none_iff.1 h) this
    | some _ => rfl

/-- C65: the text never ends with a space (the debug assertion at `src/pretty.rs:75-79` holds), if no
token is empty or a space or ends with one. -/
theorem C65_no_trailing_space_partial (ts : Tokens) (hv : Visible ts)
    (hw : ∀ p ∈ pieces ts, p.text ≠ [] ∧ p.text.getLast? ≠ some ' ') :
    (pretty ts).getLast? ≠ some ' ' := by
  rw [Printed.getLast (C65_printed_partial ts hv) fun p hp => (hw p hp).1]
  cases h : (pieces ts).getLast? with
  | none => exact fun h => by cases h
  | some p => exact (hw p (List.mem_of_getLast? h)).2

theorem readFrom_word (isWord : Char → Bool) (w : Text) (cur t : Text) (h : ∀ c ∈ w, isWord c = true) :
    readFrom isWord cur (w ++ t) = readFrom isWord (w.reverse ++ cur) t := by
  induction w generalizing cur with
  | nil => rfl
  | cons c w ih =>
    rw [List.cons_append, readFrom, if_pos (h c (by simp)), ih _ fun x hx => h x (by simp [hx])]
    simp

theorem Printed.read (isWord : Char → Bool) (hsp : isWord ' ' = false) :
    ∀ {ps : List Piece} {t : Text}, Printed ps t → (∀ p ∈ ps, p.readable isWord) →
      readFrom isWord [] t = ps
  | [], t, h, _ => by rw [show t = [] from h]; rfl
  | [.mark c], t, h, hr => by
    obtain ⟨h1, h2⟩ := hr (.mark c) (by simp)
    rw [show t = [c] from h]
    simp [readFrom, h1, h2]
  | [.word w], t, h, hr => by
    obtain ⟨h1, h2⟩ := hr (.word w) (by simp)
    rw [show t = w from h]
    have := readFrom_word isWord w [] [] h2
    simp only [List.append_nil] at this
    rw [this]
    simp [readFrom, h1]
  | .mark c :: q :: rest, t, h, hr => by
    obtain ⟨sep, t', e, hs, _, ht⟩ := h
    have ih := Printed.read isWord hsp ht (fun x hx => hr x (by simp [hx]))
    obtain ⟨h1, h2⟩ := hr (.mark c) (by simp)
    rw [e]
    rcases hs with rfl | rfl
    · simp [Piece.text, readFrom, h1, h2, ih]
    · simp [Piece.text, readFrom, h1, h2, ih, hsp]
  | .word w :: q :: rest, t, h, hr => by
    obtain ⟨sep, t', e, hs, hw, ht⟩ := h
    have ih := Printed.read isWord hsp ht (fun x hx => hr x (by simp [hx]))
    obtain ⟨h1, h2⟩ := hr (.word w) (by simp)
    rw [e]
    show readFrom isWord [] (w ++ sep ++ t') = _
    rw [List.append_assoc, readFrom_word isWord w [] _ h2]
    rcases hs with rfl | rfl
    · -- no space: the next piece is not a word
      cases q with
      | word w' => exact absurd (hw rfl rfl) (by simp)
      | mark c =>
        obtain ⟨h3, h4⟩ := hr (.mark c) (by simp)
        obtain ⟨t'', ht''⟩ : ∃ t'', t' = c :: t'' := by
          cases rest with
          | nil => exact ⟨[], ht⟩
          | cons r rest =>
            obtain ⟨s, u, e', _⟩ := ht
            exact ⟨s ++ u, by rw [e']; rfl⟩
        rw [ht''] at ih ⊢
        rw [readFrom, if_neg (by simp [h3])] at ih
        simp only [if_true, List.nil_append] at ih
        rw [List.nil_append, readFrom, if_neg (by simp [h3])]
        simp only [List.append_nil, List.reverse_eq_nil_iff, h1, if_false, List.reverse_reverse, List.append_assoc]
        simp only [h4, if_false] at ih ⊢
        rw [ih]; rfl
    · rw [List.cons_append, List.nil_append, readFrom, if_neg (by simp [hsp])]
      simp [h1, ih]

/-- C65: the text reads back as the same words and punctuation, for any set of word characters such that
words are made of them, punctuation is not, and a space is not. -/
theorem C65_reads_back_partial (isWord : Char → Bool) (hsp : isWord ' ' = false) (ts : Tokens) (hv : Visible ts)
    (hr : ∀ p ∈ pieces ts, p.readable isWord) : readFrom isWord [] (pretty ts) = pieces ts :=
  Printed.read isWord hsp (C65_printed_partial ts hv) hr

/-- `Option<Self::Item> -> Result<(), Box<dyn Error>>` and more. -/
def sampleTokens : Tokens :=
  [.ident "Ok".toList, .group .paren [.ident "if".toList, .ident "a".toList, .punct '=', .punct '>',
      .literal "1".toList, .punct ',', .punct '-', .punct '>', .ident "x".toList],
   .punct ';', .punct '&', .ident "mut".toList, .ident "b".toList, .punct '+', .literal "2".toList]

def sampleIsWord (c : Char) : Bool := c.isAlphanum

example : Visible sampleTokens := by simp [sampleTokens, Visible, VisibleTree]
example : pretty sampleTokens = "Ok(if a => 1, -> x); &mut b +2".toList := by decide +kernel
example : ∀ p ∈ pieces sampleTokens, p.readable sampleIsWord := by
  simp [sampleTokens, pieces, piecesOf, brackets, Piece.readable, sampleIsWord]

end CM.Props
