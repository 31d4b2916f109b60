import Verif.Spec.FnValue
import Verif.Props.Pretty
/-! How composed values are printed, and how paths are matched. -/
namespace CM.Props
open CM CM.Spec

theorem endsWith_prefix (b x s : Text) (hs : s ≠ []) (hb : ∀ c ∈ b.getLast?, c ∉ s) :
    endsWith (b ++ x) s = endsWith x s := by
  rw [Bool.eq_iff_iff]; unfold endsWith
  rw [List.isSuffixOf_iff_suffix, List.isSuffixOf_iff_suffix]
  constructor
  · rintro ⟨t, ht⟩
    rcases List.append_eq_append_iff.1 ht with ⟨a, h1, h2⟩ | ⟨a, h1, h2⟩
    · -- s = a ++ x
      rcases List.eq_nil_or_concat a with rfl | ⟨a', c, rfl⟩
      · rw [h2]; exact List.suffix_refl _
      · exfalso
        refine hb c ?_ ?_
        · rw [h1]; simp
        · rw [h2]; simp
    · exact ⟨a, h2.symm⟩
  · rintro ⟨t, rfl⟩; exact ⟨b ++ t, by simp⟩

/-- Nothing that follows this text is printed differently because of it. -/
def Neutral (b : Text) : Prop := ∀ c ∈ b.getLast?, c ∉ ['=', '-', '>']

theorem Neutral.ends {b : Text} (h : Neutral b) (x : Text) :
    endsWith (b ++ x) "->".toList = endsWith x "->".toList ∧
    endsWith (b ++ x) "=".toList = endsWith x "=".toList ∧
    endsWith (b ++ x) "=>".toList = endsWith x "=>".toList := by
  have sub : ∀ s : Text, s ≠ [] → (∀ c ∈ s, c ∈ ['=', '-', '>']) → endsWith (b ++ x) s = endsWith x s :=
    fun s hs hc => endsWith_prefix b x s hs fun c hcb hcs => h c hcb (hc c hcs)
  exact ⟨sub _ (by decide) (by decide), sub _ (by decide) (by decide), sub _ (by decide) (by decide)⟩

theorem printPunct_prefix {b : Text} (h : Neutral b) (x : Text) (c : Char) (m : Bool) :
    printPunct (b ++ x) c m = b ++ printPunct x c m := by
  unfold printPunct
  dsimp only
  rw [List.append_assoc, (h.ends (x ++ [c])).1]
  split <;> simp

theorem printWord_prefix {b : Text} (h : Neutral b) (x t : Text) (n : Option TokenTree) :
    printWord (b ++ x) t n = b ++ printWord x t n := by
  unfold printWord
  dsimp only
  rw [(h.ends x).2.1, (h.ends x).2.2]
  split <;> split <;> simp

theorem prettyFrom_prefix {b : Text} (h : Neutral b) : ∀ (ts : List TokenTree) (x : Text),
    prettyFrom (b ++ x) ts = b ++ prettyFrom x ts
  | [], x => rfl
  | t :: ts, x => by
    have e : printToken (b ++ x) ts t = b ++ printToken x ts t := by
      cases t with
      | punct c => exact printPunct_prefix h x c _
      | ident t => exact printWord_prefix h x t _
      | literal t => exact printWord_prefix h x t _
      | group d inner => simp [printToken]
    rw [prettyFrom, prettyFrom, e]
    exact prettyFrom_prefix h ts _

theorem prettyFrom_neutral {b : Text} (h : Neutral b) (ts : List TokenTree) :
    prettyFrom b ts = b ++ pretty ts := by
  have := prettyFrom_prefix h ts []
  rwa [List.append_nil] at this

/-- The last token is a word or group. -/
def WordEnd (ts : Tokens) : Prop := ∃ init t, ts = init ++ [t] ∧ ∀ c, t ≠ .punct c

theorem WordEnd.ne_nil {ts} (h : WordEnd ts) : ts ≠ [] := by
  obtain ⟨i, t, rfl, -⟩ := h; simp

theorem WordEnd.append (a : Tokens) {b : Tokens} (h : WordEnd b) : WordEnd (a ++ b) := by
  obtain ⟨i, t, rfl, ht⟩ := h; exact ⟨a ++ i, t, by simp, ht⟩

theorem WordEnd.concat (a : Tokens) {t : TokenTree} (h : ∀ c, t ≠ .punct c) : WordEnd (a ++ [t]) := ⟨a, t, rfl, h⟩

theorem spaceAfterWord_punct {c : Char} (hc : c ∈ [',', ';', '<', '>', ':', '.', '!']) :
    spaceAfterWord (some (.punct c)) = false := by
  simp only [spaceAfterWord, hc, decide_true, Bool.not_true]

theorem prettyFrom_ended {c : Char} (hc : c ∈ [',', ';', '<', '>', ':', '.', '!']) (rest : List TokenTree) :
    ∀ (ts : List TokenTree), WordEnd ts → ∀ b, prettyFrom b (ts ++ .punct c :: rest) =
      prettyFrom (prettyFrom b ts) (.punct c :: rest)
  | [], h => absurd rfl h.ne_nil
  | [t], h => by
    intro b
    have ht : ∀ d, t ≠ .punct d := by
      obtain ⟨i, u, e, hu⟩ := h
      cases i with
      | nil => cases e; exact hu
      | cons _ i => simp at e
    have e : printToken b (.punct c :: rest) t = printToken b [] t := by
      cases t with
      | punct d => exact absurd rfl (ht d)
      | ident w =>
        simp only [printToken, printWord, List.head?_cons, List.head?_nil, spaceAfterWord_punct hc]
        rfl
      | literal w =>
        simp only [printToken, printWord, List.head?_cons, List.head?_nil, spaceAfterWord_punct hc]
        rfl
      | group d inner => rfl
    show prettyFrom (printToken b (.punct c :: rest) t) _ = _
    rw [e]; rfl
  | t :: u :: ts, h => by
    intro b
    have h' : WordEnd (u :: ts) := by
      obtain ⟨i, v, e, hu⟩ := h
      cases i with
      | nil => simp at e
      | cons _ i => simp only [List.cons_append, List.cons.injEq] at e; exact ⟨i, v, e.2, hu⟩
    have e : printToken b (u :: ts ++ .punct c :: rest) t = printToken b (u :: ts) t := by
      cases t <;> simp [printToken]
    show prettyFrom (printToken b (u :: ts ++ .punct c :: rest) t) _ = _
    rw [e]
    exact prettyFrom_ended hc rest (u :: ts) h' _

theorem neutral_concat (b : Text) {c : Char} (h : c ∉ ['=', '-', '>']) : Neutral (b ++ [c]) := by
  intro d hd
  rw [List.getLast?_concat] at hd
  cases hd; exact h

/-- `a, b` and `a; b` -/
theorem pretty_sep {c : Char} (hc : c = ',' ∨ c = ';') {a b : Tokens} (ha : WordEnd a) (hb : b ≠ []) :
    pretty (a ++ .punct c :: b) = pretty a ++ [c, ' '] ++ pretty b := by
  unfold pretty
  rw [prettyFrom_ended (by rcases hc with rfl | rfl <;> decide) b a ha, prettyFrom]
  have : printToken (prettyFrom [] a) b (.punct c) = prettyFrom [] a ++ [c] ++ [' '] := by
    cases b with
    | nil => exact absurd rfl hb
    | cons x b =>
      rcases hc with rfl | rfl <;> simp [printToken, printPunct]
  rw [this, prettyFrom_neutral (neutral_concat _ (by decide))]
  simp [pretty]

theorem pretty_semi_end {a : Tokens} (ha : WordEnd a) : pretty (a ++ [.punct ';']) = pretty a ++ [';'] := by
  unfold pretty
  rw [prettyFrom_ended (by decide) [] a ha, prettyFrom]
  simp [printToken, printPunct, prettyFrom]

/-- `a.b` -/
theorem pretty_dot {a b : Tokens} (ha : WordEnd a) : pretty (a ++ .punct '.' :: b) = pretty a ++ ['.'] ++ pretty b := by
  unfold pretty
  rw [prettyFrom_ended (by decide) b a ha, prettyFrom]
  have : printToken (prettyFrom [] a) b (.punct '.') = prettyFrom [] a ++ ['.'] := by
    have : endsWith (prettyFrom [] a ++ ['.']) "->".toList = false :=
      not_endsWith_of_last (s := ['-']) (d := '>') (by decide)
    simp only [printToken, printPunct, this]
    simp
  rw [this, prettyFrom_neutral (neutral_concat _ (by decide))]
  rfl

theorem pretty_amp (a : Tokens) : pretty (.punct '&' :: a) = '&' :: pretty a := by
  have : printToken [] a (.punct '&') = [] ++ ['&'] := by
    cases a <;> rfl
  show prettyFrom (printToken [] a (.punct '&')) a = _
  rw [this, prettyFrom_neutral (neutral_concat _ (by decide))]
  rfl

theorem commaSep_ended : ∀ {l : List Tokens}, (∀ v ∈ l, WordEnd v) → ∀ x ∈ l, WordEnd (commaSep l)
  | [], _, _, hx => by cases hx
  | [r], h, _, _ => h r (by simp)
  | r :: s :: rest, h, _, _ => by
    rw [commaSep]
    exact WordEnd.append _ (commaSep_ended (l := s :: rest) (fun v hv => h v (List.mem_cons_of_mem _ hv)) s (by simp))

/-- `a, b, c` -/
theorem pretty_commaSep : ∀ {l : List Tokens}, (∀ v ∈ l, WordEnd v) →
    pretty (commaSep l) = (", ".toList).intercalate (l.map pretty)
  | [], _ => rfl
  | [r], _ => by simp [commaSep, List.intercalate]
  | r :: s :: rest, h => by
    have hr : WordEnd r := h r (by simp)
    have ht : ∀ v ∈ s :: rest, WordEnd v := fun v hv => h v (List.mem_cons_of_mem _ hv)
    have ih := pretty_commaSep ht
    rw [commaSep, show r ++ [TokenTree.punct ','] ++ commaSep (s :: rest) = r ++ .punct ',' :: commaSep (s :: rest)
      from by simp, pretty_sep (.inl rfl) hr (commaSep_ended ht s (by simp)).ne_nil, ih]
    simp [List.intercalate]

theorem printWord_nil (t : Text) (d : Delim) (inner : List TokenTree) :
    printWord [] t (some (.group d inner)) = t := by
  have h1 : endsWith [] "=".toList = false := by decide
  have h2 : endsWith [] "=>".toList = false := by decide
  simp only [printWord, h1, h2, spaceAfterWord]
  simp

/-- `name(…)` -/
theorem pretty_call (name : String) (rep : Tokens) :
    pretty (qCall name rep) = name.toList ++ ['('] ++ pretty rep ++ [')'] := by
  show prettyFrom (printToken (printWord [] name.toList (some (parens rep))) [] (parens rep)) [] = _
  rw [parens, printWord_nil]
  rfl

/-- `[…]` -/
theorem pretty_array (rep : Tokens) : pretty (qArray rep) = ['['] ++ pretty rep ++ [']'] := rfl
theorem pretty_parens (rep : Tokens) : pretty [parens rep] = ['('] ++ pretty rep ++ [')'] := rfl

/-- `vec![…]` -/
theorem pretty_vec (rep : Tokens) : pretty (qVec rep) = "vec![".toList ++ pretty rep ++ [']'] := rfl

/-- `type::method(…)` -/
theorem pretty_pathCall (type : Text) (method : String) (rep : Tokens) :
    pretty (qPathCall type method rep) = type ++ "::".toList ++ method.toList ++ ['('] ++ pretty rep ++ [')'] := by
  have h1 : printToken [] (colon2 ++ [qi method, parens rep]) (.ident type) = type := by
    have h1 : endsWith [] "=".toList = false := by decide
    have h2 : endsWith [] "=>".toList = false := by decide
    simp only [printToken, printWord, h1, h2, colon2, List.cons_append, List.head?_cons,
      spaceAfterWord_punct (c := ':') (by decide)]
    simp
  have h2 : ∀ (b : Text) (l : List TokenTree), printToken b l (.punct ':') = b ++ [':'] := by
    intro b l
    have : endsWith (b ++ [':']) "->".toList = false := not_endsWith_of_last (s := ['-']) (d := '>') (by decide)
    simp only [printToken, printPunct, this]
    simp
  show prettyFrom (printToken [] (colon2 ++ [qi method, parens rep]) (.ident type))
    (colon2 ++ [qi method, parens rep]) = _
  rw [h1]
  rw [show colon2 ++ [qi method, parens rep] = .punct ':' :: .punct ':' :: qCall method rep from rfl,
    prettyFrom, h2, prettyFrom, h2, prettyFrom_neutral (neutral_concat _ (by decide))]
  rw [pretty_call]
  simp

theorem printColon (b : Text) (l : List TokenTree) : printToken b l (.punct ':') = b ++ [':'] := by
  have : endsWith (b ++ [':']) "->".toList = false := not_endsWith_of_last (s := ['-']) (d := '>') (by decide)
  simp only [printToken, printPunct, this]
  simp

theorem printIdent_colon {b : Text} (hb : Neutral b) (t : Text) (l : List TokenTree) :
    printToken b (.punct ':' :: l) (.ident t) = b ++ t := by
  have h1 : endsWith b "=".toList = false := by
    have := (hb.ends []).2.1; rw [List.append_nil] at this; rw [this]; decide
  have h2 : endsWith b "=>".toList = false := by
    have := (hb.ends []).2.2; rw [List.append_nil] at this; rw [this]; decide
  simp only [printToken, printWord, h1, h2, List.head?_cons, spaceAfterWord_punct (c := ':') (by decide)]
  simp

/-- `::std::iter::name(…)` -/
theorem pretty_iter (name : String) (rep : Tokens) :
    pretty (qIter name rep) = "::std::iter::".toList ++ name.toList ++ ['('] ++ pretty rep ++ [')'] := by
  have n1 : Neutral ([] ++ [':'] ++ [':']) := neutral_concat _ (by decide)
  unfold pretty
  rw [show qIter name rep = .punct ':' :: .punct ':' :: .ident "std".toList :: .punct ':' :: .punct ':' ::
    .ident "iter".toList :: .punct ':' :: .punct ':' :: qCall name rep from rfl]
  rw [prettyFrom, printColon, prettyFrom, printColon, prettyFrom, printIdent_colon n1, prettyFrom, printColon,
    prettyFrom, printColon, prettyFrom, printIdent_colon (neutral_concat _ (by decide)), prettyFrom, printColon,
    prettyFrom, printColon, prettyFrom_neutral (neutral_concat _ (by decide)), pretty_call]
  rw [show "::std::iter::".toList = [] ++ [':'] ++ [':'] ++ "std".toList ++ [':'] ++ [':'] ++ "iter".toList ++
    [':'] ++ [':'] from by decide]
  simp only [List.append_assoc]
  rfl

end CM.Props
