import Verif.Spec.Json
import Verif.Proofs.Output
/-! Helper lemmas: what is written as JSON is read back. -/
namespace CM.JsonProofs
open CM CM.Spec

/-! ### strings -/

theorem hexChar_escape : ∀ n, n < 32 →
    hexChar '0' '0' (hexDigit (n / 16)) (hexDigit (n % 16)) = some (Char.ofNat n) := by decide

theorem readChar_escape (c : Char) (r : Text) : readChar (escapeChar c ++ r) = some (c, r) := by
  unfold escapeChar
  by_cases h1 : c = '"'
  · subst h1; rfl
  by_cases h2 : c = '\\'
  · subst h2; rfl
  by_cases h3 : c = '\x08'
  · subst h3; rfl
  by_cases h4 : c = '\x0c'
  · subst h4; rfl
  by_cases h5 : c = '\n'
  · subst h5; rfl
  by_cases h6 : c = '\x0d'
  · subst h6; rfl
  by_cases h7 : c = '\t'
  · subst h7; rfl
  simp only [h1, h2, h3, h4, h5, h6, h7, if_false]
  by_cases h8 : c.toNat < 32
  · have := hexChar_escape c.toNat h8
    simp [h8, readChar, this]
  · simp [h8, readChar, h2]

theorem escapeChar_head (c : Char) : ∃ x t, escapeChar c = x :: t ∧ x ≠ '"' := by
  unfold escapeChar
  by_cases h1 : c = '"'
  · simp [h1]
  simp only [h1, if_false]
  repeat' first | exact ⟨_, _, rfl, by assumption⟩ | exact ⟨_, _, rfl, by decide⟩ | split

theorem escapeChar_length (c : Char) : 0 < (escapeChar c).length := by
  obtain ⟨x, t, h, _⟩ := escapeChar_head c; simp [h]

theorem readChars_escaped (t : Text) (n : Nat) (r : Text) (hn : (t.flatMap escapeChar).length < n) :
    readChars n (t.flatMap escapeChar ++ '"' :: r) = some (t, r) := by
  induction t generalizing n with
  | nil =>
    cases n with
    | zero => simp at hn
    | succ n => simp [readChars]
  | cons c t ih =>
    cases n with
    | zero => simp at hn
    | succ n =>
      have hl := escapeChar_length c
      obtain ⟨x, u, hx, hq⟩ := escapeChar_head c
      have hc := readChar_escape c (t.flatMap escapeChar ++ '"' :: r)
      have hh : (List.flatMap escapeChar (c :: t) ++ '"' :: r).head? ≠ some '"' := by
        simp [List.flatMap_cons, hx, hq]
      rw [readChars, if_neg hh]
      simp only [List.flatMap_cons, List.append_assoc] at hc ⊢
      rw [hc]
      simp only [List.flatMap_cons, List.length_append] at hn
      simp only [Option.bind_eq_bind, Option.bind_some]
      rw [ih n (by omega)]
      rfl

/-! ### white space -/

theorem skipWs_cons_ws {c : Char} {t : Text} (h : isWs c = true) : skipWs (c :: t) = skipWs t := by
  simp [skipWs, h]

theorem skipWs_cons {c : Char} {t : Text} (h : isWs c = false) : skipWs (c :: t) = c :: t := by
  simp [skipWs, h]

theorem skipWs_replicate (n : Nat) (t : Text) : skipWs (List.replicate n ' ' ++ t) = skipWs t := by
  induction n with
  | zero => rfl
  | succ n ih => rw [List.replicate_succ, List.cons_append, skipWs_cons_ws (by decide), ih]

theorem skipWs_newline (d : Nat) (t : Text) : skipWs (newline d ++ t) = skipWs t := by
  rw [newline, List.cons_append, skipWs_cons_ws (by decide), skipWs_replicate]

theorem readString_of_skipWs {a b : Text} (h : skipWs a = skipWs b) : readString a = readString b := by
  simp only [readString, h]

theorem readString_quoted (t r : Text) : readString (quoted t ++ r) = some (t, r) := by
  simp only [readString, quoted, List.cons_append, List.append_assoc, List.nil_append]
  rw [skipWs_cons (by decide)]
  simp only [if_true]
  exact readChars_escaped _ _ _ (by simp)

theorem readValue_of_skipWs {a b : Text} (h : skipWs a = skipWs b) (n : Nat) : readValue n a = readValue n b := by
  cases n with
  | zero => simp [readValue]
  | succ n => simp only [readValue, h]

theorem readMembers_of_skipWs {a b : Text} (h : skipWs a = skipWs b) (n : Nat) :
    readMembers n a = readMembers n b := by
  cases n with
  | zero => simp [readMembers]
  | succ n => simp only [readMembers, readString_of_skipWs h]

/-! ### numbers -/

/-- What follows a number does not continue it. -/
def Stop (r : Text) : Prop := ∀ c, r.head? = some c → isNumberChar c = false

theorem Stop.nil : Stop [] := by intro c h; cases h
theorem Stop.cons {c : Char} {r : Text} (h : isNumberChar c = false) : Stop (c :: r) := by
  intro d hd; simp only [List.head?_cons, Option.some.injEq] at hd; rw [← hd]; exact h
theorem Stop.newline (d : Nat) (r : Text) : Stop (newline d ++ r) := Stop.cons (by decide)

theorem takeWhile_stop {t r : Text} (ht : ∀ c ∈ t, isNumberChar c = true) (hr : Stop r) :
    (t ++ r).takeWhile isNumberChar = t ∧ (t ++ r).dropWhile isNumberChar = r := by
  induction t with
  | nil =>
    cases r with
    | nil => simp
    | cons c r => simp [hr c rfl]
  | cons c t ih =>
    have hc := ht c (by simp)
    have := ih (fun c h => ht c (by simp [h]))
    simp [hc, this]

theorem digit_isNumberChar {c : Char} (h : c.isDigit = true) : isNumberChar c = true := by
  simp [isNumberChar, h]

theorem takeWhile_digits (t : Text) : ∀ c ∈ t.takeWhile (·.isDigit), isNumberChar c = true := by
  intro c hc
  induction t with
  | nil => simp at hc
  | cons d t ih =>
    rw [List.takeWhile_cons] at hc
    by_cases hd : d.isDigit = true
    · rw [if_pos hd] at hc
      rcases List.mem_cons.1 hc with rfl | hc
      · exact digit_isNumberChar hd
      · exact ih hc
    · rw [if_neg hd] at hc; cases hc

theorem of_take_drop {P : Char → Prop} {p : Char → Bool} {t : Text} (h : ∀ c ∈ t.takeWhile p, P c)
    (h' : ∀ c ∈ t.dropWhile p, P c) : ∀ c ∈ t, P c := by
  intro c hc
  rw [← List.takeWhile_append_dropWhile (p := p) (l := t)] at hc
  rcases List.mem_append.1 hc with hc | hc
  · exact h c hc
  · exact h' c hc

theorem of_head_tail {P : Char → Prop} {t : Text} {c : Char} (hh : t.head? = some c) (hc : P c)
    (h : ∀ c ∈ t.tail, P c) : ∀ c ∈ t, P c := by
  cases t with
  | nil => intro c hc; cases hc
  | cons d t =>
    simp only [List.head?_cons, Option.some.injEq] at hh
    subst hh
    intro e he
    rcases List.mem_cons.1 he with rfl | he
    · exact hc
    · exact h e he

theorem someDigits_chars {t : Text} (h : someDigits t = true) : ∀ c ∈ t, isNumberChar c = true := by
  simp only [someDigits, Bool.and_eq_true, List.all_eq_true] at h
  exact fun c hc => digit_isNumberChar (h.2 c hc)

theorem isExponent_chars {t : Text} (h : isExponent t = true) : ∀ c ∈ t, isNumberChar c = true := by
  cases t with
  | nil => intro c hc; cases hc
  | cons e t =>
    simp only [isExponent, Bool.and_eq_true, Bool.or_eq_true, decide_eq_true_eq] at h
    intro c hc
    rcases List.mem_cons.1 hc with rfl | hc
    · rcases h.1 with rfl | rfl <;> decide
    · by_cases h1 : t.head? = some '+'
      · rw [if_pos (.inl h1)] at h
        exact of_head_tail (P := fun c => isNumberChar c = true) h1 (by decide) (someDigits_chars h.2) c hc
      · by_cases h2 : t.head? = some '-'
        · rw [if_pos (.inr h2)] at h
          exact of_head_tail (P := fun c => isNumberChar c = true) h2 (by decide) (someDigits_chars h.2) c hc
        · rw [if_neg (by simp [h1, h2])] at h
          exact someDigits_chars h.2 c hc

theorem isFraction_chars {t : Text} (h : isFraction t = true) : ∀ c ∈ t, isNumberChar c = true := by
  unfold isFraction at h
  by_cases h1 : t.head? = some '.'
  · rw [if_pos h1, Bool.and_eq_true] at h
    exact of_head_tail h1 (by decide) (of_take_drop (p := (·.isDigit)) (takeWhile_digits _) (isExponent_chars h.2))
  · rw [if_neg h1] at h; exact isExponent_chars h

theorem isUnsigned_chars {t : Text} (h : isUnsignedNumber t = true) : ∀ c ∈ t, isNumberChar c = true := by
  simp only [isUnsignedNumber, Bool.and_eq_true] at h
  exact of_take_drop (p := (·.isDigit)) (takeWhile_digits _) (isFraction_chars h.2)

theorem isNumber_chars {t : Text} (h : isNumber t = true) : ∀ c ∈ t, isNumberChar c = true := by
  unfold isNumber at h
  by_cases h1 : t.head? = some '-'
  · rw [if_pos h1] at h; exact of_head_tail h1 (by decide) (isUnsigned_chars h)
  · rw [if_neg h1] at h; exact isUnsigned_chars h

theorem isNumber_head {t : Text} (h : isNumber t = true) : ∃ c r, t = c :: r ∧ (c = '-' ∨ c.isDigit = true) := by
  cases t with
  | nil => exact absurd h (by decide)
  | cons c r =>
    refine ⟨c, r, rfl, ?_⟩
    by_cases hc : c = '-'
    · exact .inl hc
    · right
      have h1 : ¬ (c :: r).head? = some '-' := by simp [hc]
      unfold isNumber at h
      rw [if_neg h1] at h
      simp only [isUnsignedNumber, Bool.and_eq_true] at h
      have := h.1.1
      rw [List.takeWhile_cons] at this
      by_cases hd : c.isDigit = true
      · exact hd
      · simp [hd] at this

theorem isDigit_ne {c d : Char} (h : c.isDigit = true) (hd : d.isDigit = false) : c ≠ d := by
  intro he; subst he; rw [h] at hd; cases hd

/-! ### values -/

theorem pretty_head (v : Json) (h : NumbersOk v) (d : Nat) :
    ∃ c t, v.pretty d = c :: t ∧ isWs c = false ∧ c ≠ ']' ∧ c ≠ '}' := by
  cases v with
  | null => exact ⟨_, _, rfl, by decide, by decide, by decide⟩
  | bool b => cases b <;> exact ⟨_, _, rfl, by decide, by decide, by decide⟩
  | num t =>
    rw [NumbersOk] at h
    obtain ⟨c, r, ht, hc⟩ := isNumber_head h
    refine ⟨c, r, by rw [Json.pretty, ht], ?_, ?_, ?_⟩
    · rcases hc with rfl | hc
      · decide
      · simp only [isWs, Bool.or_eq_false_iff, decide_eq_false_iff_not]
        exact ⟨⟨⟨isDigit_ne hc (by decide), isDigit_ne hc (by decide)⟩, isDigit_ne hc (by decide)⟩,
          isDigit_ne hc (by decide)⟩
    · rcases hc with rfl | hc
      · decide
      · exact isDigit_ne hc (by decide)
    · rcases hc with rfl | hc
      · decide
      · exact isDigit_ne hc (by decide)
  | str t => exact ⟨_, _, rfl, by decide, by decide, by decide⟩
  | arr xs => cases xs <;> exact ⟨_, _, by rw [Json.pretty] <;> rfl, by decide, by decide, by decide⟩
  | obj ms => cases ms <;> exact ⟨_, _, by rw [Json.pretty] <;> rfl, by decide, by decide, by decide⟩

theorem elems_head (x : Json) (xs : Elems) (h : NumbersOk x) (d : Nat) :
    ∃ c t, ∀ r, skipWs (Elems.pretty d (.cons x xs) ++ r) = c :: (t ++ r) ∧ c ≠ ']' := by
  obtain ⟨c, t, ht, hw, hb, _⟩ := pretty_head x h d
  cases xs with
  | nil =>
    refine ⟨c, t, fun r => ⟨?_, hb⟩⟩
    rw [Elems.pretty, List.append_assoc, skipWs_newline, ht, List.cons_append, skipWs_cons hw]
  | cons y ys =>
    refine ⟨c, t ++ ',' :: Elems.pretty d (.cons y ys), fun r => ⟨?_, hb⟩⟩
    rw [Elems.pretty, List.append_assoc, List.append_assoc, skipWs_newline, ht, List.cons_append, skipWs_cons hw,
      List.append_assoc]

theorem members_head (k : Text) (x : Json) (ms : Members) (d : Nat) :
    ∃ t, ∀ r, skipWs (Members.pretty d (.cons k x ms) ++ r) = '"' :: (t ++ r) := by
  cases ms with
  | nil =>
    refine ⟨(k.flatMap escapeChar ++ ['"']) ++ (": ".toList ++ x.pretty d), fun r => ?_⟩
    rw [Members.pretty, List.append_assoc, List.append_assoc, List.append_assoc, skipWs_newline, quoted,
      List.cons_append, skipWs_cons (by decide)]
    simp only [List.append_assoc]
  | cons l y ms =>
    refine ⟨(k.flatMap escapeChar ++ ['"']) ++ (": ".toList ++ (x.pretty d ++ ',' :: Members.pretty d (.cons l y ms))), fun r => ?_⟩
    rw [Members.pretty, List.append_assoc, List.append_assoc, List.append_assoc, List.append_assoc, skipWs_newline, quoted,
      List.cons_append, skipWs_cons (by decide)]
    simp only [List.append_assoc]

/-- The three kinds of things that are read, with enough fuel `n`. -/
structure ReadsBack (n : Nat) : Prop where
  value : ∀ (v : Json), NumbersOk v → ∀ (d : Nat) (r : Text), (v.pretty d).length ≤ n → Stop r →
    readValue n (v.pretty d ++ r) = some (v, r)
  elems : ∀ (x : Json) (xs : Elems), ElemNumbersOk (.cons x xs) → ∀ (d e : Nat) (r : Text),
    (Elems.pretty d (.cons x xs)).length ≤ n →
    readElems n (Elems.pretty d (.cons x xs) ++ (newline e ++ ']' :: r)) = some (.cons x xs, r)
  members : ∀ (k : Text) (x : Json) (ms : Members), MemberNumbersOk (.cons k x ms) → ∀ (d e : Nat) (r : Text),
    (Members.pretty d (.cons k x ms)).length ≤ n →
    readMembers n (Members.pretty d (.cons k x ms) ++ (newline e ++ '}' :: r)) = some (.cons k x ms, r)

theorem value_step {n : Nat} (ih : ReadsBack n) (v : Json) (h : NumbersOk v) (d : Nat) (r : Text)
    (hn : (v.pretty d).length ≤ n + 1) (hr : Stop r) : readValue (n + 1) (v.pretty d ++ r) = some (v, r) := by
    obtain ⟨c, t, ht, hw, -, -⟩ := pretty_head v h d
    have hs : skipWs (v.pretty d ++ r) = v.pretty d ++ r := by
      rw [ht, List.cons_append, skipWs_cons hw]
    rw [readValue, hs]
    match v, h with
    | .null, _ => simp [Json.pretty, afterWord]
    | .bool true, _ => simp [Json.pretty, afterWord]
    | .bool false, _ => simp [Json.pretty, afterWord]
    | .str t, _ =>
      have := readString_quoted t r
      simp only [Json.pretty]
      rw [this]
      simp [quoted]
    | .num t, h =>
      rw [NumbersOk] at h
      obtain ⟨c, u, hc, hd⟩ := isNumber_head h
      obtain ⟨h1, h2⟩ := takeWhile_stop (isNumber_chars h) hr
      have hne : ∀ x : Char, x ≠ '-' → x.isDigit = false → c ≠ x := by
        intro x hx hx'
        rcases hd with rfl | hd
        · exact Ne.symm hx
        · exact isDigit_ne hd hx'
      simp only [Json.pretty, h1, h2, h, if_true]
      simp only [hc, List.cons_append, List.head?_cons]
      rw [if_neg (hne _ (by decide) (by decide)), if_neg (hne _ (by decide) (by decide)),
        if_neg (hne _ (by decide) (by decide)), if_neg (hne _ (by decide) (by decide)),
        if_neg (hne _ (by decide) (by decide)), if_neg (hne _ (by decide) (by decide))]
    | .arr .nil, _ =>
      simp only [Json.pretty]
      have : skipWs (']' :: r) = ']' :: r := skipWs_cons (by decide)
      simp [this]
    | .arr (.cons x xs), h =>
      rw [NumbersOk] at h
      have hx : NumbersOk x := by rw [ElemNumbersOk] at h; exact h.1
      obtain ⟨c, t, hh⟩ := elems_head x xs hx (d + 1)
      have hlen : (Elems.pretty (d + 1) (.cons x xs)).length ≤ n := by
        simp only [Json.pretty, List.length_cons, List.length_append] at hn; omega
      have := ih.elems x xs h (d + 1) d r hlen
      simp only [Json.pretty, List.cons_append, List.append_assoc, List.nil_append, List.head?_cons, List.tail_cons] at this ⊢
      simp only [(hh _).1, this]
      simp [(hh []).2]
    | .obj .nil, _ =>
      simp only [Json.pretty]
      have : skipWs ('}' :: r) = '}' :: r := skipWs_cons (by decide)
      simp [this]
    | .obj (.cons k x ms), h =>
      rw [NumbersOk] at h
      obtain ⟨t, hh⟩ := members_head k x ms (d + 1)
      have hlen : (Members.pretty (d + 1) (.cons k x ms)).length ≤ n := by
        simp only [Json.pretty, List.length_cons, List.length_append] at hn; omega
      have := ih.members k x ms h (d + 1) d r hlen
      simp only [Json.pretty, List.cons_append, List.append_assoc, List.nil_append, List.head?_cons, List.tail_cons] at this ⊢
      simp only [hh, this]
      simp

theorem elems_step {n : Nat} (ih : ReadsBack n) (x : Json) (xs : Elems) (h : ElemNumbersOk (.cons x xs)) (d e : Nat) (r : Text)
    (hn : (Elems.pretty d (.cons x xs)).length ≤ n + 1) :
    readElems (n + 1) (Elems.pretty d (.cons x xs) ++ (newline e ++ ']' :: r)) = some (.cons x xs, r) := by
    rw [ElemNumbersOk] at h
    match xs, h with
    | .nil, h =>
      rw [readElems, Elems.pretty, List.append_assoc, readValue_of_skipWs (skipWs_newline _ _)]
      rw [ih.value x h.1 d _ (by simp only [Elems.pretty, newline, List.length_append, List.length_cons] at hn; omega)
        (Stop.newline _ _)]
      simp only [Option.bind_eq_bind, Option.bind_some, skipWs_newline]
      rw [skipWs_cons (by decide)]
      simp
    | .cons y ys, h =>
      rw [readElems, Elems.pretty, List.append_assoc, List.append_assoc, readValue_of_skipWs (skipWs_newline _ _)]
      simp only [Elems.pretty, newline, List.length_append, List.length_cons] at hn
      rw [List.cons_append, ih.value x h.1 d _ (by omega) (Stop.cons (by decide))]
      simp only [Option.bind_eq_bind, Option.bind_some]
      rw [skipWs_cons (by decide)]
      simp only [List.head?_cons, if_true, List.tail_cons]
      rw [ih.elems y ys h.2 d e r (by omega)]
      rfl

theorem members_step {n : Nat} (ih : ReadsBack n) (k : Text) (x : Json) (ms : Members) (h : MemberNumbersOk (.cons k x ms)) (d e : Nat) (r : Text)
    (hn : (Members.pretty d (.cons k x ms)).length ≤ n + 1) :
    readMembers (n + 1) (Members.pretty d (.cons k x ms) ++ (newline e ++ '}' :: r)) = some (.cons k x ms, r) := by
    rw [MemberNumbersOk] at h
    have hsp : ∀ t, skipWs (' ' :: t) = skipWs t := fun t => skipWs_cons_ws (by decide)
    match ms, h with
    | .nil, h =>
      rw [Members.pretty, List.append_assoc, List.append_assoc, List.append_assoc,
        readMembers_of_skipWs (skipWs_newline _ _), readMembers, readString_quoted]
      simp only [Members.pretty, newline, List.length_append, List.length_cons] at hn
      simp only [Option.bind_eq_bind, Option.bind_some, show ": ".toList = [':', ' '] from rfl, List.cons_append, List.nil_append]
      rw [skipWs_cons (by decide)]
      simp only [List.head?_cons, if_true, List.tail_cons]
      rw [readValue_of_skipWs (hsp _), ih.value x h.1 d _ (by omega) (Stop.newline _ _)]
      simp only [Option.bind_some, skipWs_newline]
      rw [skipWs_cons (by decide)]
      simp
    | .cons l y ms, h =>
      rw [Members.pretty, List.append_assoc, List.append_assoc, List.append_assoc, List.append_assoc,
        readMembers_of_skipWs (skipWs_newline _ _), readMembers, readString_quoted]
      simp only [Members.pretty, newline, List.length_append, List.length_cons] at hn
      simp only [Option.bind_eq_bind, Option.bind_some, show ": ".toList = [':', ' '] from rfl, List.cons_append, List.nil_append]
      rw [skipWs_cons (by decide)]
      simp only [List.head?_cons, if_true, List.tail_cons]
      rw [readValue_of_skipWs (hsp _), ih.value x h.1 d _ (by omega) (Stop.cons (by decide))]
      simp only [Option.bind_some]
      rw [skipWs_cons (by decide)]
      simp only [List.head?_cons, if_true, List.tail_cons]
      rw [ih.members l y ms h.2 d e r (by omega)]
      rfl

theorem readsBack (n : Nat) : ReadsBack n := by
  induction n with
  | zero =>
    refine ⟨?_, ?_, ?_⟩
    · intro v h d r hn _
      obtain ⟨c, t, ht, -⟩ := pretty_head v h d
      rw [ht] at hn; simp at hn
    · intro x xs _ d e r hn
      cases xs <;> simp [Elems.pretty, newline] at hn
    · intro k x ms _ d e r hn
      cases ms <;> simp [Members.pretty, newline] at hn
  | succ n ih => exact ⟨value_step ih, elems_step ih, members_step ih⟩

theorem readJson_pretty (v : Json) (h : NumbersOk v) : readJson (v.pretty 0) = some v := by
  have := (readsBack (v.pretty 0).length).value v h 0 [] (Nat.le_refl _) Stop.nil
  rw [List.append_nil] at this
  rw [readJson, this]
  simp [skipWs]

end CM.JsonProofs
