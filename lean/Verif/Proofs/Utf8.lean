import Verif.Model.Utf8
import Verif.Proofs.Text
/-! Lemmas about the bytes of texts. -/
namespace CM

/-- The bytes are those of the encoder of Lean's own strings. -/
theorem utf8Bytes_eq (c : Char) : utf8Bytes c = (String.utf8EncodeChar c).map UInt8.toNat := by
  have hv : c.toNat < 1114112 := by
    have := c.valid
    have e : c.toNat = c.val.toNat := rfl
    rw [e]
    rcases this with h | ⟨_, h⟩
    · exact Nat.lt_trans (show c.val.toNat < 0xd800 from h) (by decide)
    · exact h
  unfold utf8Bytes String.utf8EncodeChar
  simp only [show c.val.toNat = c.toNat from rfl]
  generalize c.toNat = n at hv
  by_cases h1 : n < 128
  · rw [if_pos h1, if_pos (show n ≤ 127 by omega)]
    simp; omega
  · rw [if_neg h1, if_neg (show ¬ n ≤ 127 by omega)]
    by_cases h2 : n < 2048
    · rw [if_pos h2, if_pos (show n ≤ 2047 by omega)]
      simp; omega
    · rw [if_neg h2, if_neg (show ¬ n ≤ 2047 by omega)]
      by_cases h3 : n < 65536
      · rw [if_pos h3, if_pos (show n ≤ 65535 by omega)]
        simp; omega
      · rw [if_neg h3, if_neg (show ¬ n ≤ 65535 by omega)]
        simp; omega

theorem ofNat_toNat {n : Nat} (h : n < 256) : (Char.ofNat n).toNat = n := by
  unfold Char.ofNat
  rw [dif_pos (Or.inl (by omega))]
  rfl

theorem utf8Bytes_lt (c : Char) : ∀ n ∈ utf8Bytes c, n < 256 := by
  have hv : c.toNat < 1114112 := by
    have := c.valid
    have e : c.toNat = c.val.toNat := rfl
    rw [e]
    rcases this with h | ⟨_, h⟩
    · exact Nat.lt_trans (show c.val.toNat < 0xd800 from h) (by decide)
    · exact h
  unfold utf8Bytes
  generalize c.toNat = n at hv
  dsimp only
  intro k hk
  split at hk
  · simp at hk; omega
  · split at hk
    · simp at hk; omega
    · split at hk
      · simp at hk; omega
      · simp at hk; omega

/-- A byte that only follows others. -/
def isContByte (b : Char) : Prop := 128 ≤ b.toNat ∧ b.toNat < 192

/-- A character is one byte, itself, or a first byte of at least 192 and following ones. -/
theorem utf8Char_cases (c : Char) :
    (c.toNat < 128 ∧ utf8Char c = [c]) ∨
    (128 ≤ c.toNat ∧ ∃ b bs, utf8Char c = b :: bs ∧ 192 ≤ b.toNat ∧ ∀ x ∈ bs, isContByte x) := by
  have hlt := utf8Bytes_lt c
  have key : ∀ n, n < 256 → (Char.ofNat n).toNat = n := fun n h => ofNat_toNat h
  have h : (c.toNat < 128 ∧ utf8Bytes c = [c.toNat]) ∨
      (128 ≤ c.toNat ∧ ∃ b bs, utf8Bytes c = b :: bs ∧ 192 ≤ b ∧ ∀ x ∈ bs, 128 ≤ x ∧ x < 192) := by
    unfold utf8Bytes
    generalize c.toNat = n
    dsimp only
    by_cases h1 : n < 128
    · left; rw [if_pos h1]; exact ⟨h1, rfl⟩
    · right
      rw [if_neg h1]
      refine ⟨by omega, ?_⟩
      by_cases h2 : n < 2048
      · rw [if_pos h2]; exact ⟨_, _, rfl, by omega, by simp; omega⟩
      · rw [if_neg h2]
        by_cases h3 : n < 65536
        · rw [if_pos h3]; exact ⟨_, _, rfl, by omega, by simp; omega⟩
        · rw [if_neg h3]; exact ⟨_, _, rfl, by omega, by simp; omega⟩
  unfold utf8Char
  rcases h with ⟨h1, h2⟩ | ⟨h1, b, bs, h2, h3, h4⟩
  · left
    refine ⟨h1, ?_⟩
    rw [h2]
    show [Char.ofNat c.toNat] = [c]
    rw [Char.ofNat_toNat]
  · right
    refine ⟨h1, Char.ofNat b, bs.map Char.ofNat, by rw [h2]; rfl, ?_, ?_⟩
    · rw [key b (hlt b (by rw [h2]; simp))]; exact h3
    · intro x hx
      obtain ⟨n, hn, rfl⟩ := List.mem_map.1 hx
      unfold isContByte
      rw [key n (hlt n (by rw [h2]; simp [hn]))]
      exact h4 n hn

/-- Different characters have different bytes, and none is the start of another. -/
theorem utf8Char_prefix (c d : Char) (x y : Text) (h : utf8Char c ++ x = utf8Char d ++ y) : c = d ∧ x = y := by
  have hb : ∀ (a b : List Nat), (∀ n ∈ a, n < 256) → (∀ n ∈ b, n < 256) →
      a.map Char.ofNat = b.map Char.ofNat → a = b := by
    intro a
    induction a with
    | nil => intro b _ _ h; cases b with
      | nil => rfl
      | cons _ _ => cases h
    | cons n a ih =>
      intro b ha hb' h
      cases b with
      | nil => cases h
      | cons m b =>
        injection h with h1 h2
        have := congrArg Char.toNat h1
        rw [ofNat_toNat (ha n (by simp)), ofNat_toNat (hb' m (by simp))] at this
        rw [this, ih b (fun k hk => ha k (by simp [hk])) (fun k hk => hb' k (by simp [hk])) h2]
  have hlen : (utf8Char c).length = (utf8Char d).length := by
    have l : ∀ e : Char, ∃ b bs, utf8Bytes e = b :: bs ∧ bs.length = (if b < 192 then 0 else if b < 224 then 1 else if b < 240 then 2 else 3) := by
      intro e
      have hv : e.toNat < 1114112 := by
        have := e.valid
        have e' : e.toNat = e.val.toNat := rfl
        rw [e']
        rcases this with h | ⟨_, h⟩
        · exact Nat.lt_trans (show e.val.toNat < 0xd800 from h) (by decide)
        · exact h
      unfold utf8Bytes
      generalize e.toNat = n at hv
      dsimp only
      by_cases h1 : n < 128
      · rw [if_pos h1]; exact ⟨_, _, rfl, by rw [if_pos (by omega)]; rfl⟩
      · rw [if_neg h1]
        by_cases h2 : n < 2048
        · rw [if_pos h2]; exact ⟨_, _, rfl, by rw [if_neg (by omega), if_pos (by omega)]; rfl⟩
        · rw [if_neg h2]
          by_cases h3 : n < 65536
          · rw [if_pos h3]; exact ⟨_, _, rfl, by rw [if_neg (by omega), if_neg (by omega), if_pos (by omega)]; rfl⟩
          · rw [if_neg h3]; exact ⟨_, _, rfl, by rw [if_neg (by omega), if_neg (by omega), if_neg (by omega)]; rfl⟩
    obtain ⟨b, bs, h1, h2⟩ := l c
    obtain ⟨b', bs', h3, h4⟩ := l d
    have e1 := utf8Bytes_lt c b (by rw [h1]; simp)
    have e2 := utf8Bytes_lt d b' (by rw [h3]; simp)
    unfold utf8Char at h ⊢
    rw [h1, h3] at h
    injection h with h5 _
    have := congrArg Char.toNat h5
    rw [ofNat_toNat e1, ofNat_toNat e2] at this
    rw [h1, h3]
    simp only [List.length_map, List.length_cons, h2, h4, this]
  obtain ⟨h1, h2⟩ := List.append_inj h hlen
  refine ⟨?_, h2⟩
  have h3 := hb _ _ (utf8Bytes_lt c) (utf8Bytes_lt d) h1
  have inj : ∀ n m : Nat, n < 1114112 → m < 1114112 →
      (if n < 128 then [n] else if n < 2048 then [192 + n / 64, 128 + n % 64]
        else if n < 65536 then [224 + n / 4096, 128 + n / 64 % 64, 128 + n % 64]
        else [240 + n / 262144, 128 + n / 4096 % 64, 128 + n / 64 % 64, 128 + n % 64]) =
      (if m < 128 then [m] else if m < 2048 then [192 + m / 64, 128 + m % 64]
        else if m < 65536 then [224 + m / 4096, 128 + m / 64 % 64, 128 + m % 64]
        else [240 + m / 262144, 128 + m / 4096 % 64, 128 + m / 64 % 64, 128 + m % 64]) → n = m := by
    intro n m _ _ h
    split at h <;> split at h <;> (try split at h) <;> (try split at h) <;> (try split at h) <;> (try split at h) <;>
      simp at h <;> omega
  have hv : ∀ e : Char, e.toNat < 1114112 := by
    intro e
    have := e.valid
    have e' : e.toNat = e.val.toNat := rfl
    rw [e']
    rcases this with h | ⟨_, h⟩
    · exact Nat.lt_trans (show e.val.toNat < 0xd800 from h) (by decide)
    · exact h
  have := inj c.toNat d.toNat (hv c) (hv d) h3
  rw [← Char.ofNat_toNat c, ← Char.ofNat_toNat d, this]

theorem utf8Char_ne_nil (c : Char) : utf8Char c ≠ [] := by
  rcases utf8Char_cases c with ⟨_, h⟩ | ⟨_, b, bs, h, _⟩ <;> rw [h] <;> simp

theorem utf8_nil : utf8 [] = [] := rfl
theorem utf8_cons (c : Char) (t : Text) : utf8 (c :: t) = utf8Char c ++ utf8 t := by
  unfold utf8; rw [List.flatMap_cons]
theorem utf8_append (a b : Text) : utf8 (a ++ b) = utf8 a ++ utf8 b := by
  unfold utf8; rw [List.flatMap_append]

theorem utf8Char_ascii {c : Char} (h : c.toNat < 128) : utf8Char c = [c] := by
  rcases utf8Char_cases c with ⟨_, e⟩ | ⟨h', _⟩
  · exact e
  · omega

theorem utf8_ascii {t : Text} (h : ∀ c ∈ t, c.toNat < 128) : utf8 t = t := by
  induction t with
  | nil => rfl
  | cons c t ih =>
    rw [utf8_cons, utf8Char_ascii (h c (by simp)), ih fun x hx => h x (by simp [hx])]
    rfl

theorem utf8_inj {a b : Text} (h : utf8 a = utf8 b) : a = b := by
  induction a generalizing b with
  | nil =>
    cases b with
    | nil => rfl
    | cons d b =>
      rw [utf8_cons, utf8_nil] at h
      have := utf8Char_ne_nil d
      cases he : utf8Char d with
      | nil => exact absurd he this
      | cons _ _ => rw [he] at h; cases h
  | cons c a ih =>
    cases b with
    | nil =>
      rw [utf8_cons, utf8_nil] at h
      cases he : utf8Char c with
      | nil => exact absurd he (utf8Char_ne_nil c)
      | cons _ _ => rw [he] at h; cases h
    | cons d b =>
      rw [utf8_cons, utf8_cons] at h
      obtain ⟨rfl, h'⟩ := utf8Char_prefix _ _ _ _ h
      rw [ih h']

/-- A byte of a character below 128 is that character. -/
theorem mem_utf8Char {c x : Char} (h : x ∈ utf8Char c) (hx : x.toNat < 128) : x = c := by
  rcases utf8Char_cases c with ⟨_, e⟩ | ⟨_, b, bs, e, hb, hbs⟩
  · rw [e] at h; simpa using h
  · rw [e] at h
    rcases List.mem_cons.1 h with rfl | h
    · omega
    · have := (hbs x h).1; omega

theorem mem_utf8 {t : Text} {x : Char} (hx : x.toNat < 128) : x ∈ utf8 t ↔ x ∈ t := by
  unfold utf8
  rw [List.mem_flatMap]
  constructor
  · rintro ⟨c, hc, h⟩
    rwa [mem_utf8Char h hx]
  · intro h
    exact ⟨x, h, by rw [utf8Char_ascii hx]; simp⟩

/-- Splitting at separators and encoding can be exchanged. -/
theorem splitOn_utf8 (t : Text) : splitOn '/' (utf8 t) = (splitOn '/' t).map utf8 := by
  induction t with
  | nil => rfl
  | cons c t ih =>
    rw [utf8_cons]
    have pre : ∀ (bs : Text), '/' ∉ bs → ∀ y : Text, splitOn '/' (bs ++ y) =
        match splitOn '/' y with
        | [] => []
        | l :: ls => (bs ++ l) :: ls := by
      intro bs
      induction bs with
      | nil => intro _ y; cases h : splitOn '/' y with
        | nil => simp [h]
        | cons _ _ => simp [h]
      | cons b bs ihb =>
        intro hb y
        have hne : b ≠ '/' := fun e => hb (by simp [e])
        rw [List.cons_append, splitOn, if_neg hne, ihb (fun h => hb (by simp [h])) y]
        cases h : splitOn '/' y with
        | nil => exact absurd h (splitOn_ne_nil _ _)
        | cons l ls => rfl
    by_cases hc : c = '/'
    · subst hc
      rw [utf8Char_ascii (by decide), List.cons_append, List.nil_append, splitOn, if_pos rfl, ih, splitOn, if_pos rfl]
      rfl
    · rw [pre (utf8Char c) (fun h => hc (mem_utf8Char h (by decide)).symm), ih, splitOn, if_neg hc]
      cases h : splitOn '/' t with
      | nil => exact absurd h (splitOn_ne_nil _ _)
      | cons l ls => simp [utf8_cons]

theorem joinWith_utf8 (p : List Text) : utf8 (joinWith ['/'] p) = joinWith ['/'] (p.map utf8) := by
  induction p with
  | nil => rfl
  | cons a p ih =>
    cases p with
    | nil => rfl
    | cons b p =>
      simp only [joinWith, List.map_cons] at ih ⊢
      rw [utf8_append, utf8_append, ih]
      rfl

end CM
