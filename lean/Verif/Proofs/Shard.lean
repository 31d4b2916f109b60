import Verif.Model.Shard
import Verif.Spec.Shard
import Verif.Proofs.ListUtil
/-! Helper lemmas for sharding. -/
namespace CM
open Spec

/-! ### select -/

/-- The selection, from running index `i`. -/
def selFrom {α} (k n i : Nat) (l : List α) : List α :=
  (l.zipIdx i).filterMap fun (m, i) => if i % n = k then some m else none

theorem selFrom_cons {α} (k n i : Nat) (a : α) (l : List α) :
    selFrom k n i (a :: l) = if i % n = k then a :: selFrom k n (i + 1) l else selFrom k n (i + 1) l := by
  unfold selFrom
  rw [List.zipIdx_cons, List.filterMap_cons]
  split <;> simp_all

theorem select_eq {α} {s : Shard} (h : 0 < s.n) (l : List α) : s.select l = some (selFrom s.k s.n 0 l) := by
  have : ¬ (s.n = 0 ∧ l ≠ []) := by omega
  simp only [Shard.select, this, if_false, selFrom]

theorem selFrom_getElem? {α} {k n : Nat} (hk : k < n) (l : List α) (i d j : Nat)
    (hd : (i + d) % n = k) (hd' : d < n) : (selFrom k n i l)[j]? = l[d + j * n]? := by
  induction l generalizing i d j with
  | nil => simp [selFrom]
  | cons a l ih =>
    rw [selFrom_cons]
    by_cases hi : i % n = k
    · have hd0 : d = 0 := by
        have : (i % n + d) % n = k := by rw [Nat.mod_add_mod]; exact hd
        rw [hi] at this
        by_cases hlt : k + d < n
        · rw [Nat.mod_eq_of_lt hlt] at this; omega
        · rw [Nat.mod_eq_sub_mod (by omega), Nat.mod_eq_of_lt (by omega)] at this; omega
      subst hd0
      rw [if_pos hi]
      cases j with
      | zero => simp
      | succ j =>
        rw [List.getElem?_cons_succ, ih (i + 1) (n - 1) j ?_ (by omega)]
        · have : 0 + (j + 1) * n = (n - 1 + j * n) + 1 := by rw [Nat.add_mul]; omega
          rw [this, List.getElem?_cons_succ]
        · have : i + 1 + (n - 1) = i + n := by omega
          rw [this, Nat.add_mod_right]; simpa using hd
    · rw [if_neg hi]
      have hd0 : d ≠ 0 := by rintro rfl; exact hi (by simpa using hd)
      rw [ih (i + 1) (d - 1) j (by rw [← hd]; congr 1; omega) (by omega)]
      have : d + j * n = (d - 1 + j * n) + 1 := by omega
      rw [this, List.getElem?_cons_succ]

theorem selFrom_zero_getElem? {α} {k n : Nat} (hk : k < n) (l : List α) (j : Nat) :
    (selFrom k n 0 l)[j]? = l[k + j * n]? :=
  selFrom_getElem? hk l 0 k j (by simpa using Nat.mod_eq_of_lt hk) hk

theorem selFrom_append {α} (k n i : Nat) (l l' : List α) :
    selFrom k n i (l ++ l') = selFrom k n i l ++ selFrom k n (i + l.length) l' := by
  unfold selFrom
  rw [List.zipIdx_append, List.filterMap_append]

theorem selFrom_sublist {α} (k n i : Nat) (l : List α) : (selFrom k n i l).Sublist l := by
  induction l generalizing i with
  | nil => simp [selFrom]
  | cons a l ih =>
    rw [selFrom_cons]
    split
    · exact (ih _).cons_cons a
    · exact (ih _).cons a

theorem flatMap_append_perm {α β} (f g : α → List β) (l : List α) :
    (l.flatMap fun a => f a ++ g a).Perm (l.flatMap f ++ l.flatMap g) := by
  induction l with
  | nil => simp
  | cons a l ih =>
    simp only [List.flatMap_cons]
    have h1 : (f a ++ g a ++ l.flatMap fun a => f a ++ g a).Perm
        (f a ++ g a ++ (l.flatMap f ++ l.flatMap g)) := List.Perm.append_left _ ih
    refine h1.trans ?_
    have h2 : (g a ++ (l.flatMap f ++ l.flatMap g)).Perm (l.flatMap f ++ (g a ++ l.flatMap g)) := by
      rw [← List.append_assoc, ← List.append_assoc]
      exact List.perm_append_comm.append_right _
    simpa [List.append_assoc] using h2.append_left (f a)

theorem flatMap_single_range {α} (n m : Nat) (a : α) :
    (List.range n).flatMap (fun k => if m = k then [a] else []) = if m < n then [a] else [] := by
  induction n with
  | zero => simp
  | succ n ih =>
    rw [List.range_succ, List.flatMap_append, ih]
    by_cases h : m < n
    · simp [h, show m ≠ n by omega, show m < n + 1 by omega]
    · by_cases h' : m = n
      · simp [h']
      · simp [h, h', show ¬ m < n + 1 by omega]

theorem shards_perm {α} {n : Nat} (hn : 0 < n) (l : List α) :
    ((List.range n).flatMap fun k => selFrom k n 0 l).Perm l := by
  induction l using snocInduction with
  | nil => simp [selFrom]
  | snoc l a ih =>
    have : (fun k => selFrom k n 0 (l ++ [a])) =
        fun k => selFrom k n 0 l ++ (if l.length % n = k then [a] else []) := by
      funext k
      rw [selFrom_append, selFrom_cons]
      simp [selFrom]
    rw [this]
    refine (flatMap_append_perm _ _ _).trans ?_
    rw [flatMap_single_range, if_pos (Nat.mod_lt _ hn)]
    exact ih.append_right _

theorem selFrom_length {α} {k n : Nat} (hk : k < n) (l : List α) :
    (selFrom k n 0 l).length = (l.length + (n - 1 - k)) / n := by
  have key : ∀ j, (selFrom k n 0 l).length ≤ j ↔ (l.length + (n - 1 - k)) / n ≤ j := by
    intro j
    rw [← List.getElem?_eq_none_iff, selFrom_zero_getElem? hk, List.getElem?_eq_none_iff,
      ← Nat.lt_succ_iff (n := j), Nat.div_lt_iff_lt_mul (by omega), Nat.succ_mul]
    omega
  exact Nat.le_antisymm ((key _).2 (Nat.le_refl _)) ((key _).1 (Nat.le_refl _))

/-! ### numerals -/

theorem digitValue_iff (c : Char) (d : Nat) : digitValue c = some d ↔ (c, d) ∈ digits := by
  constructor
  · intro h
    unfold digitValue at h
    split at h
    · rename_i hc
      have h1 : c.toNat = d + 48 := by
        have h0 : (48 : Nat) ≤ c.toNat := hc.1
        simp only [Option.some.injEq] at h
        have : '0'.toNat = 48 := rfl
        omega
      have h2 : d ≤ 9 := by
        have h0 : c.toNat ≤ 57 := hc.2
        omega
      have hc : c = Char.ofNat (d + 48) := by rw [← h1, Char.ofNat_toNat]
      subst hc
      have : ∀ d : Fin 10, (Char.ofNat (d.val + 48), d.val) ∈ digits := by decide
      exact this ⟨d, by omega⟩
    · simp at h
  · have : ∀ x ∈ digits, digitValue x.1 = some x.2 := by decide
    exact this (c, d)

theorem decimal_ne_nil {t v} (h : Decimal t v) : t ≠ [] := by
  cases h <;> simp

theorem decimal_head_digit {t v} (h : Decimal t v) : ∃ c d, t.head? = some c ∧ (c, d) ∈ digits := by
  induction h with
  | one h => exact ⟨_, _, rfl, h⟩
  | more h hd ih =>
    obtain ⟨c, d, h1, h2⟩ := ih
    exact ⟨c, d, by simp [List.head?_append, h1], h2⟩

/-- Value of a digit string that continues a numeral of value `acc`. -/
inductive DigitsFrom : Nat → Text → Nat → Prop
  | nil {a} : DigitsFrom a [] a
  | cons {a c d t v} : (c, d) ∈ digits → DigitsFrom (10 * a + d) t v → DigitsFrom a (c :: t) v

theorem DigitsFrom.le {a t v} (h : DigitsFrom a t v) : a ≤ v := by
  induction h with
  | nil => exact Nat.le_refl _
  | cons _ _ ih => omega

theorem DigitsFrom.snoc {a t v c d} (h : DigitsFrom a t v) (hd : (c, d) ∈ digits) :
    DigitsFrom a (t ++ [c]) (10 * v + d) := by
  induction h with
  | nil => exact .cons hd .nil
  | cons h1 _ ih => exact .cons h1 ih

theorem DigitsFrom.of_decimal {t v} (h : Decimal t v) : DigitsFrom 0 t v := by
  induction h with
  | one h => exact .cons h (by simpa using DigitsFrom.nil)
  | more _ hd ih => exact ih.snoc hd

theorem decimal_extend {t a u v} (h : Decimal t a) (h' : DigitsFrom a u v) : Decimal (t ++ u) v := by
  induction h' generalizing t with
  | nil => simpa using h
  | @cons a c d u v hd _ ih => simpa using ih (h.more hd)

theorem DigitsFrom.to_decimal {c t v} (h : DigitsFrom 0 (c :: t) v) : Decimal (c :: t) v := by
  cases h with
  | cons hd h' => exact decimal_extend (t := [c]) (Decimal.one (by simpa using hd)) (by simpa using h')

theorem parseDigits_iff (a : Nat) (t : Text) (v : Nat) (ha : a ≤ usizeMax) :
    parseDigits a t = some v ↔ DigitsFrom a t v ∧ v ≤ usizeMax := by
  induction t generalizing a with
  | nil =>
    simp only [parseDigits, Option.some.injEq]
    constructor
    · rintro rfl; exact ⟨.nil, ha⟩
    · rintro ⟨h, _⟩; cases h; rfl
  | cons c t ih =>
    simp only [parseDigits]
    cases hc : digitValue c with
    | none =>
      simp only [reduceCtorEq, false_iff]
      rintro ⟨h, _⟩
      cases h with
      | cons hd _ => rw [(digitValue_iff _ _).2 hd] at hc; cases hc
    | some d =>
      have hd := (digitValue_iff _ _).1 hc
      simp only
      by_cases hle : a * 10 + d ≤ usizeMax
      · rw [if_pos hle, ih _ hle]
        constructor
        · rintro ⟨h, hv⟩; exact ⟨.cons hd (by rwa [Nat.mul_comm]), hv⟩
        · rintro ⟨h, hv⟩
          cases h with
          | cons hd' h' =>
            have := (digitValue_iff _ _).2 hd'
            rw [hc] at this
            cases this
            exact ⟨by rwa [Nat.mul_comm a], hv⟩
      · rw [if_neg hle]
        simp only [reduceCtorEq, false_iff]
        rintro ⟨h, hv⟩
        cases h with
        | cons hd' h' =>
          have := (digitValue_iff _ _).2 hd'
          rw [hc] at this
          cases this
          have := h'.le
          omega

theorem plus_not_digit {d} : ('+', d) ∉ digits := by
  simp [digits]

theorem parseUsize_iff (t : Text) (v : Nat) :
    parseUsize t = some v ↔ SignedDecimal t v ∧ v ≤ usizeMax := by
  have base : ∀ c t, parseDigits 0 (c :: t) = some v ↔ Decimal (c :: t) v ∧ v ≤ usizeMax := by
    intro c t
    rw [parseDigits_iff _ _ _ (Nat.zero_le _)]
    exact ⟨fun h => ⟨h.1.to_decimal, h.2⟩, fun h => ⟨.of_decimal h.1, h.2⟩⟩
  have noplus : ∀ t v, ¬ Decimal ('+' :: t) v := by
    intro t v h
    obtain ⟨c, d, h1, h2⟩ := decimal_head_digit h
    simp at h1; subst h1
    exact plus_not_digit h2
  unfold SignedDecimal
  match t with
  | [] =>
    simp only [parseUsize, reduceCtorEq, false_iff]
    rintro ⟨h | ⟨u, h, _⟩, _⟩
    · exact decimal_ne_nil h rfl
    · cases h
  | [c] =>
    simp only [parseUsize]
    rw [base]
    constructor
    · rintro ⟨h, h'⟩; exact ⟨.inl h, h'⟩
    · rintro ⟨h | ⟨u, h, hu⟩, h'⟩
      · exact ⟨h, h'⟩
      · cases h; exact absurd rfl (decimal_ne_nil hu)
  | c :: d :: cs =>
    simp only [parseUsize]
    by_cases hc : c = '+'
    · subst hc
      rw [if_pos rfl, base]
      constructor
      · rintro ⟨h, h'⟩; exact ⟨.inr ⟨_, rfl, h⟩, h'⟩
      · rintro ⟨h | ⟨u, h, hu⟩, h'⟩
        · exact absurd h (noplus _ _)
        · cases h; exact ⟨hu, h'⟩
    · rw [if_neg hc, base]
      constructor
      · rintro ⟨h, h'⟩; exact ⟨.inl h, h'⟩
      · rintro ⟨h | ⟨u, h, hu⟩, h'⟩
        · exact ⟨h, h'⟩
        · cases h; exact absurd rfl hc

theorem splitOnce_iff (sep : Char) (s a b : Text) :
    splitOnce sep s = some (a, b) ↔ s = a ++ sep :: b ∧ sep ∉ a := by
  induction s generalizing a with
  | nil => simp [splitOnce]
  | cons c s ih =>
    simp only [splitOnce]
    by_cases hc : c = sep
    · subst hc
      simp only [if_true, Option.some.injEq, Prod.mk.injEq]
      constructor
      · rintro ⟨rfl, rfl⟩; simp
      · rintro ⟨h, ha⟩
        cases a with
        | nil => simpa using h
        | cons d a => simp at h; simp [h.1] at ha
    · simp only [hc, if_false, Option.map_eq_some_iff, Prod.exists, Prod.mk.injEq]
      constructor
      · rintro ⟨a', b', h, rfl, rfl⟩
        obtain ⟨h1, h2⟩ := (ih a').1 h
        exact ⟨by simp [h1], by simp [h2, Ne.symm hc]⟩
      · rintro ⟨h, ha⟩
        cases a with
        | nil => simp at h; exact absurd h.1 hc
        | cons d a =>
          simp only [List.cons_append, List.cons.injEq] at h
          refine ⟨a, b, (ih a).2 ⟨h.2, ?_⟩, by simp [h.1], rfl⟩
          simp at ha; exact ha.2

theorem digit_ne_slash {c d} (h : (c, d) ∈ digits) : c ≠ '/' := by
  have : ∀ x ∈ digits, x.1 ≠ '/' := by decide
  exact this _ h

theorem decimal_no_slash {t v} (h : Decimal t v) : '/' ∉ t := by
  induction h with
  | one h => simpa using (digit_ne_slash h).symm
  | more _ hd ih => simp [ih, (digit_ne_slash hd).symm]

theorem signedDecimal_no_slash {t v} (h : SignedDecimal t v) : '/' ∉ t := by
  rcases h with h | ⟨u, rfl, h⟩
  · exact decimal_no_slash h
  · simp [decimal_no_slash h]

end CM
