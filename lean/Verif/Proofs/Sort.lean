import Verif.Model.Sort
/-! Lemmas about sorting and removing repetitions. -/
namespace CM

theorem insertBy_perm {α} (le : α → α → Bool) (x : α) (l : List α) : (insertBy le x l).Perm (x :: l) := by
  induction l with
  | nil => exact .refl _
  | cons y ys ih =>
    unfold insertBy
    split
    · exact .refl _
    · exact (ih.cons y).trans (.swap x y ys)

theorem sortBy_perm {α} (le : α → α → Bool) (l : List α) : (sortBy le l).Perm l := by
  induction l with
  | nil => exact .refl _
  | cons x xs ih => exact (insertBy_perm le x _).trans (ih.cons x)

theorem mem_sortBy {α} (le : α → α → Bool) (l : List α) (x : α) : x ∈ sortBy le l ↔ x ∈ l :=
  (sortBy_perm le l).mem_iff

theorem insertBy_sorted {α} (le : α → α → Bool) (total : ∀ a b, le a b = false → le b a = true)
    (trans : ∀ a b c, le a b = true → le b c = true → le a c = true) (x : α) (l : List α)
    (h : l.Pairwise (fun a b => le a b = true)) : (insertBy le x l).Pairwise (fun a b => le a b = true) := by
  induction l with
  | nil => simp [insertBy]
  | cons y ys ih =>
    rw [List.pairwise_cons] at h
    unfold insertBy
    split
    · rename_i hxy
      rw [List.pairwise_cons, List.pairwise_cons]
      refine ⟨?_, h⟩
      intro z hz
      rcases List.mem_cons.1 hz with rfl | hz
      · exact hxy
      · exact trans _ _ _ hxy (h.1 z hz)
    · rename_i hxy
      rw [List.pairwise_cons]
      refine ⟨?_, ih h.2⟩
      intro z hz
      rcases List.mem_cons.1 ((insertBy_perm le x ys).mem_iff.1 hz) with rfl | hz
      · exact total _ _ (by simpa using hxy)
      · exact h.1 z hz

theorem sortBy_sorted {α} (le : α → α → Bool) (total : ∀ a b, le a b = false → le b a = true)
    (trans : ∀ a b c, le a b = true → le b c = true → le a c = true) (l : List α) :
    (sortBy le l).Pairwise (fun a b => le a b = true) := by
  induction l with
  | nil => exact .nil
  | cons x xs ih => exact insertBy_sorted le total trans x _ ih

/-! lexicographic comparison -/

theorem lexLe_total {α} [DecidableEq α] (lt : α → α → Bool)
    (h : ∀ a b, a ≠ b → lt a b = false → lt b a = true) (a b : List α) :
    lexLe lt a b = false → lexLe lt b a = true := by
  induction a generalizing b with
  | nil => simp [lexLe]
  | cons x xs ih =>
    cases b with
    | nil => simp [lexLe]
    | cons y ys =>
      simp only [lexLe]
      by_cases hxy : x = y
      · subst hxy; simpa using ih ys
      · rw [if_neg hxy, if_neg (fun e => hxy e.symm)]
        exact h x y hxy

theorem lexLe_antisymm {α} [DecidableEq α] (lt : α → α → Bool)
    (h : ∀ a b, a ≠ b → lt a b = true → lt b a = false) (a b : List α) :
    lexLe lt a b = true → lexLe lt b a = true → a = b := by
  induction a generalizing b with
  | nil => cases b <;> simp [lexLe]
  | cons x xs ih =>
    cases b with
    | nil => simp [lexLe]
    | cons y ys =>
      simp only [lexLe]
      by_cases hxy : x = y
      · subst hxy
        rw [if_pos rfl, if_pos rfl]
        intro h1 h2
        rw [ih ys h1 h2]
      · rw [if_neg hxy, if_neg (fun e => hxy e.symm)]
        intro h1 h2
        rw [h x y hxy h1] at h2
        cases h2

theorem lexLe_trans {α} [DecidableEq α] (lt : α → α → Bool)
    (ht : ∀ a b c, a ≠ b → b ≠ c → lt a b = true → lt b c = true → lt a c = true ∧ a ≠ c) (a b c : List α) :
    lexLe lt a b = true → lexLe lt b c = true → lexLe lt a c = true := by
  induction a generalizing b c with
  | nil => simp [lexLe]
  | cons x xs ih =>
    cases b with
    | nil => simp [lexLe]
    | cons y ys =>
      cases c with
      | nil => simp [lexLe]
      | cons z zs =>
        simp only [lexLe]
        by_cases hxy : x = y
        · subst hxy
          by_cases hyz : x = z
          · subst hyz
            rw [if_pos rfl, if_pos rfl, if_pos rfl]
            exact ih ys zs
          · rw [if_pos rfl, if_neg hyz, if_neg hyz]
            exact fun _ h => h
        · by_cases hyz : y = z
          · subst hyz
            rw [if_neg hxy, if_pos rfl, if_neg hxy]
            exact fun h _ => h
          · rw [if_neg hxy, if_neg hyz]
            intro h1 h2
            obtain ⟨h3, h4⟩ := ht x y z hxy hyz h1 h2
            rw [if_neg h4]
            exact h3

theorem charToNat_inj {a b : Char} (h : a.toNat = b.toNat) : a = b := by
  apply Char.ext
  apply UInt32.toNat_inj.1
  exact h

theorem textLe_total (a b : Text) : textLe a b = false → textLe b a = true := by
  apply lexLe_total
  intro a b hab h
  have : a.toNat ≠ b.toNat := fun e => hab (charToNat_inj e)
  simp only [decide_eq_false_iff_not, decide_eq_true_eq] at *
  omega

theorem textLe_antisymm (a b : Text) : textLe a b = true → textLe b a = true → a = b := by
  apply lexLe_antisymm
  intro a b _ h
  simp only [decide_eq_false_iff_not, decide_eq_true_eq] at *
  omega

theorem textLe_trans (a b c : Text) : textLe a b = true → textLe b c = true → textLe a c = true := by
  apply lexLe_trans
  intro a b c _ _ h1 h2
  simp only [decide_eq_true_eq] at *
  refine ⟨by omega, ?_⟩
  rintro rfl
  omega

theorem textLe_refl (a : Text) : textLe a a = true := by
  unfold textLe
  induction a with
  | nil => rfl
  | cons x xs ih => unfold lexLe; rw [if_pos rfl]; exact ih

theorem pathLe_total (a b : List Text) : pathLe a b = false → pathLe b a = true :=
  lexLe_total _ (fun a b _ h => textLe_total a b h) a b

theorem pathLe_antisymm (a b : List Text) : pathLe a b = true → pathLe b a = true → a = b := by
  apply lexLe_antisymm
  intro a b hab h
  by_cases hb : textLe b a = true
  · exact absurd (textLe_antisymm a b h hb) hab
  · simpa using hb

theorem pathLe_trans (a b c : List Text) : pathLe a b = true → pathLe b c = true → pathLe a c = true := by
  apply lexLe_trans
  intro a b c hab hbc h1 h2
  refine ⟨textLe_trans a b c h1 h2, ?_⟩
  rintro rfl
  exact hab (textLe_antisymm a b h1 h2)

/-! removing repetitions -/

theorem mem_dedup {α} [DecidableEq α] (l : List α) (x : α) : x ∈ dedup l ↔ x ∈ l := by
  induction l with
  | nil => simp [dedup]
  | cons a l ih =>
    cases l with
    | nil => simp [dedup]
    | cons b l =>
      unfold dedup
      split
      · rename_i h
        subst h
        rw [ih]
        simp
      · rw [List.mem_cons, ih, List.mem_cons (a := x) (b := a)]

theorem dedup_nodup {α} [DecidableEq α] (le : α → α → Bool)
    (anti : ∀ a b, le a b = true → le b a = true → a = b) (l : List α)
    (h : l.Pairwise (fun a b => le a b = true)) : (dedup l).Nodup := by
  induction l with
  | nil => simp [dedup]
  | cons a l ih =>
    cases l with
    | nil => simp [dedup]
    | cons b l =>
      rw [List.pairwise_cons] at h
      unfold dedup
      split
      · exact ih h.2
      · rename_i hab
        rw [List.nodup_cons]
        refine ⟨?_, ih h.2⟩
        intro ha
        rw [mem_dedup] at ha
        rcases List.mem_cons.1 ha with rfl | ha
        · exact hab rfl
        · exact hab (anti _ _ (h.1 b (List.mem_cons_self)) ((List.pairwise_cons.1 h.2).1 a ha))

theorem mem_uniqueFrom {α} [DecidableEq α] (seen l : List α) (x : α) :
    x ∈ uniqueFrom seen l ↔ x ∈ l ∧ x ∉ seen := by
  induction l generalizing seen with
  | nil => simp [uniqueFrom]
  | cons a l ih =>
    unfold uniqueFrom
    split
    · rename_i ha
      rw [ih, List.mem_cons]
      constructor
      · exact fun ⟨h1, h2⟩ => ⟨.inr h1, h2⟩
      · rintro ⟨rfl | h1, h2⟩
        · exact absurd ha h2
        · exact ⟨h1, h2⟩
    · rename_i ha
      rw [List.mem_cons, ih, List.mem_cons, List.mem_cons]
      constructor
      · rintro (rfl | ⟨h1, h2⟩)
        · exact ⟨.inl rfl, ha⟩
        · exact ⟨.inr h1, fun h => h2 (.inr h)⟩
      · rintro ⟨rfl | h1, h2⟩
        · exact .inl rfl
        · by_cases hxa : x = a
          · exact .inl hxa
          · exact .inr ⟨h1, fun h => h.elim hxa h2⟩

theorem mem_unique {α} [DecidableEq α] (l : List α) (x : α) : x ∈ unique l ↔ x ∈ l := by
  unfold unique
  rw [mem_uniqueFrom]
  simp

theorem uniqueFrom_nodup {α} [DecidableEq α] (seen l : List α) : (uniqueFrom seen l).Nodup := by
  induction l generalizing seen with
  | nil => simp [uniqueFrom]
  | cons a l ih =>
    unfold uniqueFrom
    split
    · exact ih seen
    · rw [List.nodup_cons]
      refine ⟨?_, ih _⟩
      rw [mem_uniqueFrom]
      simp

end CM
