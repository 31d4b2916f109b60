import Verif.Model.InDiff
/-! Lemmas about splitting and joining texts. -/
namespace CM

theorem splitOn_ne_nil (sep : Char) (t : Text) : splitOn sep t ≠ [] := by
  cases t with
  | nil => simp [splitOn]
  | cons c cs =>
    unfold splitOn
    split
    · simp
    · split <;> simp

/-- A text without the separator in front extends the first piece. -/
theorem splitOn_append_noSep (sep : Char) (a b : Text) (h : sep ∉ a) :
    ∃ l ls, splitOn sep b = l :: ls ∧ splitOn sep (a ++ b) = (a ++ l) :: ls := by
  induction a with
  | nil =>
    cases hb : splitOn sep b with
    | nil => exact absurd hb (splitOn_ne_nil sep b)
    | cons l ls => exact ⟨l, ls, rfl, hb⟩
  | cons c a ih =>
    simp only [List.mem_cons, not_or] at h
    obtain ⟨l, ls, h1, h2⟩ := ih h.2
    refine ⟨l, ls, h1, ?_⟩
    simp only [List.cons_append, splitOn]
    rw [if_neg (fun e => h.1 e.symm), h2]

theorem splitOn_noSep (sep : Char) (a : Text) (h : sep ∉ a) : splitOn sep a = [a] := by
  obtain ⟨l, ls, h1, h2⟩ := splitOn_append_noSep sep a [] h
  simp only [splitOn, List.cons.injEq] at h1
  rw [List.append_nil] at h2
  rw [h2, ← h1.1, ← h1.2, List.append_nil]

/-- At the first separator. -/
theorem splitOn_sep (sep : Char) (a b : Text) (h : sep ∉ a) :
    splitOn sep (a ++ sep :: b) = a :: splitOn sep b := by
  obtain ⟨l, ls, h1, h2⟩ := splitOn_append_noSep sep a (sep :: b) h
  simp only [splitOn, if_true, List.cons.injEq] at h1
  rw [h2, ← h1.1, ← h1.2, List.append_nil]

/-- At any separator. -/
theorem splitOn_append (sep : Char) (a b : Text) :
    splitOn sep (a ++ sep :: b) = splitOn sep a ++ splitOn sep b := by
  induction a with
  | nil => simp [splitOn]
  | cons c a ih =>
    simp only [List.cons_append, splitOn]
    split
    · rw [ih]; rfl
    · rw [ih]
      cases h : splitOn sep a with
      | nil => exact absurd h (splitOn_ne_nil sep a)
      | cons l ls => simp

/-- Joining and splitting again. -/
theorem splitOn_joinWith (sep : Char) (l : List Text) (hne : l ≠ []) (h : ∀ t ∈ l, sep ∉ t) :
    splitOn sep (joinWith [sep] l) = l := by
  induction l with
  | nil => exact absurd rfl hne
  | cons a l ih =>
    cases l with
    | nil => simp only [joinWith]; exact splitOn_noSep sep a (h a (List.Mem.head _))
    | cons b l =>
      simp only [joinWith, List.append_assoc, List.singleton_append]
      rw [splitOn_sep sep a _ (h a (List.Mem.head _)), ih (by simp) (fun t ht => h t (List.Mem.tail _ ht))]

/-- Splitting and joining again. -/
theorem joinWith_splitOn (sep : Char) (t : Text) : joinWith [sep] (splitOn sep t) = t := by
  induction t with
  | nil => rfl
  | cons c cs ih =>
    unfold splitOn
    split
    · rename_i h
      subst h
      cases hs : splitOn c cs with
      | nil => exact absurd hs (splitOn_ne_nil c cs)
      | cons l ls => rw [hs] at ih; simp [joinWith, ih]
    · cases hs : splitOn sep cs with
      | nil => exact absurd hs (splitOn_ne_nil sep cs)
      | cons l ls =>
        rw [hs] at ih
        cases ls with
        | nil => simp only [joinWith] at ih ⊢; rw [ih]
        | cons m ls => simp only [joinWith, List.cons_append] at ih ⊢; rw [ih]

theorem mem_of_mem_splitOn (sep : Char) (t p : Text) (c : Char) (hp : p ∈ splitOn sep t) (hc : c ∈ p) :
    c ∈ t ∧ c ≠ sep := by
  induction t generalizing p with
  | nil =>
    simp only [splitOn, List.mem_singleton] at hp
    subst hp
    cases hc
  | cons d cs ih =>
    unfold splitOn at hp
    split at hp
    · rcases List.mem_cons.1 hp with rfl | hp
      · cases hc
      · obtain ⟨h1, h2⟩ := ih p hp hc
        exact ⟨List.mem_cons_of_mem _ h1, h2⟩
    · rename_i hd
      split at hp
      · simp only [List.mem_singleton] at hp
        subst hp
        simp only [List.mem_singleton] at hc
        subst hc
        exact ⟨List.mem_cons_self, hd⟩
      · rename_i l ls hs
        rcases List.mem_cons.1 hp with rfl | hp
        · rcases List.mem_cons.1 hc with rfl | hc
          · exact ⟨List.mem_cons_self, hd⟩
          · obtain ⟨h1, h2⟩ := ih l (by rw [hs]; exact List.mem_cons_self) hc
            exact ⟨List.mem_cons_of_mem _ h1, h2⟩
        · obtain ⟨h1, h2⟩ := ih p (by rw [hs]; exact List.mem_cons_of_mem _ hp) hc
          exact ⟨List.mem_cons_of_mem _ h1, h2⟩

end CM
