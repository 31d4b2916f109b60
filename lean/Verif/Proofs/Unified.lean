import Verif.Spec.Unified
import Verif.Proofs.Output
/-! Helper lemmas about the diffs of mutants. -/
namespace CM.UnifiedProofs
open CM CM.Spec CM.Similar

/-! ### Lines -/

theorem feedLines_line {l rest : Text} (h : '\n' ∉ l) : feedLines (l ++ '\n' :: rest) = (l ++ ['\n']) :: feedLines rest := by
  induction l with
  | nil => simp [feedLines]
  | cons c l ih =>
    simp only [List.mem_cons, not_or] at h
    have hc : ¬ c = '\n' := fun e => h.1 e.symm
    simp only [List.cons_append, feedLines, if_neg hc, ih h.2]

theorem feedLines_open {l : Text} (h : '\n' ∉ l) (hne : l ≠ []) : feedLines l = [l] := by
  induction l with
  | nil => exact absurd rfl hne
  | cons c l ih =>
    simp only [List.mem_cons, not_or] at h
    have hc : ¬ c = '\n' := fun e => h.1 e.symm
    cases l with
    | nil => simp [feedLines, hc]
    | cons d l => simp only [feedLines, if_neg hc] at ih ⊢; rw [ih h.2 (by simp)]

/-- The lines that the library sees are the lines, if there are no carriage returns. -/
theorem lineTokens_eq {t : Text} (h : '\r' ∉ t) : ∀ cur : Text, '\n' ∉ cur → lineTokens cur t = feedLines (cur ++ t) := by
  induction t with
  | nil =>
    intro cur hcur
    simp only [lineTokens, List.append_nil]
    split
    · rename_i e; subst e; rfl
    · rename_i hne; exact (feedLines_open hcur hne).symm
  | cons c t ih =>
    intro cur hcur
    simp only [List.mem_cons, not_or] at h
    simp only [lineTokens]
    by_cases hc : c = '\n'
    · subst hc
      rw [if_pos rfl, feedLines_line hcur, ih h.2 [] (by simp)]
      rfl
    · have hr : ¬ (c = '\r' ∧ t.head? ≠ some '\n') := fun e => h.1 e.1.symm
      rw [if_neg hc, if_neg hr, ih h.2 (cur ++ [c]) (by simp [hcur, Ne.symm hc])]
      simp

/-- A line is what a text is made of. -/
def GoodLine (t : Text) : Prop := ∃ l, '\n' ∉ l ∧ (t = l ++ ['\n'] ∨ (t = l ∧ '\r' ∉ l ∧ l ≠ []))

theorem feedLines_good {t : Text} (h : '\r' ∉ t) : ∀ l ∈ feedLines t, GoodLine l := by
  induction t with
  | nil => intro l hl; cases hl
  | cons c t ih =>
    simp only [List.mem_cons, not_or] at h
    intro l hl
    simp only [feedLines] at hl
    by_cases hc : c = '\n'
    · rw [if_pos hc] at hl
      rcases List.mem_cons.1 hl with rfl | hl
      · exact ⟨[], by simp, .inl (by simp [hc])⟩
      · exact ih h.2 l hl
    · rw [if_neg hc] at hl
      have ih := ih h.2
      revert hl ih
      cases feedLines t with
      | nil =>
        intro hl _
        simp only [List.mem_singleton] at hl
        subst hl
        exact ⟨[c], by simp [Ne.symm hc], .inr ⟨rfl, by simp [h.1], by simp⟩⟩
      | cons x xs =>
        intro hl ih
        rcases List.mem_cons.1 hl with rfl | hl
        · obtain ⟨m, h1, h2⟩ := ih x (by simp)
          refine ⟨c :: m, by simp [h1, Ne.symm hc], ?_⟩
          rcases h2 with rfl | ⟨rfl, h3, h4⟩
          · exact .inl rfl
          · exact .inr ⟨rfl, by simp [h.1, h3], by simp⟩
        · exact ih l (List.mem_cons_of_mem _ hl)

/-- The lines are all of the text. -/
theorem feedLines_flatten (t : Text) : (feedLines t).flatten = t := by
  induction t with
  | nil => rfl
  | cons c t ih =>
    simp only [feedLines]
    split
    · simp [ih]
    · revert ih
      cases feedLines t with
      | nil => intro ih; simp at ih; simp [← ih]
      | cons x xs => intro ih; simp at ih ⊢; exact ih

/-! ### Hunks -/

theorem slice_add (ls : List Text) (i a b : Nat) :
    DiffOp.slice ls i (a + b) = DiffOp.slice ls i a ++ DiffOp.slice ls (i + a) b := by
  simp only [DiffOp.slice]
  rw [← List.drop_drop, List.take_add]

theorem slice_length {ls : List Text} {i a : Nat} (h : i + a ≤ ls.length) : (DiffOp.slice ls i a).length = a := by
  simp only [DiffOp.slice, List.length_take, List.length_drop]; omega

theorem drop_slice (ls : List Text) (i a : Nat) : ls.drop i = DiffOp.slice ls i a ++ ls.drop (i + a) := by
  simp only [DiffOp.slice]
  rw [← List.drop_drop, List.take_append_drop]

/-- Equal slices have equal parts. -/
theorem slice_part {old new : List Text} {i j l : Nat} (h : DiffOp.slice old i l = DiffOp.slice new j l) {k m : Nat}
    (hk : k + m ≤ l) : DiffOp.slice old (i + k) m = DiffOp.slice new (j + k) m := by
  have cut : ∀ (ls : List Text) (i : Nat), DiffOp.slice ls (i + k) m = ((DiffOp.slice ls i l).drop k).take m := by
    intro ls i
    simp only [DiffOp.slice]
    rw [List.drop_take, List.take_take, List.drop_drop, Nat.min_eq_left (by omega)]
  rw [cut, cut, h]

theorem Script.append {old new : List Text} {i j a i' j' b i'' j''} (h : Script old new i j a i' j')
    (h' : Script old new i' j' b i'' j'') : Script old new i j (a ++ b) i'' j'' := by
  induction h with
  | nil => exact h'
  | cons h1 h2 h3 h4 h5 h6 _ ih => exact .cons h1 h2 h3 h4 h5 h6 (ih h')

/-- Groups of operations between which nothing changes. -/
inductive Groups (old new : List Text) : (i j : Nat) → List (List DiffOp) → Prop
  | nil {i j} : old.drop i = new.drop j → Groups old new i j []
  | cons {i j k g i' j' gs} : DiffOp.slice old i k = DiffOp.slice new j k → i + k ≤ old.length → j + k ≤ new.length →
      g ≠ [] → Script old new (i + k) (j + k) g i' j' → Groups old new i' j' gs → Groups old new i j (g :: gs)

theorem single_equal {old new : List Text} {i j l : Nat} (hl : 0 < l) (h1 : i + l ≤ old.length) (h2 : j + l ≤ new.length)
    (h : DiffOp.slice old i l = DiffOp.slice new j l) :
    Script old new i j [.equal i j l] (i + l) (j + l) := by
  refine .cons rfl rfl (by simp [DiffOp.oldLen]; omega) h1 h2 ?_ .nil
  intro o n l' e
  cases e
  exact h

theorem script_bounds {old new : List Text} {i j ops i' j'} (h : Script old new i j ops i' j') :
    i ≤ i' ∧ j ≤ j' ∧ (i ≤ old.length → i' ≤ old.length) ∧ (j ≤ new.length → j' ≤ new.length) := by
  induction h with
  | nil => exact ⟨Nat.le_refl _, Nat.le_refl _, id, id⟩
  | cons _ _ _ h4 h5 _ _ ih => exact ⟨by omega, by omega, fun _ => ih.2.2.1 h4, fun _ => ih.2.2.2 h5⟩

theorem groupFrom_groups {old new : List Text} {r : Nat} (hr : 0 < r) {ops : List DiffOp} {i j i' j' : Nat}
    (h : Script old new i j ops i' j') (hend : old.drop i' = new.drop j') :
    ∀ {pending p q k}, DiffOp.slice old p k = DiffOp.slice new q k → p + k ≤ old.length → q + k ≤ new.length →
      Script old new (p + k) (q + k) pending i j → Groups old new p q (groupFrom r pending ops) := by
  induction h with
  | @nil i j =>
    intro pending p q k hs h1 h2 hp
    have final : Groups old new i j [] := .nil hend
    have whole : old.drop (p + k) = new.drop (q + k) → old.drop p = new.drop q := by
      intro e
      rw [drop_slice old p k, drop_slice new q k, hs, e]
    match pending, hp with
    | [], hp =>
      cases hp
      exact .nil (whole hend)
    | [.equal o n l], hp =>
      cases hp with
      | cons e1 e2 _ h4 h5 h6 hnil =>
        cases hnil
        refine .nil (whole ?_)
        simp only [DiffOp.oldStart, DiffOp.newStart] at e1 e2
        subst e1; subst e2
        rw [drop_slice old _ l, drop_slice new _ l]
        have := h6 _ _ _ rfl
        simp only [DiffOp.slice, this]
        rw [show old.drop (p + k + l) = new.drop (q + k + l) from hend]
    | [.delete _ _ _], hp => exact .cons hs h1 h2 (by simp) hp final
    | [.insert _ _ _], hp => exact .cons hs h1 h2 (by simp) hp final
    | [.replace _ _ _ _], hp => exact .cons hs h1 h2 (by simp) hp final
    | a :: b :: rest, hp =>
      have : groupFrom r (a :: b :: rest) [] = [a :: b :: rest] := by cases a <;> rfl
      rw [this]
      exact .cons hs h1 h2 (by simp) hp final
  | @cons i j op ops i' j' e1 e2 hpos h4 h5 h6 hrest ih =>
    intro pending p q k hs h1 h2 hp
    have one : Script old new i j [op] (i + op.oldLen) (j + op.newLen) := .cons e1 e2 hpos h4 h5 h6 .nil
    have plain : Groups old new p q (groupFrom r (pending ++ [op]) ops) := ih hend hs h1 h2 (Script.append hp one)
    cases op with
    | delete o l n => exact plain
    | insert o n l => exact plain
    | replace o l n m => exact plain
    | equal o n l =>
      simp only [groupFrom]
      split
      · rename_i hbig
        simp only [DiffOp.oldStart, DiffOp.newStart] at e1 e2
        subst e1; subst e2
        simp only [DiffOp.oldLen, DiffOp.newLen] at h4 h5 ih hrest
        have heq : DiffOp.slice old o l = DiffOp.slice new n l := h6 _ _ _ rfl
        have hpart := fun {a b : Nat} (hab : a + b ≤ l) => slice_part heq (k := a) (m := b) hab
        have hfirst : Script old new o n [.equal o n r] (o + r) (n + r) :=
          single_equal hr (by omega) (by omega) (by simpa using hpart (a := 0) (b := r) (by omega))
        have e : l - (l - r) = r := by omega
        refine .cons hs h1 h2 (by simp) (Script.append hp hfirst) ?_
        refine ih hend (k := l - 2 * r) (hpart (by omega)) (by omega) (by omega) ?_
        have e3 : o + r + (l - 2 * r) = o + (l - r) := by omega
        have e4 : n + r + (l - 2 * r) = n + (l - r) := by omega
        have := single_equal (old := old) (new := new) (i := o + (l - r)) (j := n + (l - r)) (l := r) hr (by omega) (by omega)
          (hpart (by omega))
        rw [e, e3, e4]
        rw [show o + (l - r) + r = o + l from by omega, show n + (l - r) + r = n + l from by omega] at this
        exact this
      · exact plain

theorem trimFirst_script {old new : List Text} {r : Nat} (hr : 0 < r) {ops : List DiffOp} {i' j' : Nat}
    (h : Script old new 0 0 ops i' j') :
    ∃ k, DiffOp.slice old 0 k = DiffOp.slice new 0 k ∧ k ≤ old.length ∧ k ≤ new.length ∧
      Script old new k k (trimFirst r ops) i' j' := by
  cases h with
  | nil => exact ⟨0, by simp [DiffOp.slice], by omega, by omega, .nil⟩
  | @cons _ _ op ops _ _ e1 e2 hpos h4 h5 h6 hrest =>
    have plain : ∃ k, DiffOp.slice old 0 k = DiffOp.slice new 0 k ∧ k ≤ old.length ∧ k ≤ new.length ∧
        Script old new k k (op :: ops) i' j' :=
      ⟨0, by simp [DiffOp.slice], by omega, by omega, .cons e1 e2 hpos h4 h5 h6 hrest⟩
    cases op with
    | delete o l n => exact plain
    | insert o n l => exact plain
    | replace o l n m => exact plain
    | equal o n l =>
      simp only [DiffOp.oldStart, DiffOp.newStart] at e1 e2
      subst e1; subst e2
      simp only [DiffOp.oldLen, DiffOp.newLen] at h4 h5 hrest hpos
      have heq : DiffOp.slice old 0 l = DiffOp.slice new 0 l := h6 _ _ _ rfl
      have hpart := fun {a b : Nat} (hab : a + b ≤ l) => slice_part heq (k := a) (m := b) hab
      refine ⟨l - r, by simpa using hpart (a := 0) (b := l - r) (by omega), by omega, by omega, ?_⟩
      simp only [trimFirst]
      have := single_equal (old := old) (new := new) (i := 0 + (l - r)) (j := 0 + (l - r)) (l := l - (l - r)) (by omega)
        (by omega) (by omega) (hpart (by omega))
      rw [show 0 + (l - r) + (l - (l - r)) = 0 + l from by omega] at this
      simpa using Script.append this hrest

theorem trimLast_script {old new : List Text} {r : Nat} (hr : 0 < r) {ops : List DiffOp} {i j i' j' : Nat}
    (h : Script old new i j ops i' j') (hend : old.drop i' = new.drop j') :
    ∃ i'' j'', Script old new i j (trimLast r ops) i'' j'' ∧ old.drop i'' = new.drop j'' := by
  induction h with
  | nil => exact ⟨_, _, .nil, hend⟩
  | @cons i j op ops i' j' e1 e2 hpos h4 h5 h6 hrest ih =>
    obtain ⟨a, b, hab, habend⟩ := ih hend
    have plain : ∃ i'' j'', Script old new i j (op :: trimLast r ops) i'' j'' ∧ old.drop i'' = new.drop j'' :=
      ⟨a, b, .cons e1 e2 hpos h4 h5 h6 hab, habend⟩
    cases ops with
    | cons op' ops => cases op <;> exact plain
    | nil =>
      cases op with
      | delete o l n => exact plain
      | insert o n l => exact plain
      | replace o l n m => exact plain
      | equal o n l =>
        cases hrest
        simp only [DiffOp.oldStart, DiffOp.newStart] at e1 e2
        subst e1; subst e2
        simp only [DiffOp.oldLen, DiffOp.newLen] at h4 h5 hend hpos
        have heq : DiffOp.slice old o l = DiffOp.slice new n l := h6 _ _ _ rfl
        have hpart := fun {a b : Nat} (hab : a + b ≤ l) => slice_part heq (k := a) (m := b) hab
        refine ⟨o + (l - (l - r)), n + (l - (l - r)), ?_, ?_⟩
        · exact single_equal (by omega) (by omega) (by omega) (by simpa using hpart (a := 0) (b := l - (l - r)) (by omega))
        · rw [drop_slice old _ (l - r), drop_slice new _ (l - r), hpart (by omega)]
          rw [show o + (l - (l - r)) + (l - r) = o + l from by omega, show n + (l - (l - r)) + (l - r) = n + l from by omega, hend]

/-- The groups that are printed leave out only what does not change. -/
theorem groupOps_groups {old new : List Text} {r : Nat} (hr : 0 < r) {ops : List DiffOp}
    (h : Script old new 0 0 ops old.length new.length) : Groups old new 0 0 (groupOps r ops) := by
  obtain ⟨k, hk, h1, h2, hs⟩ := trimFirst_script hr h
  obtain ⟨i', j', hs, hend⟩ := trimLast_script hr hs (by simp)
  exact groupFrom_groups hr hs hend hk (by omega) (by omega) (by simpa using .nil)

/-! ### Bodies -/

/-- What a group has of each text. -/
theorem script_sides {old new : List Text} {i j ops i' j'} (h : Script old new i j ops i' j') :
    ((ops.flatMap (DiffOp.changes old new)).filter fun l => l.1 ≠ '+').map (·.2) = DiffOp.slice old i (i' - i) ∧
    ((ops.flatMap (DiffOp.changes old new)).filter fun l => l.1 ≠ '-').map (·.2) = DiffOp.slice new j (j' - j) := by
  have keep : ∀ (c d : Char) (ts : List Text), c ≠ d →
      ((ts.map fun t => (c, t)).filter fun l => l.1 ≠ d).map (·.2) = ts := by
    intro c d ts hne
    induction ts with
    | nil => rfl
    | cons t ts ih => simp [hne] at ih ⊢; exact ih
  have skip : ∀ (c : Char) (ts : List Text), ((ts.map fun t => (c, t)).filter fun l => l.1 ≠ c).map (·.2) = [] := by
    intro c ts
    induction ts with
    | nil => rfl
    | cons t ts ih => simp at ih ⊢
  induction h with
  | nil => simp [DiffOp.slice]
  | @cons i j op ops i' j' e1 e2 hpos h4 h5 h6 hrest ih =>
    obtain ⟨hb1, hb2, _, _⟩ := script_bounds hrest
    have s1 : DiffOp.slice old i (i' - i) = DiffOp.slice old i op.oldLen ++ DiffOp.slice old (i + op.oldLen) (i' - (i + op.oldLen)) := by
      rw [← slice_add]; congr 1; omega
    have s2 : DiffOp.slice new j (j' - j) = DiffOp.slice new j op.newLen ++ DiffOp.slice new (j + op.newLen) (j' - (j + op.newLen)) := by
      rw [← slice_add]; congr 1; omega
    rw [s1, s2, List.flatMap_cons]
    simp only [List.filter_append, List.map_append]
    rw [ih.1, ih.2]
    have key : ((op.changes old new).filter fun l => l.1 ≠ '+').map (·.2) = DiffOp.slice old i op.oldLen ∧
        ((op.changes old new).filter fun l => l.1 ≠ '-').map (·.2) = DiffOp.slice new j op.newLen := by
      cases op with
      | equal o n l =>
        simp only [DiffOp.oldStart, DiffOp.newStart] at e1 e2
        subst e1; subst e2
        have heq : DiffOp.slice old o l = DiffOp.slice new n l := h6 _ _ _ rfl
        exact ⟨keep _ _ _ (by decide), (keep _ _ _ (by decide)).trans heq⟩
      | delete o l n =>
        simp only [DiffOp.oldStart, DiffOp.newStart] at e1 e2
        subst e1; subst e2
        exact ⟨keep _ _ _ (by decide), by simpa [DiffOp.newLen, DiffOp.slice, DiffOp.changes] using skip '-' (DiffOp.slice old o l)⟩
      | insert o n l =>
        simp only [DiffOp.oldStart, DiffOp.newStart] at e1 e2
        subst e1; subst e2
        exact ⟨by simpa [DiffOp.oldLen, DiffOp.slice, DiffOp.changes] using skip '+' (DiffOp.slice new n l), keep _ _ _ (by decide)⟩
      | replace o l n m =>
        simp only [DiffOp.oldStart, DiffOp.newStart] at e1 e2
        subst e1; subst e2
        simp only [DiffOp.changes, List.filter_append, List.map_append]
        constructor
        · rw [keep _ _ _ (by decide), skip]; simp [DiffOp.oldLen]
        · rw [skip, keep _ _ _ (by decide)]; simp [DiffOp.newLen]
    rw [key.1, key.2]
    exact ⟨rfl, rfl⟩

/-- What is printed is made of lines of the texts, with marks. -/
def GoodChange (c : Char × Text) : Prop := (c.1 = ' ' ∨ c.1 = '-' ∨ c.1 = '+') ∧ GoodLine c.2

theorem changes_good {old new : List Text} (ho : ∀ l ∈ old, GoodLine l) (hn : ∀ l ∈ new, GoodLine l) (op : DiffOp) :
    ∀ c ∈ op.changes old new, GoodChange c := by
  have so : ∀ {ls : List Text} {i a t}, t ∈ DiffOp.slice ls i a → t ∈ ls := by
    intro ls i a t h
    exact List.mem_of_mem_drop (List.mem_of_mem_take h)
  intro c hc
  cases op with
  | equal o n l =>
    simp only [DiffOp.changes, List.mem_map] at hc
    obtain ⟨t, ht, rfl⟩ := hc
    exact ⟨.inl rfl, ho _ (so ht)⟩
  | delete o l n =>
    simp only [DiffOp.changes, List.mem_map] at hc
    obtain ⟨t, ht, rfl⟩ := hc
    exact ⟨.inr (.inl rfl), ho _ (so ht)⟩
  | insert o n l =>
    simp only [DiffOp.changes, List.mem_map] at hc
    obtain ⟨t, ht, rfl⟩ := hc
    exact ⟨.inr (.inr rfl), hn _ (so ht)⟩
  | replace o l n m =>
    simp only [DiffOp.changes, List.mem_append, List.mem_map] at hc
    rcases hc with ⟨t, ht, rfl⟩ | ⟨t, ht, rfl⟩
    · exact ⟨.inr (.inl rfl), ho _ (so ht)⟩
    · exact ⟨.inr (.inr rfl), hn _ (so ht)⟩

end CM.UnifiedProofs
