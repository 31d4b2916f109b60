import Verif.Spec.InDiff
import Verif.Proofs.ListUtil
/-! Helper lemmas about diffs. -/
namespace CM
open CM.Spec

/-! ### affected lines -/

/-- Some later line is in the new file. -/
def keptIn (ls : List DiffLine) : Prop := ∃ l ∈ ls, isNew l = true

/-- Affected lines as a relation by recursion, in step with the loop. -/
def affectedRel (lineno : Nat) (prev : Bool) : List DiffLine → Nat → Prop
  | [], _ => False
  | .remove _ :: ls, n => (n + 1 = lineno ∧ 1 ≤ n) ∨ affectedRel lineno true ls n
  | .context _ :: ls, n => (prev = true ∧ n = lineno) ∨ affectedRel (lineno + 1) false ls n
  | .add _ :: ls, n => n = lineno ∨ affectedRel (lineno + 1) false ls n

theorem pairwise_snoc {l : List Nat} {x : Nat} (h : l.Pairwise (· < ·)) (hx : ∀ y ∈ l, y < x) :
    (l ++ [x]).Pairwise (· < ·) := by
  rw [List.pairwise_append]
  exact ⟨h, by simp, by intro a ha b hb; simp at hb; subst hb; exact hx a ha⟩

theorem lt_of_getLast_ne {l : List Nat} {x : Nat} (h : l.Pairwise (· < ·)) (hx : ∀ y ∈ l, y ≤ x)
    (hl : l.getLast? ≠ some x) : ∀ y ∈ l, y < x := by
  intro y hy
  rcases Nat.lt_or_ge y x with h1 | h1
  · exact h1
  · exfalso
    have hyx : y = x := Nat.le_antisymm (hx y hy) h1
    subst hyx
    obtain ⟨a, b, rfl⟩ := List.append_of_mem hy
    cases b with
    | nil => simp at hl
    | cons z b =>
      rw [List.pairwise_append] at h
      have h2 := h.2.1
      rw [List.pairwise_cons] at h2
      have := h2.1 z (by simp)
      have := hx z (by simp)
      omega

theorem newCount_cons (l : DiffLine) (ls) : newCount (l :: ls) = newCount ls + (if isNew l then 1 else 0) := by
  unfold newCount; rw [List.countP_cons]

theorem affectedInHunk_spec (ls : List DiffLine) (acc : List Nat) (lineno : Nat) (prev : Bool)
    (h1 : 1 ≤ lineno) (hs : acc.Pairwise (· < ·)) (hb : ∀ y ∈ acc, y < lineno) :
    (affectedInHunk acc lineno prev ls).Pairwise (· < ·) ∧
    (∀ y ∈ affectedInHunk acc lineno prev ls, y < lineno + newCount ls) ∧
    (∀ n, n ∈ affectedInHunk acc lineno prev ls ↔ n ∈ acc ∨ affectedRel lineno prev ls n) := by
  induction ls generalizing acc lineno prev with
  | nil => simp [affectedInHunk, affectedRel, newCount]; exact ⟨hs, hb⟩
  | cons l ls ih =>
    cases l with
    | remove t =>
      simp only [affectedInHunk]
      have e : newCount (.remove t :: ls) = newCount ls := by simp [newCount, isNew]
      rw [e]
      by_cases hc : lineno > 1 ∧ acc.getLast? ≠ some (lineno - 1)
      · rw [if_pos hc]
        have hlt := lt_of_getLast_ne hs (x := lineno - 1) (fun y hy => by have := hb y hy; omega) hc.2
        obtain ⟨a, b, c⟩ := ih (acc ++ [lineno - 1]) lineno true h1 (pairwise_snoc hs hlt) (by
          intro y hy
          rcases List.mem_append.1 hy with hy | hy
          · exact hb y hy
          · simp at hy; omega)
        refine ⟨a, b, fun n => ?_⟩
        rw [c]
        simp only [List.mem_append, List.mem_singleton, affectedRel]
        constructor
        · rintro ((h | h) | h)
          · exact .inl h
          · exact .inr (.inl ⟨by omega, by omega⟩)
          · exact .inr (.inr h)
        · rintro (h | ⟨h, h'⟩ | h)
          · exact .inl (.inl h)
          · exact .inl (.inr (by omega))
          · exact .inr h
      · rw [if_neg hc]
        obtain ⟨a, b, c⟩ := ih acc lineno true h1 hs hb
        refine ⟨a, b, fun n => ?_⟩
        rw [c]
        simp only [affectedRel]
        constructor
        · rintro (h | h)
          · exact .inl h
          · exact .inr (.inr h)
        · rintro (h | ⟨h, h'⟩ | h)
          · exact .inl h
          · have : acc.getLast? = some (lineno - 1) := by
              rcases Decidable.em (acc.getLast? = some (lineno - 1)) with h2 | h2
              · exact h2
              · exact absurd ⟨by omega, h2⟩ hc
            have := List.mem_of_getLast? this
            have e : lineno - 1 = n := by omega
            rw [e] at this
            exact .inl this
          · exact .inr h
    | context t =>
      simp only [affectedInHunk]
      have e : newCount (.context t :: ls) = newCount ls + 1 := by simp [newCount_cons, isNew]
      rw [e]
      cases prev with
      | false =>
        simp only [Bool.false_eq_true, if_false]
        obtain ⟨a, b, c⟩ := ih acc (lineno + 1) false (by omega) hs (fun y hy => by have := hb y hy; omega)
        refine ⟨a, fun y hy => by have := b y hy; omega, fun n => ?_⟩
        rw [c]; simp [affectedRel]
      | true =>
        simp only [if_true]
        obtain ⟨a, b, c⟩ := ih (acc ++ [lineno]) (lineno + 1) false (by omega) (pairwise_snoc hs hb) (by
          intro y hy
          rcases List.mem_append.1 hy with hy | hy
          · have := hb y hy; omega
          · simp at hy; omega)
        refine ⟨a, fun y hy => by have := b y hy; omega, fun n => ?_⟩
        rw [c]; simp [affectedRel, or_assoc]
    | add t =>
      simp only [affectedInHunk]
      have e : newCount (.add t :: ls) = newCount ls + 1 := by simp [newCount_cons, isNew]
      rw [e]
      have hacc : (if (if prev = true then acc ++ [lineno] else acc).getLast? ≠ some lineno
          then (if prev = true then acc ++ [lineno] else acc) ++ [lineno]
          else (if prev = true then acc ++ [lineno] else acc)) = acc ++ [lineno] := by
        cases prev with
        | true => simp
        | false =>
          simp only [Bool.false_eq_true, if_false]
          have : acc.getLast? ≠ some lineno := by
            intro h; have := hb _ (List.mem_of_getLast? h); omega
          simp [this]
      rw [hacc]
      obtain ⟨a, b, c⟩ := ih (acc ++ [lineno]) (lineno + 1) false (by omega) (pairwise_snoc hs hb) (by
        intro y hy
        rcases List.mem_append.1 hy with hy | hy
        · have := hb y hy; omega
        · simp at hy; omega)
      refine ⟨a, fun y hy => by have := b y hy; omega, fun n => ?_⟩
      rw [c]; simp [affectedRel, or_assoc]

/-- The relation in terms of positions. -/
theorem affectedRel_iff (ls : List DiffLine) (lineno : Nat) (prev : Bool) (n : Nat) :
    affectedRel lineno prev ls n ↔
      (prev = true ∧ n = lineno ∧ keptIn ls) ∨
      ∃ pre l post, ls = pre ++ l :: post ∧
        ((∃ t, l = .add t) ∧ n = lineno + newCount pre ∨
         (∃ t, l = .remove t) ∧ n + 1 = lineno + newCount pre ∧ 1 ≤ n ∨
         (∃ t, l = .remove t) ∧ n = lineno + newCount pre ∧ keptIn post) := by
  induction ls generalizing lineno prev with
  | nil => simp [affectedRel, keptIn]
  | cons x ls ih =>
    -- positions in `x :: ls`: the first, or one of `ls`
    have split : ∀ P : List DiffLine → DiffLine → List DiffLine → Prop,
        (∃ pre l post, x :: ls = pre ++ l :: post ∧ P pre l post) ↔
        (P [] x ls ∨ ∃ pre l post, ls = pre ++ l :: post ∧ P (x :: pre) l post) := by
      intro P
      constructor
      · rintro ⟨pre, l, post, h, hp⟩
        cases pre with
        | nil => simp only [List.nil_append, List.cons.injEq] at h; obtain ⟨rfl, rfl⟩ := h; exact .inl hp
        | cons y pre =>
          simp only [List.cons_append, List.cons.injEq] at h
          obtain ⟨rfl, rfl⟩ := h
          exact .inr ⟨pre, l, post, rfl, hp⟩
      · rintro (h | ⟨pre, l, post, rfl, hp⟩)
        · exact ⟨[], x, ls, rfl, h⟩
        · exact ⟨x :: pre, l, post, rfl, hp⟩
    rw [split]
    cases x with
    | remove t =>
      simp only [affectedRel]
      rw [ih lineno true]
      have e : ∀ pre, newCount (.remove t :: pre) = newCount pre := fun pre => by simp [newCount_cons, isNew]
      have ek : keptIn (.remove t :: ls) ↔ keptIn ls := by simp [keptIn, isNew]
      simp only [e, ek]
      have en : newCount [] = 0 := rfl
      simp only [en, Nat.add_zero]
      constructor
      · rintro (⟨h1, h2⟩ | ⟨_, h2, h3⟩ | h)
        · exact .inr (.inl (.inr (.inl ⟨⟨t, rfl⟩, h1, h2⟩)))
        · exact .inr (.inl (.inr (.inr ⟨⟨t, rfl⟩, h2, h3⟩)))
        · exact .inr (.inr h)
      · rintro (⟨_, h2, h3⟩ | (⟨⟨_, h⟩, _⟩ | ⟨_, h1, h2⟩ | ⟨_, h2, h3⟩) | h)
        · exact .inr (.inl ⟨by trivial, h2, h3⟩)
        · cases h
        · exact .inl ⟨h1, h2⟩
        · exact .inr (.inl ⟨by trivial, h2, h3⟩)
        · exact .inr (.inr h)
    | context t =>
      simp only [affectedRel]
      rw [ih (lineno + 1) false]
      have e : ∀ pre, lineno + newCount (.context t :: pre) = lineno + 1 + newCount pre := fun pre => by
        simp [newCount_cons, isNew]; omega
      have ek : keptIn (.context t :: ls) ↔ True := by simp [keptIn, isNew]
      simp only [e, ek]
      simp
    | add t =>
      simp only [affectedRel]
      rw [ih (lineno + 1) false]
      have e : ∀ pre, lineno + newCount (.add t :: pre) = lineno + 1 + newCount pre := fun pre => by
        simp [newCount_cons, isNew]; omega
      have ek : keptIn (.add t :: ls) ↔ True := by simp [keptIn, isNew]
      have en : newCount [] = 0 := rfl
      simp only [e, ek, en]
      simp
      exact fun _ h => .inl h

theorem newCount_append (a b) : newCount (a ++ b) = newCount a + newCount b := by
  unfold newCount; rw [List.countP_append]

theorem not_kept_ends_remove (pre : List DiffLine) (t : Text) (post : List DiffLine)
    (h : ¬ keptIn post) : ∃ pre' t', pre ++ .remove t :: post = pre' ++ [.remove t'] := by
  rcases List.eq_nil_or_concat post with rfl | ⟨a, b, rfl⟩
  · exact ⟨pre, t, rfl⟩
  · have hb : isNew b = false := by
      cases hx : isNew b
      · rfl
      · exact absurd ⟨b, by simp, hx⟩ h
    cases b with
    | remove t' => exact ⟨pre ++ .remove t :: a, t', by simp⟩
    | context => simp [isNew] at hb
    | add => simp [isNew] at hb

theorem newCount_pos_of_kept {ls : List DiffLine} (h : keptIn ls) : 1 ≤ newCount ls := by
  obtain ⟨l, h1, h2⟩ := h
  unfold newCount
  exact List.countP_pos_iff.2 ⟨l, h1, h2⟩

/-- For one hunk with context, the relation is the specification. -/
theorem affectedRel_spec (len : Nat) (h : Hunk) (hc : WithContext len h)
    (hfit : firstLine h + newCount h.lines ≤ len + 1) (h1 : 1 ≤ firstLine h) (n : Nat) :
    affectedRel h.newStart false h.lines n ↔ AffectedBy len h n := by
  have hf : firstLine h = h.newStart := by unfold firstLine; rw [if_neg hc.1]
  rw [affectedRel_iff]
  unfold AffectedBy
  have hend := hc.2
  rw [hf] at hfit hend h1 ⊢
  constructor
  · rintro (⟨h, _⟩ | ⟨pre, l, post, hl, hcase⟩)
    · cases h
    · refine ⟨pre, l, post, hl, ?_⟩
      have hcount : newCount h.lines = newCount pre + newCount (l :: post) := by rw [hl, newCount_append]
      rcases hcase with h2 | ⟨h2, h3, h4⟩ | ⟨h2, h3, h4⟩
      · exact .inl h2
      · exact .inr ⟨h2, .inl h3, h4, by omega⟩
      · have := newCount_pos_of_kept h4
        rw [newCount_cons] at hcount
        exact .inr ⟨h2, .inr h3, by omega, by omega⟩
  · rintro ⟨pre, l, post, hl, hcase⟩
    refine .inr ⟨pre, l, post, hl, ?_⟩
    have hcount : newCount h.lines = newCount pre + newCount (l :: post) := by rw [hl, newCount_append]
    rcases hcase with h2 | ⟨h2, h3 | h3, h4, h5⟩
    · exact .inl h2
    · exact .inr (.inl ⟨h2, h3, h4⟩)
    · by_cases hk : keptIn post
      · exact .inr (.inr ⟨h2, h3, hk⟩)
      · exfalso
        obtain ⟨t, rfl⟩ := h2
        have e := hend (by rw [hl]; exact not_kept_ends_remove pre t post hk)
        have hz : newCount post = 0 := by
          unfold newCount
          rw [List.countP_eq_zero]
          intro x hx hn
          exact hk ⟨x, hx, hn⟩
        have e2 : newCount (DiffLine.remove t :: post) = newCount post := by
          rw [newCount_cons]; simp [isNew]
        omega

theorem hunksFit_le {len f : Nat} {hs : List Hunk} (h : HunksFit len f hs) : f ≤ len + 1 := by
  induction hs generalizing f with
  | nil => exact h
  | cons x hs ih => obtain ⟨h1, _, h3⟩ := h; have := ih h3; omega

theorem affected_foldl (len : Nat) (hs : List Hunk) (acc : List Nat) (f : Nat)
    (hfit : HunksFit len f hs) (hctx : ∀ h ∈ hs, WithContext len h)
    (hsorted : acc.Pairwise (· < ·)) (hb : ∀ y ∈ acc, y < f) :
    let r := hs.foldl (fun acc h => affectedInHunk acc h.newStart false h.lines) acc
    r.Pairwise (· < ·) ∧ ∀ n, n ∈ r ↔ n ∈ acc ∨ ∃ h ∈ hs, AffectedBy len h n := by
  induction hs generalizing acc f with
  | nil => simp; exact hsorted
  | cons h hs ih =>
    obtain ⟨h1, h2, h3⟩ := hfit
    have hc := hctx h (by simp)
    have hf : firstLine h = h.newStart := by unfold firstLine; rw [if_neg hc.1]
    obtain ⟨a, b, c⟩ := affectedInHunk_spec h.lines acc h.newStart false (by omega) hsorted
      (fun y hy => by have := hb y hy; omega)
    obtain ⟨d, e⟩ := ih (affectedInHunk acc h.newStart false h.lines) _ h3
      (fun x hx => hctx x (by simp [hx])) a (fun y hy => by have := b y hy; omega)
    refine ⟨d, fun n => ?_⟩
    simp only [List.foldl_cons]
    rw [e, c, affectedRel_spec len h hc (hunksFit_le h3) h2]
    simp only [List.mem_cons, exists_eq_or_imp, or_assoc]

/-! ### binary search -/

theorem binarySearch_spec (x : Nat) (fuel : Nat) (xs : List Nat) (hs : xs.Pairwise (· < ·))
    (hf : xs.length ≤ fuel) : binarySearch x fuel xs = true ↔ x ∈ xs := by
  induction fuel generalizing xs with
  | zero =>
    have : xs = [] := by cases xs <;> simp_all
    subst this; simp [binarySearch]
  | succ fuel ih =>
    unfold binarySearch
    have hsplit := List.take_append_drop (xs.length / 2) xs
    cases hd : xs.drop (xs.length / 2) with
    | nil =>
      have : xs.length ≤ xs.length / 2 := by simpa using hd
      have : xs = [] := by cases xs with
        | nil => rfl
        | cons a b => simp at this; omega
      subst this; simp
    | cons y after =>
      simp only []
      rw [hd] at hsplit
      have hlen : after.length < xs.length := by
        have : (xs.drop (xs.length / 2)).length ≤ xs.length := by simp
        rw [hd] at this; simp at this; omega
      have hlt : (xs.take (xs.length / 2)).length < xs.length := by
        have : 0 < xs.length := by omega
        simp; omega
      have hp := hs
      rw [← hsplit, List.pairwise_append, List.pairwise_cons] at hp
      obtain ⟨p1, ⟨p2, p3⟩, p4⟩ := hp
      have hmem : x ∈ xs ↔ x ∈ xs.take (xs.length / 2) ∨ x = y ∨ x ∈ after := by
        rw [← List.mem_cons, ← List.mem_append, hsplit]
      rw [hmem]
      by_cases hxy : y = x
      · simp [hxy]
      · rw [if_neg hxy]
        by_cases hlt' : y < x
        · rw [if_pos hlt', ih after p3 (by omega)]
          constructor
          · exact fun h => .inr (.inr h)
          · rintro (h | h | h)
            · have := p4 x h y (by simp); omega
            · exact absurd h.symm hxy
            · exact h
        · rw [if_neg hlt', ih _ p1 (by omega)]
          constructor
          · exact fun h => .inl h
          · rintro (h | h | h)
            · exact h
            · exact absurd h.symm hxy
            · have := p2 x h; omega

theorem probeLines_spec (changed : List Nat) (hs : changed.Pairwise (· < ·)) (first count : Nat) :
    probeLines changed first count = true ↔ ∃ n ∈ changed, first ≤ n ∧ n < first + count := by
  induction count generalizing first with
  | zero =>
    simp [probeLines]
  | succ count ih =>
    simp only [probeLines, Bool.or_eq_true]
    rw [binarySearch_spec _ _ _ hs (Nat.le_refl _), ih]
    constructor
    · rintro (h | ⟨n, h1, h2, h3⟩)
      · exact ⟨first, h, by omega, by omega⟩
      · exact ⟨n, h1, by omega, by omega⟩
    · rintro ⟨n, h1, h2, h3⟩
      rcases Nat.eq_or_lt_of_le h2 with h | h
      · subst h; exact .inl h1
      · exact .inr ⟨n, h1, by omega, by omega⟩

/-! ### the map by path -/

theorem linesChanged_spec (ps : List Patch) (acc r : List (Path × List Nat))
    (h : linesChangedByPath acc ps = some r) (path : Path) (lines : List Nat) :
    r.lookup path = some lines ↔ acc.lookup path = some lines ∨
      (acc.lookup path = none ∧ path ≠ devNull ∧
        ∃ p ∈ ps, stripPatchPath p.newPath = path ∧ affectedLines p = lines) := by
  induction ps generalizing acc with
  | nil => simp only [linesChangedByPath, Option.some.injEq] at h; subst h; simp
  | cons p ps ih =>
    simp only [linesChangedByPath] at h
    by_cases hd : stripPatchPath p.newPath = devNull
    · rw [if_pos hd] at h
      rw [ih acc h]
      simp only [List.mem_cons, exists_eq_or_imp, hd]
      constructor
      · rintro (h | ⟨h1, h2, h3⟩)
        · exact .inl h
        · exact .inr ⟨h1, h2, .inr h3⟩
      · rintro (h | ⟨h1, h2, ⟨h3, _⟩ | h3⟩)
        · exact .inl h
        · exact absurd h3.symm h2
        · exact .inr ⟨h1, h2, h3⟩
    · rw [if_neg hd] at h
      by_cases hr : (acc.lookup (stripPatchPath p.newPath)).isSome
      · rw [if_pos hr] at h; cases h
      · rw [if_neg hr] at h
        have hnone : acc.lookup (stripPatchPath p.newPath) = none := by
          cases hx : acc.lookup (stripPatchPath p.newPath) with
          | none => rfl
          | some v => rw [hx] at hr; exact absurd rfl hr
        rw [ih _ h, List.lookup_append]
        simp only [List.mem_cons, exists_eq_or_imp]
        by_cases hp : path = stripPatchPath p.newPath
        · subst hp
          rw [hnone]
          simp only [Option.none_or, List.lookup_cons_self, Option.some.injEq, reduceCtorEq, false_and, or_false, false_or, true_and]
          constructor
          · exact fun h => ⟨hd, .inl h⟩
          · rintro ⟨_, h | ⟨q, hq, h1, h2⟩⟩
            · exact h
            · -- a repeated path would have been refused
              exfalso
              clear ih
              have : ∀ (ps : List Patch) (acc r : List (Path × List Nat)), linesChangedByPath acc ps = some r → q ∈ ps →
                  (acc.lookup (stripPatchPath q.newPath)).isSome → stripPatchPath q.newPath = devNull := by
                intro ps
                induction ps with
                | nil => intro acc r _ hq; simp at hq
                | cons p' ps ih =>
                  intro acc r h hq hs
                  simp only [linesChangedByPath] at h
                  by_cases hd : stripPatchPath p'.newPath = devNull
                  · rw [if_pos hd] at h
                    rcases List.mem_cons.1 hq with rfl | hq
                    · exact hd
                    · exact ih _ _ h hq hs
                  · rw [if_neg hd] at h
                    by_cases hr : (acc.lookup (stripPatchPath p'.newPath)).isSome
                    · rw [if_pos hr] at h; cases h
                    · rw [if_neg hr] at h
                      rcases List.mem_cons.1 hq with rfl | hq
                      · exact absurd hs hr
                      · refine ih _ _ h hq ?_
                        rw [List.lookup_append]
                        cases hx : acc.lookup (stripPatchPath q.newPath) with
                        | none => rw [hx] at hs; cases hs
                        | some v => simp
              have := this ps _ _ h hq (by rw [List.lookup_append, h1, hnone]; simp)
              rw [h1] at this
              exact hd this
        · have hl : List.lookup path [(stripPatchPath p.newPath, affectedLines p)] = none := by
            simp [List.lookup, beq_false_of_ne hp]
          rw [hl, Option.or_none]
          have hne : ¬ (stripPatchPath p.newPath = path) := fun e => hp e.symm
          simp only [hne, false_and, false_or]

theorem linesChanged_total (ps : List Patch) (acc : List (Path × List Nat)) :
    (∃ r, linesChangedByPath acc ps = some r) ↔
    (((ps.map fun p => stripPatchPath p.newPath).filter (fun p => decide (p ≠ devNull))).Nodup ∧
     ∀ p ∈ ps, stripPatchPath p.newPath ≠ devNull → acc.lookup (stripPatchPath p.newPath) = none) := by
  induction ps generalizing acc with
  | nil => simp [linesChangedByPath]
  | cons p ps ih =>
    simp only [linesChangedByPath, List.map_cons]
    by_cases hd : stripPatchPath p.newPath = devNull
    · rw [if_pos hd, ih, List.filter_cons_of_neg (by simp [hd])]
      simp [hd]
    · rw [if_neg hd, List.filter_cons_of_pos (by simp [hd])]
      cases hr : acc.lookup (stripPatchPath p.newPath) with
      | some v =>
        simp only [Option.isSome_some, if_true]
        constructor
        · rintro ⟨_, h⟩; cases h
        · rintro ⟨_, h⟩
          have := h p (by simp) hd
          rw [hr] at this; cases this
      | none =>
        simp only [Option.isSome_none, Bool.false_eq_true, if_false]
        rw [ih, List.nodup_cons]
        have hlk : ∀ q : Patch, (acc ++ [(stripPatchPath p.newPath, affectedLines p)]).lookup (stripPatchPath q.newPath) = none ↔
            acc.lookup (stripPatchPath q.newPath) = none ∧ stripPatchPath q.newPath ≠ stripPatchPath p.newPath := by
          intro q
          rw [List.lookup_append]
          by_cases e : stripPatchPath q.newPath = stripPatchPath p.newPath
          · simp [e]
          · simp [List.lookup, beq_false_of_ne e, e]
        simp only [hlk]
        constructor
        · rintro ⟨h1, h2⟩
          refine ⟨⟨?_, h1⟩, ?_⟩
          · intro hm
            obtain ⟨hm, _⟩ := List.mem_filter.1 hm
            obtain ⟨q, hq, e⟩ := List.mem_map.1 hm
            exact (h2 q hq (by rw [e]; exact hd)).2 e
          · intro q hq hn
            rcases List.mem_cons.1 hq with rfl | hq
            · exact hr
            · exact (h2 q hq hn).1
        · rintro ⟨⟨h1, h2⟩, h3⟩
          refine ⟨h2, fun q hq hn => ⟨h3 q (by simp [hq]) hn, fun e => h1 ?_⟩⟩
          rw [← e]
          exact List.mem_filter.2 ⟨List.mem_map.2 ⟨q, hq, rfl⟩, by simp [hn]⟩

/-! ### new text -/

theorem mem_keptLines (ls : List DiffLine) (lineno n : Nat) (t : Text) :
    (n, t) ∈ keptLines lineno ls ↔ ∃ pre l post, ls = pre ++ l :: post ∧ (l = .context t ∨ l = .add t) ∧
      n = lineno + newCount pre := by
  induction ls generalizing lineno with
  | nil => simp [keptLines]
  | cons x ls ih =>
    have split : ∀ P : List DiffLine → DiffLine → List DiffLine → Prop,
        (∃ pre l post, x :: ls = pre ++ l :: post ∧ P pre l post) ↔
        (P [] x ls ∨ ∃ pre l post, ls = pre ++ l :: post ∧ P (x :: pre) l post) := by
      intro P
      constructor
      · rintro ⟨pre, l, post, h, hp⟩
        cases pre with
        | nil => simp only [List.nil_append, List.cons.injEq] at h; obtain ⟨rfl, rfl⟩ := h; exact .inl hp
        | cons y pre =>
          simp only [List.cons_append, List.cons.injEq] at h
          obtain ⟨rfl, rfl⟩ := h
          exact .inr ⟨pre, l, post, rfl, hp⟩
      · rintro (h | ⟨pre, l, post, rfl, hp⟩)
        · exact ⟨[], x, ls, rfl, h⟩
        · exact ⟨x :: pre, l, post, rfl, hp⟩
    rw [split]
    have en : newCount [] = 0 := rfl
    cases x with
    | remove u =>
      have e : ∀ pre, newCount (.remove u :: pre) = newCount pre := fun pre => by simp [newCount_cons, isNew]
      simp only [keptLines, ih, e]
      simp
    | context u =>
      have e : ∀ pre, lineno + newCount (.context u :: pre) = lineno + 1 + newCount pre := fun pre => by
        simp [newCount_cons, isNew]; omega
      simp only [keptLines, List.mem_cons, ih, e, en]
      simp [and_comm, eq_comm]
    | add u =>
      have e : ∀ pre, lineno + newCount (.add u :: pre) = lineno + 1 + newCount pre := fun pre => by
        simp [newCount_cons, isNew]; omega
      simp only [keptLines, List.mem_cons, ih, e, en]
      simp [and_comm, eq_comm]

theorem hasLine_iff (h : Hunk) (n : Nat) (t : Text) : HasLine h n t ↔ (n, t) ∈ keptLines h.newStart h.lines := by
  rw [mem_keptLines]
  unfold HasLine
  constructor
  · rintro ⟨pre, l, post, h1, h2, h3⟩
    refine ⟨pre, l, post, h1, h2, ?_⟩
    have : newCount h.lines ≠ 0 := by
      have : 1 ≤ newCount h.lines := newCount_pos_of_kept ⟨l, by rw [h1]; simp, by rcases h2 with rfl | rfl <;> rfl⟩
      omega
    rw [h3]; unfold firstLine; rw [if_neg this]
  · rintro ⟨pre, l, post, h1, h2, h3⟩
    refine ⟨pre, l, post, h1, h2, ?_⟩
    have : newCount h.lines ≠ 0 := by
      have : 1 ≤ newCount h.lines := newCount_pos_of_kept ⟨l, by rw [h1]; simp, by rcases h2 with rfl | rfl <;> rfl⟩
      omega
    rw [h3]; unfold firstLine; rw [if_neg this]

theorem mem_partialNewFile (p : Patch) (n : Nat) (t : Text) :
    (n, t) ∈ partialNewFile p ↔ ∃ h ∈ p.hunks, HasLine h n t := by
  unfold partialNewFile
  simp only [List.mem_flatMap, hasLine_iff]

end CM
