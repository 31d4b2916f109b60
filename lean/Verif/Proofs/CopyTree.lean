import Verif.Spec.CopyTree
/-! Lemmas about copying trees. -/
namespace CM.Copy
open CM.Spec

theorem mem_prefixes {q p : Path} : q ∈ prefixes p ↔ q <+: p := by
  induction p generalizing q with
  | nil => simp [prefixes]
  | cons n p ih =>
    simp only [prefixes, List.mem_cons, List.mem_map]
    constructor
    · rintro (rfl | ⟨q', hq', rfl⟩)
      · exact List.nil_prefix
      · exact List.prefix_cons_inj n |>.2 (ih.1 hq')
    · intro h
      cases q with
      | nil => exact .inl rfl
      | cons m q =>
        obtain ⟨rfl, h'⟩ := List.cons_prefix_cons.1 h
        exact .inr ⟨q, ih.2 h', rfl⟩

theorem copyEntries_append (d : Dest) (a b : List (Path × Kind)) :
    copyEntries d (a ++ b) = (copyEntries d a).bind fun d => copyEntries d b := by
  induction a generalizing d with
  | nil => rfl
  | cons e a ih =>
    show (copyEntry d e).bind (fun d => copyEntries d (a ++ b)) = ((copyEntry d e).bind fun d => copyEntries d a).bind fun d => copyEntries d b
    cases copyEntry d e with
    | none => rfl
    | some d' => exact ih d'

mutual
/-- What a walk finds at a path. -/
def lookTree (keep : Path → Text → Bool → Bool) (base : Path) : Tree → Path → Option Kind
  | t, [] => if t.kind = .other then none else some t.kind
  | .dir f, n :: p => lookForest keep base f n p
  | .file _, _ :: _ => none
  | .symlink _, _ :: _ => none
  | .other, _ :: _ => none
def lookForest (keep : Path → Text → Bool → Bool) (base : Path) : Forest → Text → Path → Option Kind
  | .nil, _, _ => none
  | .cons m t rest, n, p =>
    if n = m then (if keep (base ++ [m]) m (t.kind = .dir) then lookTree keep (base ++ [m]) t p else none)
    else lookForest keep base rest n p
end

/-- The directory is there, with all above it. -/
def Made (d : Dest) (path : Path) : Prop := ∀ q, q <+: path → d q = some .dir

theorem dropLast_snoc (p : Path) (n : Text) : (p ++ [n]).dropLast = p := by simp

theorem put_self (d : Dest) (p : Path) (k : Kind) : d.put p k p = some k := if_pos rfl
theorem put_ne (d : Dest) {p q : Path} (k : Kind) (h : q ≠ p) : d.put p k q = d q := if_neg h

theorem append_ne_self (p q : Path) (n : Text) : p ++ n :: q ≠ p := by
  intro h
  have := congrArg List.length h
  simp at this

theorem lookForest_none {keep : Path → Text → Bool → Bool} {base : Path} {f : Forest} {n : Text} {p : Path}
    (h : ¬ ∃ t, Entry f n t) : lookForest keep base f n p = none := by
  match f with
  | .nil => rfl
  | .cons m t rest =>
    unfold lookForest
    rw [if_neg]
    · exact lookForest_none fun ⟨u, hu⟩ => h ⟨u, .there hu⟩
    · rintro rfl; exact h ⟨t, .here ..⟩

theorem copy_tree_aux {a : Path} {n m : Text} {p : Path} (h : a ++ [n] <+: a ++ m :: p) : n = m := by
  rw [List.prefix_append_right_inj] at h
  exact (List.cons_prefix_cons.1 h).1

mutual
theorem copy_tree (keep : Path → Text → Bool → Bool) (base : Path) (name : Text) (d : Dest) (hd : Made d base)
    (t : Tree) (ht : Proper t) (hf : ∀ p, d (base ++ [name] ++ p) = none) :
    ∃ d', copyEntries d (walkTree keep (base ++ [name]) t) = some d' ∧
      (∀ p, d' (base ++ [name] ++ p) = lookTree keep (base ++ [name]) t p) ∧
      ∀ q, ¬ base ++ [name] <+: q → d' q = d q := by
  have hn : base ++ [name] ≠ [] := by simp
  have hpar : d (base ++ [name]).dropLast = some .dir := by rw [dropLast_snoc]; exact hd base (List.prefix_refl _)
  have hself : d (base ++ [name]) = none := by have := hf []; rwa [List.append_nil] at this
  match t, ht with
  | .file c, _ =>
    refine ⟨d.put (base ++ [name]) (.file c), ?_, ?_, ?_⟩
    · show (d.copyFile _ _).bind _ = _
      unfold Dest.copyFile
      rw [if_pos ⟨hn, hpar, .inl hself⟩]; rfl
    · intro p
      cases p with
      | nil => rw [List.append_nil, put_self]; rfl
      | cons m p => rw [put_ne _ _ (append_ne_self _ _ _), hf]; rfl
    · intro q hq
      exact put_ne _ _ fun e => hq (e ▸ List.prefix_refl _)
  | .symlink c, _ =>
    refine ⟨d.put (base ++ [name]) (.symlink c), ?_, ?_, ?_⟩
    · show (d.symlink _ _).bind _ = _
      unfold Dest.symlink
      rw [if_pos ⟨hn, hpar, hself⟩]; rfl
    · intro p
      cases p with
      | nil => rw [List.append_nil, put_self]; rfl
      | cons m p => rw [put_ne _ _ (append_ne_self _ _ _), hf]; rfl
    · intro q hq
      exact put_ne _ _ fun e => hq (e ▸ List.prefix_refl _)
  | .other, _ =>
    refine ⟨d, rfl, ?_, fun _ _ => rfl⟩
    intro p
    rw [hf]
    cases p <;> rfl
  | .dir f, .dir hp =>
    have hpre : ∀ q, q <+: base ++ [name] → q <+: base ∨ q = base ++ [name] := by
      intro q hq
      by_cases hl : q.length ≤ base.length
      · exact .inl (List.prefix_of_prefix_length_le hq (List.prefix_append _ _) hl)
      · refine .inr (hq.eq_of_length ?_)
        have := hq.length_le
        simp at this ⊢; omega
    let d1 : Dest := fun q => if q ∈ prefixes (base ++ [name]) then some .dir else d q
    have hd1 : Made d1 (base ++ [name]) := fun q hq => if_pos (mem_prefixes.2 hq)
    have h1 : ∀ q, q ≠ base ++ [name] → d1 q = d q := by
      intro q hne
      show (if _ then _ else _) = _
      by_cases hm : q ∈ prefixes (base ++ [name])
      · rw [if_pos hm]
        rcases hpre q (mem_prefixes.1 hm) with h | h
        · exact (hd q h).symm
        · exact absurd h hne
      · rw [if_neg hm]
    obtain ⟨d', hc, hin, hout⟩ := copy_forest keep (base ++ [name]) d1 hd1 f hp (by
      intro n p _
      rw [h1 _ (append_ne_self _ _ _)]
      exact hf _)
    refine ⟨d', ?_, ?_, ?_⟩
    · show (d.createDirAll _).bind _ = _
      unfold Dest.createDirAll
      rw [if_pos]
      · exact hc
      · intro q hq
        rcases hpre q (mem_prefixes.1 hq) with h | h
        · exact .inr (hd q h)
        · exact .inl (h ▸ hself)
    · intro p
      cases p with
      | nil =>
        rw [List.append_nil, hout _ (fun n p he => absurd he.symm (append_ne_self _ _ _))]
        exact hd1 _ (List.prefix_refl _)
      | cons n p =>
        show _ = lookForest keep _ f n p
        by_cases he : ∃ t, Entry f n t
        · exact hin n p he
        · rw [lookForest_none he, hout _ ?_, h1 _ (append_ne_self _ _ _)]
          · exact hf _
          · intro n' p' e
            rw [List.append_cancel_left_eq] at e
            cases e
            exact he
    · intro q hq
      rw [hout q, h1]
      · exact fun e => hq (e ▸ List.prefix_refl _)
      · intro n p e
        exact absurd ⟨n :: p, e.symm⟩ hq
  termination_by sizeOf t

theorem copy_forest (keep : Path → Text → Bool → Bool) (base : Path) (d : Dest) (hd : Made d base)
    (f : Forest) (hf : ProperEntries f) (hfresh : ∀ n p, (∃ t, Entry f n t) → d (base ++ n :: p) = none) :
    ∃ d', copyEntries d (walkForest keep base f) = some d' ∧
      (∀ n p, (∃ t, Entry f n t) → d' (base ++ n :: p) = lookForest keep base f n p) ∧
      ∀ q, (∀ n p, q = base ++ n :: p → ¬ ∃ t, Entry f n t) → d' q = d q := by
  match f, hf with
  | .nil, _ => 
    refine ⟨d, rfl, ?_, fun _ _ => rfl⟩
    rintro n p ⟨t, h⟩; cases h
  | .cons n t rest, .cons ht hr hu =>
    obtain ⟨d1, hc1, hin1, hout1⟩ : ∃ d1, copyEntries d (if keep (base ++ [n]) n (t.kind = .dir) then walkTree keep (base ++ [n]) t else []) = some d1 ∧
        (∀ p, d1 (base ++ [n] ++ p) = if keep (base ++ [n]) n (t.kind = .dir) then lookTree keep (base ++ [n]) t p else none) ∧
        ∀ q, ¬ base ++ [n] <+: q → d1 q = d q := by
      have hfr : ∀ p, d (base ++ [n] ++ p) = none := by
        intro p
        rw [List.append_assoc]
        exact hfresh n p ⟨t, .here ..⟩
      by_cases hk : keep (base ++ [n]) n (t.kind = .dir) = true
      · rw [if_pos hk]
        obtain ⟨d1, h1, h2, h3⟩ := copy_tree keep base n d hd t ht hfr
        exact ⟨d1, h1, fun p => by rw [if_pos hk]; exact h2 p, h3⟩
      · rw [if_neg hk]
        exact ⟨d, rfl, fun p => by rw [if_neg hk]; exact hfr p, fun _ _ => rfl⟩
    have hd1 : Made d1 base := by
      intro q hq
      rw [hout1 q]
      · exact hd q hq
      · intro h
        have := (h.trans hq).length_le
        simp at this
        omega
    obtain ⟨d2, hc2, hin2, hout2⟩ := copy_forest keep base d1 hd1 rest hr (by
      rintro m p ⟨u, he⟩
      rw [hout1]
      · exact hfresh m p ⟨u, .there he⟩
      · intro h
        cases copy_tree_aux h
        exact hu u he)
    refine ⟨d2, ?_, ?_, ?_⟩
    · unfold walkForest
      rw [copyEntries_append, hc1]
      exact hc2
    · rintro m p ⟨u, he⟩
      unfold lookForest
      by_cases hm : m = n
      · subst hm
        rw [if_pos rfl, ← hin1, hout2]
        · rw [List.append_assoc]; rfl
        · intro m' p' e
          rw [List.append_cancel_left_eq] at e
          cases e
          rintro ⟨u, hu'⟩
          exact hu u hu'
      · rw [if_neg hm]
        cases he with
        | here => exact absurd rfl hm
        | there he => exact hin2 m p ⟨u, he⟩
    · intro q hq
      rw [hout2 q, hout1 q]
      · rintro ⟨p, hp⟩
        rw [List.append_assoc] at hp
        exact hq n p hp.symm ⟨t, .here ..⟩
      · rintro m p e ⟨u, he⟩
        exact hq m p e ⟨u, .there he⟩
  termination_by sizeOf f
end

theorem entry_unique {f : Forest} (hf : ProperEntries f) {n : Text} {t u : Tree} (h : Entry f n t) (h' : Entry f n u) : t = u := by
  induction h with
  | here n t rest =>
    cases h' with
    | here => rfl
    | there h' => cases hf with | cons _ _ hu => exact absurd h' (hu _)
  | there h ih =>
    cases hf with
    | cons _ hr hu =>
      cases h' with
      | here => exact absurd h (hu _)
      | there h' => exact ih hr h'

theorem at_nil {t : Tree} {k : Kind} (h : At t [] k) : k = t.kind := by cases h <;> rfl

theorem at_kind (t : Tree) : At t [] t.kind := by
  cases t
  · exact .file _
  · exact .dir _
  · exact .symlink _
  · exact .other

mutual
/-- What a walk finds is what is there and is not left out on the way. -/
theorem lookTree_iff (keep : Path → Text → Bool → Bool) (base : Path) (t : Tree) (ht : Proper t) (p : Path) (k : Kind) :
    lookTree keep base t p = some k ↔ At t p k ∧ k ≠ .other ∧
      ∀ q n, q ++ [n] <+: p → ∀ k', At t (q ++ [n]) k' → keep (base ++ (q ++ [n])) n (k' = .dir) = true := by
  match t, ht, p with
  | .file c, _, [] =>
    show some (Kind.file c) = some k ↔ _
    constructor
    · intro h; cases h
      exact ⟨.file c, by simp, fun q n h => by have := h.length_le; simp at this⟩
    · rintro ⟨h, _⟩; cases h; rfl
  | .symlink c, _, [] =>
    show some (Kind.symlink c) = some k ↔ _
    constructor
    · intro h; cases h
      exact ⟨.symlink c, by simp, fun q n h => by have := h.length_le; simp at this⟩
    · rintro ⟨h, _⟩; cases h; rfl
  | .other, _, [] =>
    show none = some k ↔ _
    constructor
    · intro h; cases h
    · rintro ⟨h, hne, _⟩; cases h; exact absurd rfl hne
  | .dir f, _, [] =>
    show some Kind.dir = some k ↔ _
    constructor
    · intro h; cases h
      exact ⟨.dir f, by simp, fun q n h => by have := h.length_le; simp at this⟩
    · rintro ⟨h, _⟩; cases h; rfl
  | .file c, _, n :: p => 
    show none = some k ↔ _
    exact ⟨fun h => (by cases h), fun ⟨h, _⟩ => by cases h⟩
  | .symlink c, _, n :: p =>
    show none = some k ↔ _
    exact ⟨fun h => (by cases h), fun ⟨h, _⟩ => by cases h⟩
  | .other, _, n :: p =>
    show none = some k ↔ _
    exact ⟨fun h => (by cases h), fun ⟨h, _⟩ => by cases h⟩
  | .dir f, .dir hf, n :: p =>
    show lookForest keep base f n p = some k ↔ _
    rw [lookForest_iff keep base f hf n p k]
    constructor
    · rintro ⟨t, he, hk, ha, hne, hall⟩
      refine ⟨.inside he ha, hne, ?_⟩
      intro q m hq k' ha'
      cases q with
      | nil =>
        obtain ⟨rfl, _⟩ := List.cons_prefix_cons.1 hq
        cases ha' with
        | inside he' ha' =>
          cases entry_unique hf he he'
          cases at_nil ha'
          exact hk
      | cons x q =>
        obtain ⟨e, hq'⟩ := List.cons_prefix_cons.1 hq
        subst e
        cases ha' with
        | inside he' ha' =>
          cases entry_unique hf he he'
          have := hall q m hq' k' ha'
          rwa [List.append_assoc] at this
    · rintro ⟨h, hne, hall⟩
      cases h with
      | @inside _ _ t _ _ he ha =>
        refine ⟨t, he, ?_, ha, hne, ?_⟩
        · exact hall [] n (List.cons_prefix_cons.2 ⟨rfl, List.nil_prefix⟩) t.kind (.inside he (at_kind t))
        · intro q m hq k' ha'
          have := hall (n :: q) m (List.cons_prefix_cons.2 ⟨rfl, hq⟩) k' (.inside he ha')
          rwa [List.append_assoc]
  termination_by sizeOf t

theorem lookForest_iff (keep : Path → Text → Bool → Bool) (base : Path) (f : Forest) (hf : ProperEntries f) (n : Text) (p : Path) (k : Kind) :
    lookForest keep base f n p = some k ↔ ∃ t, Entry f n t ∧ keep (base ++ [n]) n (t.kind = .dir) = true ∧ At t p k ∧ k ≠ .other ∧
      ∀ q m, q ++ [m] <+: p → ∀ k', At t (q ++ [m]) k' → keep (base ++ [n] ++ (q ++ [m])) m (k' = .dir) = true := by
  match f, hf with
  | .nil, _ =>
    show none = some k ↔ _
    exact ⟨fun h => (by cases h), fun ⟨_, h, _⟩ => by cases h⟩
  | .cons m t rest, .cons ht hr hu =>
    unfold lookForest
    by_cases hm : n = m
    · subst hm
      rw [if_pos rfl]
      by_cases hk : keep (base ++ [n]) n (t.kind = .dir) = true
      · rw [if_pos hk, lookTree_iff keep (base ++ [n]) t ht p k]
        constructor
        · intro h; exact ⟨t, .here .., hk, h⟩
        · rintro ⟨t', he, _, h⟩
          cases he with
          | here => exact h
          | there he => exact absurd he (hu t')
      · rw [if_neg hk]
        refine ⟨fun h => (by cases h), ?_⟩
        rintro ⟨t', he, hk', _⟩
        cases he with
        | here => exact absurd hk' hk
        | there he => exact absurd he (hu t')
    · rw [if_neg hm, lookForest_iff keep base rest hr n p k]
      constructor
      · rintro ⟨t, he, h⟩; exact ⟨t, .there he, h⟩
      · rintro ⟨t', he, h⟩
        cases he with
        | here => exact absurd rfl hm
        | there he => exact ⟨t', he, h⟩
  termination_by sizeOf f
end

theorem at_prefix {t : Tree} {p : Path} {k : Kind} (h : At t p k) {q : Path} (hq : q <+: p) : ∃ k', At t q k' := by
  induction h generalizing q with
  | file c => rw [List.prefix_nil.1 hq]; exact ⟨_, .file c⟩
  | dir f => rw [List.prefix_nil.1 hq]; exact ⟨_, .dir f⟩
  | symlink c => rw [List.prefix_nil.1 hq]; exact ⟨_, .symlink c⟩
  | other => rw [List.prefix_nil.1 hq]; exact ⟨_, .other⟩
  | @inside f n t p k he ha ih =>
    cases q with
    | nil => exact ⟨_, .dir f⟩
    | cons m q =>
      obtain ⟨rfl, hq'⟩ := List.cons_prefix_cons.1 hq
      obtain ⟨k', hk'⟩ := ih hq'
      exact ⟨k', .inside he hk'⟩

theorem proper_entry {f : Forest} (hf : ProperEntries f) {n : Text} {t : Tree} (h : Entry f n t) : Proper t := by
  induction h with
  | here => cases hf with | cons ht _ _ => exact ht
  | there h ih => cases hf with | cons _ hr _ => exact ih hr

theorem at_unique {t : Tree} (ht : Proper t) {p : Path} {k k' : Kind} (h : At t p k) (h' : At t p k') : k = k' := by
  induction h with
  | file c => cases h'; rfl
  | dir f => cases h'; rfl
  | symlink c => cases h'; rfl
  | other => cases h'; rfl
  | inside he ha ih =>
    cases ht with
    | dir hf =>
      cases h' with
      | inside he' ha' =>
        cases entry_unique hf he he'
        exact ih (proper_entry hf he) ha'

end CM.Copy
