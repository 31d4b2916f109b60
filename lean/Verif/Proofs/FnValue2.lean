import Verif.Proofs.FnValue
/-! Matching of paths: what the code looks for, in the words of the table. -/
namespace CM
def GenericArg.map {α β} (f : α → β) : GenericArg α → GenericArg β
  | .lifetime => .lifetime
  | .type t => .type (f t)
  | .assocType n t => .assocType n (f t)
  | .other => .other
def PathArgs.map {α β} (f : α → β) : PathArgs α → PathArgs β
  | .none => .none
  | .angle l => .angle (l.map (GenericArg.map f))
  | .paren => .paren
def PathSegment.map {α β} (f : α → β) (s : PathSegment α) : PathSegment β := ⟨s.ident, s.args.map f⟩
def SynPath.map {α β} (f : α → β) (p : SynPath α) : SynPath β := ⟨p.leadingColon, p.segments.map (·.map f)⟩
def Bound.map {α β} (f : α → β) : Bound α → Bound β
  | .trait p => .trait (p.map f)
  | .other => .other
end CM

namespace CM.Props
open CM CM.Spec

theorem argsValues_eq (errs) : ∀ l, argsValues errs l = l.map (GenericArg.map (typeReplacements errs))
  | [] => rfl
  | a :: rest => by rw [argsValues, argsValues_eq errs rest]; cases a <;> simp [argValues, GenericArg.map]

theorem pathArgsValues_eq (errs) (a) : pathArgsValues errs a = a.map (typeReplacements errs) := by
  cases a <;> simp [pathArgsValues, PathArgs.map, argsValues_eq]

theorem segmentsValues_eq (errs) : ∀ l, segmentsValues errs l = l.map (·.map (typeReplacements errs))
  | [] => rfl
  | s :: rest => by
    rw [segmentsValues, segmentsValues_eq errs rest]; cases s
    simp [segmentValues, PathSegment.map, pathArgsValues_eq]

theorem pathValues_eq (errs p) : pathValues errs p = p.map (typeReplacements errs) := by
  cases p; simp [pathValues, SynPath.map, segmentsValues_eq]

theorem boundsValues_eq (errs) : ∀ l, boundsValues errs l = l.map (Bound.map (typeReplacements errs))
  | [] => rfl
  | b :: rest => by
    rw [boundsValues, boundsValues_eq errs rest]; cases b <;> simp [boundValues, Bound.map, pathValues_eq]

theorem tupleValues_eq (errs) : ∀ l, tupleValues errs l = l.map (typeReplacements errs)
  | [] => rfl
  | t :: rest => by rw [tupleValues, tupleValues_eq errs rest]; rfl

theorem lastSegment_iff {α} {p : SynPath α} {n args} : LastSegment p n args ↔ p.segments.getLast? = some ⟨n, args⟩ := by
  unfold LastSegment
  rw [List.getLast?_eq_some_iff]

theorem getLast_map {α β} (f : α → β) (p : SynPath α) :
    (p.map f).segments.getLast? = p.segments.getLast?.map (·.map f) := by
  simp [SynPath.map, List.getLast?_map]

/-! What a path with a last segment looks like to the code. -/
section
variable {α β : Type} {p : SynPath α} {n : Text} {args : PathArgs α} {f : α → β}

theorem isIdent_iff {x : Text} : p.isIdent x = true ↔ Plain p x := by
  obtain ⟨c, segs⟩ := p
  unfold SynPath.isIdent Plain
  match segs with
  | [] => simp
  | [⟨i, a⟩] => cases a <;> simp [and_comm]
  | _ :: _ :: _ => simp

theorem isIdent_map {x : Text} : (p.map f).isIdent x = p.isIdent x := by
  obtain ⟨c, segs⟩ := p
  unfold SynPath.isIdent SynPath.map
  match segs with
  | [] => rfl
  | [⟨i, a⟩] => cases a <;> rfl
  | _ :: _ :: _ => rfl

theorem endsWith_map {x : Text} : (p.map f).endsWith x = p.endsWith x := by
  unfold SynPath.endsWith; rw [getLast_map]; cases p.segments.getLast? <;> rfl

theorem firstTypeArg_map : ∀ l : List (GenericArg α),
    firstTypeArg (l.map (GenericArg.map f)) = (firstTypeArg l).map f
  | [] => rfl
  | .type t :: _ => rfl
  | .lifetime :: rest => by simpa [firstTypeArg, GenericArg.map] using firstTypeArg_map rest
  | .assocType _ _ :: _ => rfl
  | .other :: _ => rfl

theorem matchFirstTypeArg_map {x : Text} : matchFirstTypeArg (p.map f) x = (matchFirstTypeArg p x).map f := by
  unfold matchFirstTypeArg; rw [getLast_map]
  cases p.segments.getLast? with
  | none => rfl
  | some s =>
    obtain ⟨i, a⟩ := s
    simp only [Option.map_some, PathSegment.map]
    split
    · cases a <;> simp [PathArgs.map, firstTypeArg_map]
    · rfl

theorem onlyArg_map : ∀ a : PathArgs α, onlyArg (a.map f) = (onlyArg a).map f := by
  intro a; cases a with
  | none => rfl
  | paren => rfl
  | angle l =>
    match l with
    | [] => rfl
    | [a] => cases a <;> rfl
    | a :: b :: l => cases a <;> rfl

theorem twoArgs_map : ∀ a : PathArgs α, twoArgs (a.map f) = (twoArgs a).map fun (k, v) => (f k, f v) := by
  intro a; cases a with
  | none => rfl
  | paren => rfl
  | angle l =>
    match l with
    | [] => rfl
    | [a] => cases a <;> rfl
    | [a, b] => cases a <;> cases b <;> rfl
    | a :: b :: c :: l => cases a <;> cases b <;> rfl

theorem typeArgs_map : ∀ l : List (GenericArg α), typeArgs (l.map (GenericArg.map f)) = (typeArgs l).map f
  | [] => rfl
  | .type t :: rest => by simp [typeArgs, GenericArg.map, typeArgs_map rest]
  | .lifetime :: rest => by simp [typeArgs, GenericArg.map, typeArgs_map rest]
  | .assocType _ _ :: rest => by simp [typeArgs, GenericArg.map, typeArgs_map rest]
  | .other :: rest => by simp [typeArgs, GenericArg.map, typeArgs_map rest]

theorem knownContainer_map : knownContainer (p.map f) = (knownContainer p).map fun (n, t) => (n, f t) := by
  unfold knownContainer; rw [getLast_map]
  cases p.segments.getLast? with
  | none => rfl
  | some s =>
    simp only [Option.map_some, PathSegment.map]
    split
    · rw [onlyArg_map]; cases onlyArg s.args <;> rfl
    · rfl

theorem knownCollection_map : knownCollection (p.map f) = (knownCollection p).map fun (n, t) => (n, f t) := by
  unfold knownCollection; rw [getLast_map]
  cases p.segments.getLast? with
  | none => rfl
  | some s =>
    simp only [Option.map_some, PathSegment.map]
    split
    · rw [onlyArg_map]; cases onlyArg s.args <;> rfl
    · rfl

theorem knownMap_map : knownMap (p.map f) = (knownMap p).map fun (n, k, v) => (n, f k, f v) := by
  unfold knownMap; rw [getLast_map]
  cases p.segments.getLast? with
  | none => rfl
  | some s =>
    simp only [Option.map_some, PathSegment.map]
    split
    · rw [twoArgs_map]; cases twoArgs s.args <;> rfl
    · rfl

theorem maybe_map : maybeCollectionOrContainer (p.map f) =
    (maybeCollectionOrContainer p).map fun (n, t) => (n, f t) := by
  unfold maybeCollectionOrContainer; rw [getLast_map]
  cases p.segments.getLast? with
  | none => rfl
  | some s =>
    obtain ⟨i, a⟩ := s
    cases a with
    | none => rfl
    | paren => rfl
    | angle l =>
      simp only [Option.map_some, PathSegment.map, PathArgs.map, typeArgs_map]
      match typeArgs l with
      | [] => rfl
      | [_] => rfl
      | _ :: _ :: _ => rfl

theorem plain_last {x : Text} (h : Plain p x) : LastSegment p x .none := ⟨[], by rw [h]; rfl⟩

theorem last_unique {n' : Text} {args' : PathArgs α} (h : LastSegment p n args) (h' : LastSegment p n' args') :
    n = n' ∧ args = args' := by
  rw [lastSegment_iff] at h h'
  rw [h] at h'; cases h'; exact ⟨rfl, rfl⟩

theorem endsWith_iff {x : Text} : p.endsWith x = true ↔ ∃ args, LastSegment p x args := by
  unfold SynPath.endsWith
  constructor
  · intro h
    cases hl : p.segments.getLast? with
    | none => simp [hl] at h
    | some s =>
      rw [hl] at h
      have : s.ident = x := by simpa using h
      exact ⟨s.args, lastSegment_iff.2 (by rw [hl, ← this])⟩
  · rintro ⟨a, ha⟩
    rw [lastSegment_iff.1 ha]; simp

theorem firstTypeArg_iff {t : α} : ∀ l : List (GenericArg α), firstTypeArg l = some t ↔ FirstType (.angle l) t
  | [] => by
    unfold FirstType; simp [firstTypeArg]
  | .type u :: rest => by
    constructor
    · intro h; cases h; exact ⟨0, rest, rfl⟩
    · rintro ⟨n, r, h⟩
      cases n with
      | zero => cases h; rfl
      | succ n => simp [List.replicate_succ] at h
  | .lifetime :: rest => by
    rw [firstTypeArg, firstTypeArg_iff rest]
    constructor
    · rintro ⟨n, r, h⟩
      refine ⟨n + 1, r, ?_⟩
      rw [PathArgs.angle.injEq] at h
      rw [h]; simp [List.replicate_succ]
    · rintro ⟨n, r, h⟩
      cases n with
      | zero => simp at h
      | succ n =>
        refine ⟨n, r, ?_⟩
        simpa [List.replicate_succ] using h
  | .assocType _ _ :: rest => by
    constructor
    · intro h; cases h
    · rintro ⟨n, r, h⟩
      cases n <;> simp [List.replicate_succ] at h
  | .other :: rest => by
    constructor
    · intro h; cases h
    · rintro ⟨n, r, h⟩
      cases n <;> simp [List.replicate_succ] at h

theorem matchFirstTypeArg_iff {x : Text} {t : α} :
    matchFirstTypeArg p x = some t ↔ ∃ args, LastSegment p x args ∧ FirstType args t := by
  unfold matchFirstTypeArg
  constructor
  · intro h
    cases hl : p.segments.getLast? with
    | none => simp [hl] at h
    | some s =>
      obtain ⟨i, a⟩ := s
      simp only [hl] at h
      split at h
      · next hi =>
        subst hi
        cases a with
        | none => cases h
        | paren => cases h
        | angle l => exact ⟨_, lastSegment_iff.2 hl, (firstTypeArg_iff l).1 h⟩
      · cases h
  · rintro ⟨a, ha, ht⟩
    simp only [lastSegment_iff.1 ha]
    simp only [if_true]
    obtain ⟨n, r, rfl⟩ := ht
    exact (firstTypeArg_iff _).2 ⟨n, r, rfl⟩

theorem onlyArg_iff {t : α} : onlyArg args = some t ↔ args = .angle [.type t] := by
  constructor
  · intro h; unfold onlyArg at h; split at h
    · cases h; rfl
    · cases h
  · rintro rfl; rfl

theorem twoArgs_iff {k v : α} : twoArgs args = some (k, v) ↔ args = .angle [.type k, .type v] := by
  constructor
  · intro h; unfold twoArgs at h; split at h
    · cases h; rfl
    · cases h
  · rintro rfl; rfl

theorem knownContainer_iff {t : α} :
    knownContainer p = some (n, t) ↔ n ∈ containerNames ∧ LastSegment p n (.angle [.type t]) := by
  unfold knownContainer
  constructor
  · intro h
    cases hl : p.segments.getLast? with
    | none => simp [hl] at h
    | some s =>
      simp only [hl] at h
      split at h
      · next hi =>
        obtain ⟨u, hu, he⟩ := Option.map_eq_some_iff.1 h
        cases he
        exact ⟨hi, lastSegment_iff.2 (by rw [hl, ← onlyArg_iff.1 hu])⟩
      · cases h
  · rintro ⟨hn, ha⟩
    simp only [lastSegment_iff.1 ha]
    exact (if_pos hn).trans rfl

theorem knownCollection_iff {t : α} :
    knownCollection p = some (n, t) ↔ n ∈ collectionNames ∧ LastSegment p n (.angle [.type t]) := by
  unfold knownCollection
  constructor
  · intro h
    cases hl : p.segments.getLast? with
    | none => simp [hl] at h
    | some s =>
      simp only [hl] at h
      split at h
      · next hi =>
        obtain ⟨u, hu, he⟩ := Option.map_eq_some_iff.1 h
        cases he
        exact ⟨hi, lastSegment_iff.2 (by rw [hl, ← onlyArg_iff.1 hu])⟩
      · cases h
  · rintro ⟨hn, ha⟩
    simp only [lastSegment_iff.1 ha]
    exact (if_pos hn).trans rfl

theorem knownMap_iff {k v : α} :
    knownMap p = some (n, k, v) ↔ n ∈ mapNames ∧ LastSegment p n (.angle [.type k, .type v]) := by
  unfold knownMap
  constructor
  · intro h
    cases hl : p.segments.getLast? with
    | none => simp [hl] at h
    | some s =>
      simp only [hl] at h
      split at h
      · next hi =>
        obtain ⟨⟨a, b⟩, hu, he⟩ := Option.map_eq_some_iff.1 h
        cases he
        exact ⟨hi, lastSegment_iff.2 (by rw [hl, ← twoArgs_iff.1 hu])⟩
      · cases h
  · rintro ⟨hn, ha⟩
    simp only [lastSegment_iff.1 ha]
    exact (if_pos hn).trans rfl

theorem typeArgs_append (a b : List (GenericArg α)) : typeArgs (a ++ b) = typeArgs a ++ typeArgs b := by
  induction a with
  | nil => rfl
  | cons x a ih => cases x <;> simp [typeArgs, ih]

theorem typeArgs_nil_iff {a : List (GenericArg α)} : typeArgs a = [] ↔ ∀ x, .type x ∉ a := by
  induction a with
  | nil => simp [typeArgs]
  | cons x a ih =>
    cases x with
    | type t =>
      constructor
      · intro h; cases h
      · intro h; exact absurd List.mem_cons_self (h t)
    | _ => simp [typeArgs, ih]

theorem typeArgs_one {t : α} : ∀ {l : List (GenericArg α)}, typeArgs l = [t] →
    ∃ a b, l = a ++ .type t :: b ∧ typeArgs a = [] ∧ typeArgs b = []
  | [], h => by cases h
  | .type u :: rest, h => by
    simp only [typeArgs, List.cons.injEq] at h
    exact ⟨[], rest, by rw [h.1]; rfl, rfl, h.2⟩
  | .lifetime :: rest, h | .assocType _ _ :: rest, h | .other :: rest, h => by
    obtain ⟨a, b, e, h1, h2⟩ := typeArgs_one (l := rest) h
    refine ⟨_ :: a, b, congrArg (List.cons _) e, ?_, h2⟩
    exact h1

theorem oneType_iff {t : α} : OneType args t ↔ ∃ l, args = .angle l ∧ typeArgs l = [t] := by
  constructor
  · rintro ⟨a, b, rfl, h⟩
    refine ⟨_, rfl, ?_⟩
    have ha : typeArgs a = [] := typeArgs_nil_iff.2 fun x hx => h x (List.mem_append_left _ hx)
    have hb : typeArgs b = [] := typeArgs_nil_iff.2 fun x hx => h x (List.mem_append_right _ hx)
    rw [typeArgs_append, ha, typeArgs, hb]; rfl
  · rintro ⟨l, rfl, h⟩
    obtain ⟨a, b, rfl, h1, h2⟩ := typeArgs_one h
    refine ⟨a, b, rfl, fun x hx => ?_⟩
    rcases List.mem_append.1 hx with hx | hx
    · exact typeArgs_nil_iff.1 h1 x hx
    · exact typeArgs_nil_iff.1 h2 x hx

theorem maybe_iff {t : α} :
    maybeCollectionOrContainer p = some (n, t) ↔ ∃ args, LastSegment p n args ∧ OneType args t := by
  unfold maybeCollectionOrContainer
  constructor
  · intro h
    cases hl : p.segments.getLast? with
    | none => simp [hl] at h
    | some s =>
      obtain ⟨i, a⟩ := s
      simp only [hl] at h
      cases a with
      | none => cases h
      | paren => cases h
      | angle l =>
        simp only at h
        split at h
        · next u hu =>
          cases h
          exact ⟨_, lastSegment_iff.2 hl, oneType_iff.2 ⟨l, rfl, hu⟩⟩
        · cases h
  · rintro ⟨a, ha, ht⟩
    obtain ⟨l, rfl, hu⟩ := oneType_iff.1 ht
    simp only [lastSegment_iff.1 ha, hu]

theorem anyIdent_iff {l : List String} : (l.any fun s => p.isIdent s.toList) = true ↔ ∃ n ∈ words l, Plain p n := by
  simp only [List.any_eq_true, isIdent_iff, words, List.mem_map]
  constructor
  · rintro ⟨s, hs, h⟩; exact ⟨_, ⟨s, hs, rfl⟩, h⟩
  · rintro ⟨_, ⟨s, hs, rfl⟩, h⟩; exact ⟨s, hs, h⟩

theorem anyEnds_iff {l : List String} : (l.any fun s => p.endsWith s.toList) = true ↔
    ∃ n ∈ words l, ∃ args, LastSegment p n args := by
  simp only [List.any_eq_true, endsWith_iff, words, List.mem_map]
  constructor
  · rintro ⟨s, hs, h⟩; exact ⟨_, ⟨s, hs, rfl⟩, h⟩
  · rintro ⟨_, ⟨s, hs, rfl⟩, h⟩; exact ⟨s, hs, h⟩

/-- What `matchImplIterator` looks for in one bound. -/
theorem matchImpl_cons (b : Bound α) (bs : List (Bound α)) : (matchImplIterator (b :: bs) = matchImplIterator bs ∧ ∀ t, ¬ IteratorOf b t) ∨
        ∃ t, matchImplIterator (b :: bs) = some t ∧ IteratorOf b t := by
  cases b with
  | other => exact .inl ⟨rfl, fun t ⟨_, _, h, _⟩ => by cases h⟩
  | trait p =>
    have key : ∀ t, IteratorOf (.trait p) t ↔
        ∃ r, LastSegment p "Iterator".toList (.angle (.assocType "Item".toList t :: r)) := by
      intro t
      constructor
      · rintro ⟨q, r, e, h⟩; cases e; exact ⟨r, h⟩
      · rintro ⟨r, h⟩; exact ⟨p, r, rfl, h⟩
    simp only [key, lastSegment_iff]
    rw [matchImplIterator]
    cases hl : p.segments.getLast? with
    | none => exact .inl ⟨rfl, by rintro t ⟨r, h⟩; cases h⟩
    | some s =>
      obtain ⟨i, a⟩ := s
      dsimp only
      by_cases hi : i = "Iterator".toList
      · rw [if_pos hi]
        subst hi
        cases a with
        | none => exact .inl ⟨rfl, by rintro t ⟨r, h⟩; cases h⟩
        | paren => exact .inl ⟨rfl, by rintro t ⟨r, h⟩; cases h⟩
        | angle l =>
          cases l with
          | nil => exact .inl ⟨rfl, by rintro t ⟨r, h⟩; cases h⟩
          | cons x l =>
            cases x with
            | assocType m t =>
              dsimp only
              by_cases hm : m = "Item".toList
              · rw [if_pos hm]; subst hm
                exact .inr ⟨t, rfl, l, rfl⟩
              · rw [if_neg hm]
                refine .inl ⟨rfl, ?_⟩
                rintro u ⟨r, h⟩
                injection h with h; injection h with _ h; injection h with h
                injection h with h _; injection h with h _
                exact hm h
            | _ => exact .inl ⟨rfl, by rintro t ⟨r, h⟩; cases h⟩
      · rw [if_neg hi]
        refine .inl ⟨rfl, ?_⟩
        rintro u ⟨r, h⟩
        injection h with h; injection h with h _
        exact hi h

theorem matchImpl_none {bs : List (Bound α)} : matchImplIterator bs = none ↔ ∀ b ∈ bs, ∀ t, ¬ IteratorOf b t := by
  induction bs with
  | nil => simp [matchImplIterator]
  | cons b bs ih =>
    rcases matchImpl_cons b bs with ⟨h1, h2⟩ | ⟨t, h1, h2⟩
    · rw [h1, ih]
      simp only [List.mem_cons, forall_eq_or_imp]
      exact ⟨fun h => ⟨h2, h⟩, fun h => h.2⟩
    · rw [h1]
      constructor
      · intro h; cases h
      · intro h; exact absurd h2 (h b (by simp) t)

theorem matchImpl_skip {a bs : List (Bound α)} (h : ∀ b ∈ a, ∀ t, ¬ IteratorOf b t) :
    matchImplIterator (a ++ bs) = matchImplIterator bs := by
  induction a with
  | nil => rfl
  | cons b a ih =>
    rcases matchImpl_cons b (a ++ bs) with ⟨h1, -⟩ | ⟨t, -, h2⟩
    · rw [List.cons_append, h1]; exact ih fun x hx => h x (List.mem_cons_of_mem _ hx)
    · exact absurd h2 (h b (by simp) t)

theorem iteratorOf_unique {b : Bound α} {t u : α} (h : IteratorOf b t) (h' : IteratorOf b u) : t = u := by
  obtain ⟨p, r, rfl, h⟩ := h
  obtain ⟨q, r', e, h'⟩ := h'
  cases e
  have := (last_unique h h').2
  cases this; rfl

theorem matchImpl_some {bs : List (Bound α)} {t : α} : matchImplIterator bs = some t ↔
    ∃ a b c, bs = a ++ b :: c ∧ IteratorOf b t ∧ ∀ x ∈ a, ∀ u, ¬ IteratorOf x u := by
  constructor
  · intro h
    induction bs with
    | nil => cases h
    | cons b bs ih =>
      rcases matchImpl_cons b bs with ⟨h1, h2⟩ | ⟨u, h1, h2⟩
      · rw [h1] at h
        obtain ⟨a, x, c, rfl, hx, ha⟩ := ih h
        refine ⟨b :: a, x, c, rfl, hx, ?_⟩
        intro y hy
        rcases List.mem_cons.1 hy with rfl | hy
        · exact h2
        · exact ha y hy
      · rw [h1] at h; cases h
        exact ⟨[], b, bs, rfl, h2, by intro x hx; cases hx⟩
  · rintro ⟨a, b, c, rfl, hb, ha⟩
    rw [matchImpl_skip ha]
    rcases matchImpl_cons b c with ⟨-, h2⟩ | ⟨u, h1, h2⟩
    · exact absurd hb (h2 t)
    · rw [h1, iteratorOf_unique h2 hb]

theorem matchImpl_map {bs : List (Bound α)} :
    matchImplIterator (bs.map (Bound.map f)) = (matchImplIterator bs).map f := by
  induction bs with
  | nil => rfl
  | cons b bs ih =>
    cases b with
    | other => exact ih
    | trait p =>
      rw [List.map_cons, Bound.map, matchImplIterator, matchImplIterator, getLast_map]
      cases p.segments.getLast? with
      | none => exact ih
      | some s =>
        obtain ⟨i, a⟩ := s
        simp only [Option.map_some, PathSegment.map]
        split
        · cases a with
          | none => exact ih
          | paren => exact ih
          | angle l =>
            cases l with
            | nil => exact ih
            | cons x l =>
              cases x with
              | assocType m t =>
                simp only [PathArgs.map, List.map_cons, GenericArg.map]
                split
                · rfl
                · exact ih
              | _ => exact ih
        · exact ih

end

end CM.Props
