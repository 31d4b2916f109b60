import Verif.Proofs.FnValue4
/-! C50: the values that replace function bodies. -/
namespace CM.Props
open CM CM.Spec

theorem product_choices {α} (l : List (List α)) : product l = choices l := by
  induction l with
  | nil => rfl
  | cons xs l ih => rw [product, ih]; rfl

theorem choices_map {α β} (f : α → β) (l : List (List α)) :
    (choices l).map (·.map f) = choices (l.map (·.map f)) := by
  induction l with
  | nil => rfl
  | cons xs l ih =>
    show (xs.flatMap fun x => (choices l).map (x :: ·)).map _ =
      (xs.map f).flatMap fun x => (choices (l.map (·.map f))).map (x :: ·)
    rw [← ih, List.map_flatMap, List.flatMap_map]
    congr 1; funext x
    rw [List.map_map, List.map_map]; rfl

theorem mem_choices {α} {l : List (List α)} {c : List α} (h : c ∈ choices l) : ∀ x ∈ c, ∃ xs ∈ l, x ∈ xs := by
  induction l generalizing c with
  | nil =>
    have : c = [] := by simpa [choices] using h
    rw [this]; intro x hx; cases hx
  | cons xs l ih =>
    have h : c ∈ xs.flatMap fun x => (choices l).map (x :: ·) := h
    obtain ⟨y, hy, h⟩ := List.mem_flatMap.1 h
    obtain ⟨d, hd, rfl⟩ := List.mem_map.1 h
    intro x hx
    rcases List.mem_cons.1 hx with rfl | hx
    · exact ⟨xs, by simp, hy⟩
    · obtain ⟨ys, hys, hx⟩ := ih hd x hx; exact ⟨ys, by simp [hys], hx⟩

section
variable {α β : Type} {p : SynPath α} {n : Text} {args : PathArgs α} {f : α → β} {t : α}

theorem firstType_map (h : FirstType args t) : FirstType (args.map f) (f t) := by
  obtain ⟨n, r, rfl⟩ := h
  exact ⟨n, r.map (GenericArg.map f), by simp [PathArgs.map, GenericArg.map, List.map_append, List.map_replicate]⟩

theorem oneType_map (h : OneType args t) : OneType (args.map f) (f t) := by
  obtain ⟨l, rfl, hl⟩ := oneType_iff.1 h
  exact oneType_iff.2 ⟨_, rfl, by rw [typeArgs_map, hl]; rfl⟩

theorem plain_map (h : Plain p n) : Plain (p.map f) n := by
  rw [← isIdent_iff] at *; rwa [isIdent_map]

theorem listed_of_map (h : Listed (p.map f)) : Listed p := by
  cases h with
  | plain hn hp => rw [← isIdent_iff, isIdent_map, isIdent_iff] at hp; exact .plain hn hp
  | named hn hl =>
    obtain ⟨a, ha⟩ := endsWith_iff.1 (endsWith_map (f := f) ▸ endsWith_iff.2 ⟨_, hl⟩)
    exact .named hn ha
  | firstType hn hl ht =>
    have := matchFirstTypeArg_iff.2 ⟨_, hl, ht⟩
    rw [matchFirstTypeArg_map] at this
    obtain ⟨u, hu, -⟩ := Option.map_eq_some_iff.1 this
    obtain ⟨a, ha, ht⟩ := matchFirstTypeArg_iff.1 hu
    exact .firstType hn ha ht
  | onlyType hn hl =>
    rcases List.mem_append.1 hn with hc | hc
    · have := knownContainer_iff.2 ⟨hc, hl⟩
      rw [knownContainer_map] at this
      obtain ⟨⟨m, u⟩, hu, e⟩ := Option.map_eq_some_iff.1 this
      have := knownContainer_iff.1 hu
      exact .onlyType (List.mem_append_left _ this.1) this.2
    · have := knownCollection_iff.2 ⟨hc, hl⟩
      rw [knownCollection_map] at this
      obtain ⟨⟨m, u⟩, hu, e⟩ := Option.map_eq_some_iff.1 this
      have := knownCollection_iff.1 hu
      exact .onlyType (List.mem_append_right _ this.1) this.2
  | map hn hl =>
    have := knownMap_iff.2 ⟨hn, hl⟩
    rw [knownMap_map] at this
    obtain ⟨⟨m, u, v⟩, hu, e⟩ := Option.map_eq_some_iff.1 this
    have := knownMap_iff.1 hu
    exact .map this.1 this.2

theorem firstType_of_map {u : β} (h : FirstType (args.map f) u) : ∃ t, FirstType args t := by
  cases args with
  | angle l =>
    have := (firstTypeArg_iff _).2 h
    rw [firstTypeArg_map] at this
    obtain ⟨t, ht, -⟩ := Option.map_eq_some_iff.1 this
    exact ⟨t, (firstTypeArg_iff _).1 ht⟩
  | none => obtain ⟨_, _, h⟩ := h; cases h
  | paren => obtain ⟨_, _, h⟩ := h; cases h

theorem oneType_of_map {m : Text} {a : PathArgs β} {u : β} (h : LastSegment (p.map f) m a) (ho : OneType a u) :
    ∃ args t, LastSegment p m args ∧ OneType args t := by
  have := maybe_iff.2 ⟨_, h, ho⟩
  rw [maybe_map] at this
  obtain ⟨⟨m', t⟩, ht, e⟩ := Option.map_eq_some_iff.1 this
  cases e
  obtain ⟨args, h1, h2⟩ := maybe_iff.1 ht
  exact ⟨args, t, h1, h2⟩
end

theorem path_eq (errs : List Tokens) (p : SynPath Ty) :
    typeReplacements errs (.path p) = pathReplacements errs (p.map (typeReplacements errs)) := by
  rw [typeReplacements, pathValues_eq]

theorem around_eq {a b : String} {x y v w : Text} (ha : a.toList = x) (hb : b.toList = y) (hv : v = w) :
    around a v b = x ++ w ++ y := by rw [around, ha, hb, hv]

theorem cons_row {a b : Text} {l m : List Text} (h1 : a = b) (h2 : l = m) : a :: l = b :: m := by rw [h1, h2]

theorem pretty_leaked (r : Tokens) : pretty (qLeakVec (qVec r)) = around "Vec::leak(vec![" (pretty r) "])" := by
  rw [around_eq (x := "Vec".toList ++ "::".toList ++ "leak".toList ++ ['('] ++ "vec![".toList) (y := [']'] ++ [')'])
    (by decide) (by decide) rfl, qLeakVec, pretty_pathCall, pretty_vec]
  simp only [List.append_assoc]

theorem slice_printed {reps : List Tokens} : leaked (reps.map pretty) = (sliceReplacements reps).map pretty :=
  cons_row (by decide +kernel) (map_row fun r _ => pretty_leaked r).symm

theorem call_printed {s pre : String} (h : pre.toList = s.toList ++ ['(']) (reps : List Tokens) :
    ((reps.map pretty).map fun v => around pre v ")") = (reps.map (qCall s)).map pretty := by
  refine (map_row fun r _ => ?_).symm
  rw [pretty_call, around_eq h (show ")".toList = [')'] by decide) rfl]

theorem pathCall_printed {m pre : String} (h : pre.toList = "::".toList ++ m.toList ++ ['(']) (n : Text) (r : Tokens) :
    pretty (qPathCall n m r) = n ++ around pre (pretty r) ")" := by
  rw [pretty_pathCall, around_eq h (show ")".toList = [')'] by decide) rfl]
  simp only [List.append_assoc]

theorem fromIter_printed (n : Text) (r : Tokens) :
    pretty (qPathCall n "from_iter" (qArray r)) = n ++ around "::from_iter([" (pretty r) "])" := by
  rw [pretty_pathCall, pretty_array, around_eq (x := "::".toList ++ "from_iter".toList ++ ['('] ++ ['['])
    (y := [']'] ++ [')']) (by decide) (by decide) rfl]
  simp only [List.append_assoc]

theorem new_printed (n : Text) : pretty (qPathCall n "new" []) = n ++ "::new()".toList := by
  rw [pretty_pathCall, show "::new()".toList = "::".toList ++ "new".toList ++ ['('] ++ pretty [] ++ [')'] from
    by decide +kernel]
  simp only [List.append_assoc]

theorem pair_printed (n : Text) {k v : Tokens} (hk : WordEnd k) (hv : WordEnd v) :
    pretty (qPathCall n "from_iter" (qArray [parens (k ++ [.punct ','] ++ v)])) =
      n ++ around "::from_iter([(" (pretty k ++ ", ".toList ++ pretty v) ")])" := by
  rw [pretty_pathCall, pretty_array, pretty_parens, around_eq
    (x := "::".toList ++ "from_iter".toList ++ ['('] ++ ['['] ++ ['('])
    (y := [')'] ++ [']'] ++ [')']) (by decide) (by decide) rfl,
    show k ++ [TokenTree.punct ','] ++ v = k ++ .punct ',' :: v from by simp,
    pretty_sep (.inl rfl) hk hv.ne_nil, show ", ".toList = [',', ' '] from by decide]
  simp only [List.append_assoc]

theorem cow_printed {r : Tokens} (hr : WordEnd r) :
    [qPathCall "Cow".toList "Borrowed" r,
       qPathCall "Cow".toList "Owned" (r ++ [.punct '.', qi "to_owned", parens []])].map pretty =
     [around "Cow::Borrowed(" (pretty r) ")", around "Cow::Owned(" (pretty r) ".to_owned())"] := by
  refine cons_row ?_ (cons_row ?_ rfl)
  · rw [pretty_pathCall, around_eq (x := "Cow".toList ++ "::".toList ++ "Borrowed".toList ++ ['('])
      (y := [')']) (by decide) (by decide) rfl]
  · rw [pretty_pathCall, pretty_dot hr, around_eq (x := "Cow".toList ++ "::".toList ++ "Owned".toList ++ ['('])
      (y := ['.'] ++ pretty [qi "to_owned", parens []] ++ [')']) (by decide) (by decide +kernel) rfl]
    simp only [List.append_assoc]

theorem array_printed {r len : Tokens} (hr : WordEnd r) : pretty (qArray (r ++ [.punct ';'] ++ len)) =
    around "[" (pretty r) ";" ++ (if len = [] then [] else " ".toList ++ pretty len) ++ "]".toList := by
  rw [pretty_array]
  split
  · next h => rw [h, List.append_nil, pretty_semi_end hr]; simp [around]
  · next h =>
    rw [show r ++ [TokenTree.punct ';'] ++ len = r ++ .punct ';' :: len from by simp, pretty_sep (.inr rfl) hr h]
    simp [around]

theorem tuple_printed {reps : List Tokens} (h : ∀ r ∈ reps, WordEnd r) :
    pretty [parens (commaSep reps)] = around "(" ((", ".toList).intercalate (reps.map pretty)) ")" := by
  rw [pretty_parens, pretty_commaSep h]; rfl

theorem iter_printed (r : Tokens) : pretty (qIter "once" r) = around "::std::iter::once(" (pretty r) ")" := by
  rw [pretty_iter, around_eq (x := "::std::iter::".toList ++ "once".toList ++ ['(']) (y := [')'])
    (by decide) (by decide) rfl]

theorem mutRef_printed (r : Tokens) : pretty (qPathCall "Box".toList "leak" (qPathCall "Box".toList "new" r)) =
    around "Box::leak(Box::new(" (pretty r) "))" := by
  rw [pretty_pathCall, pretty_pathCall, around_eq (x := "Box".toList ++ "::".toList ++ "leak".toList ++ ['('] ++
    "Box".toList ++ "::".toList ++ "new".toList ++ ['(']) (y := [')'] ++ [')']) (by decide) (by decide) rfl]
  simp only [List.append_assoc]

/-- A row of the table gives exactly the printed values of the code. -/
theorem values_sound (errs : List Tokens) {t : Ty} {vs : List Text} (h : Values (errs.map pretty) t vs) :
    vs = (typeReplacements errs t).map pretty := by
  induction h with
  | bool hp => rw [path_eq, row_bool (plain_map hp)]; decide +kernel
  | string hp => rw [path_eq, row_string (plain_map hp)]; decide +kernel
  | str hp => rw [path_eq, row_str (plain_map hp)]; decide +kernel
  | unsigned hn hp => rw [path_eq, row_unsigned (plain_map hp) hn]; decide +kernel
  | signed hn hp => rw [path_eq, row_signed (plain_map hp) hn]; decide +kernel
  | float hn hp => rw [path_eq, row_float (plain_map hp) hn]; decide +kernel
  | nonzeroSigned hn hl => rw [path_eq, row_nonzeroSigned (lastSegment_map hl) hn]; decide +kernel
  | nonzeroUnsigned hn hl => rw [path_eq, row_nonzeroUnsigned (lastSegment_map hl) hn]; decide +kernel
  | result hl ht _ ih =>
    rw [path_eq, row_result (lastSegment_map hl) (firstType_map ht), ih, List.map_append, call_printed (s := "Ok") (by decide),
      call_printed (s := "Err") (by decide)]
  | bareResult hl ht =>
    rw [path_eq, row_bareResult (lastSegment_map hl) fun t h => by obtain ⟨u, hu⟩ := firstType_of_map h; exact ht u hu,
      call_printed (s := "Err") (by decide)]
    exact cons_row (by decide +kernel) rfl
  | httpResponse hl => rw [path_eq, row_httpResponse (lastSegment_map hl)]; decide +kernel
  | option hl ht _ ih =>
    rw [path_eq, row_option (lastSegment_map hl) (firstType_map ht), ih, call_printed (s := "Some") (by decide)]
    exact cons_row (by decide +kernel) rfl
  | vec hl ht _ ih =>
    rw [path_eq, row_vec (lastSegment_map hl) (firstType_map ht), ih]
    refine cons_row (by decide +kernel) (map_row fun r _ => ?_).symm
    rw [pretty_vec, around_eq (x := "vec![".toList) (y := [']']) rfl (by decide) rfl]
  | cow hl ht _ ih =>
    rw [path_eq, row_cow (lastSegment_map hl) (firstType_map ht), ih]
    exact (flatMap_row fun r hr => cow_printed (ended errs _ r hr)).symm
  | container hn hl _ ih =>
    rw [path_eq, row_container hn (lastSegment_map hl), ih]
    exact (map_row fun r _ => pathCall_printed (by decide) _ r).symm
  | collection hn hl _ ih =>
    rw [path_eq, row_collection hn (lastSegment_map hl), ih]
    exact cons_row (new_printed _).symm (map_row fun r _ => fromIter_printed _ r).symm
  | map hn hl _ _ ih1 ih2 =>
    rw [path_eq, row_map hn (lastSegment_map hl), ih1, ih2]
    exact cons_row (new_printed _).symm (flatMap_row fun k hk => map_row (g := fun b => _ ++ around _ _ _)
      fun v hv => pair_printed _ (ended errs _ k hk) (ended errs _ v hv)).symm
  | oneArgument hL hl ht _ ih =>
    rw [path_eq, row_one (fun h => hL (listed_of_map h)) (lastSegment_map hl) (oneType_map ht), ih]
    refine cons_row (new_printed _).symm (flatMap_row fun r hr => ?_).symm
    exact cons_row (fromIter_printed _ r) (cons_row (pathCall_printed (by decide) _ r)
      (cons_row (pathCall_printed (by decide) _ r) rfl))
  | default hL hl =>
    rw [path_eq, row_default (fun h => hL (listed_of_map h)) fun n a t h1 h2 => by
      obtain ⟨args, u, h3, h4⟩ := oneType_of_map h1 h2; exact hl _ _ _ h3 h4]
    decide +kernel
  | array _ ih =>
    rw [typeReplacements, ih]
    exact (map_row fun r hr => array_printed (ended errs _ r hr)).symm
  | slice _ ih => rw [typeReplacements, ih, slice_printed]
  | @sliceRef m t vs _ ih =>
    have e : typeReplacements errs (.reference m (.slice t)) = sliceReplacements (typeReplacements errs t) := by
      cases m <;> rfl
    rw [e, ih, slice_printed]
  | strRef hp =>
    rw [typeReplacements, if_pos (isIdent_iff.2 hp)]; decide +kernel
  | @ref t vs hs hp _ ih =>
    have e : typeReplacements errs (.reference false t) =
        (typeReplacements errs t).map fun rep => .punct '&' :: rep := by
      cases t with
      | path p =>
        show (if p.isIdent "str".toList then _ else _) = _
        rw [if_neg fun h => hp p rfl (isIdent_iff.1 h)]
      | slice e => exact absurd rfl (hs e)
      | _ => rfl
    rw [e, ih]
    refine (map_row fun r _ => ?_).symm
    rw [pretty_amp, around_eq (x := ['&']) (y := []) (by decide) (by decide) rfl, List.append_nil]; rfl
  | @mutRef t vs hs _ ih =>
    have e : typeReplacements errs (.reference true t) = (typeReplacements errs t).map fun rep =>
        qPathCall "Box".toList "leak" (qPathCall "Box".toList "new" rep) := by
      cases t with
      | slice e => exact absurd rfl (hs e)
      | _ => rfl
    rw [e, ih]
    exact (map_row fun r _ => mutRef_printed r).symm
  | @tuple ts vss hl _ ih =>
    have e : vss = (ts.map (typeReplacements errs)).map (·.map pretty) := by
      apply List.ext_getElem?
      intro i
      rw [List.map_map, List.getElem?_map]
      cases ht : ts[i]? with
      | none =>
        show vss[i]? = none
        rw [List.getElem?_eq_none_iff] at ht ⊢; rwa [hl]
      | some t =>
        have : i < vss.length := by rw [hl]; exact (List.getElem?_eq_some_iff.1 ht).1
        rw [List.getElem?_eq_getElem this]
        have := ih i t _ ht (List.getElem?_eq_getElem this)
        rw [this]; rfl
    rw [typeReplacements, tupleValues_eq, product_choices, e, ← choices_map]
    rw [List.map_map, List.map_map]
    refine List.map_congr_left fun reps hr => ?_
    refine (tuple_printed fun r hr' => ?_).symm
    obtain ⟨xs, hxs, hx⟩ := mem_choices hr r hr'
    obtain ⟨t, -, rfl⟩ := List.mem_map.1 hxs
    exact ended errs t r hx
  | implIterator hb ha _ ih =>
    rw [typeReplacements, boundsValues_eq, matchImpl_map, matchImpl_some.2 ⟨_, _, _, rfl, hb, ha⟩, ih]
    exact cons_row (by decide +kernel) (map_row fun r _ => iter_printed r).symm
  | implOther hb =>
    rw [typeReplacements, boundsValues_eq, matchImpl_map, matchImpl_none.2 hb]; rfl
  | never => rw [typeReplacements]; rfl
  | other => rw [typeReplacements]; decide +kernel

section
variable {p : SynPath Ty} {n : Text} {args : PathArgs Ty}

theorem sizeOf_args (h : LastSegment p n args) : sizeOf args < sizeOf p := by
  obtain ⟨i, e⟩ := h
  have h1 : (⟨n, args⟩ : PathSegment Ty) ∈ p.segments := by rw [e]; simp
  have h2 := List.sizeOf_lt_of_mem h1
  obtain ⟨c, segs⟩ := p
  simp only [PathSegment.mk.sizeOf_spec, SynPath.mk.sizeOf_spec] at h2 ⊢
  omega

theorem sizeOf_arg {l : List (GenericArg Ty)} {t : Ty} (h : LastSegment p n (.angle l)) (ht : .type t ∈ l) :
    sizeOf t < sizeOf (Ty.path p) := by
  have h1 := sizeOf_args h
  have h2 := List.sizeOf_lt_of_mem ht
  simp only [PathArgs.angle.sizeOf_spec, GenericArg.type.sizeOf_spec, Ty.path.sizeOf_spec] at *
  omega

theorem sizeOf_assoc {l : List (GenericArg Ty)} {m : Text} {t : Ty} (h : LastSegment p n (.angle l))
    (ht : .assocType m t ∈ l) : sizeOf t < sizeOf p := by
  have h1 := sizeOf_args h
  have h2 := List.sizeOf_lt_of_mem ht
  simp only [PathArgs.angle.sizeOf_spec, GenericArg.assocType.sizeOf_spec] at *
  omega

/-- The path has a row, if the smaller types have. -/
theorem path_row (E : List Text) (p : SynPath Ty)
    (ih : ∀ t, sizeOf t < sizeOf (Ty.path p) → ∃ vs, Values E t vs) : ∃ vs, Values E (.path p) vs := by
  have first : ∀ {n args t}, LastSegment p n args → FirstType args t → ∃ vs, Values E t vs := by
    rintro n args t hl ⟨k, r, rfl⟩
    exact ih t (sizeOf_arg hl (by simp))
  by_cases hL : Listed p
  · cases hL with
    | plain hn hp =>
      simp only [List.mem_append] at hn
      rcases hn with ((hn | hn) | hn) | hn
      · simp only [words, List.map_cons, List.map_nil, List.mem_cons, List.not_mem_nil, or_false] at hn
        rcases hn with rfl | rfl | rfl
        · exact ⟨_, .bool hp⟩
        · exact ⟨_, .string hp⟩
        · exact ⟨_, .str hp⟩
      · exact ⟨_, .unsigned hn hp⟩
      · exact ⟨_, .signed hn hp⟩
      · exact ⟨_, .float hn hp⟩
    | @named _ args hn hl =>
      simp only [List.mem_append] at hn
      rcases hn with (hn | hn) | hn
      · simp only [words, List.map_cons, List.map_nil, List.mem_cons, List.not_mem_nil, or_false] at hn
        rcases hn with rfl | rfl
        · by_cases hf : ∃ t, FirstType args t
          · obtain ⟨t, ht⟩ := hf
            obtain ⟨vs, hv⟩ := first hl ht
            exact ⟨_, .result hl ht hv⟩
          · exact ⟨_, .bareResult hl fun t ht => hf ⟨t, ht⟩⟩
        · exact ⟨_, .httpResponse hl⟩
      · exact ⟨_, .nonzeroSigned hn hl⟩
      · exact ⟨_, .nonzeroUnsigned hn hl⟩
    | firstType hn hl ht =>
      obtain ⟨vs, hv⟩ := first hl ht
      simp only [words, List.map_cons, List.map_nil, List.mem_cons, List.not_mem_nil, or_false] at hn
      rcases hn with rfl | rfl | rfl
      · exact ⟨_, .option hl ht hv⟩
      · exact ⟨_, .vec hl ht hv⟩
      · exact ⟨_, .cow hl ht hv⟩
    | @onlyType _ t hn hl =>
      obtain ⟨vs, hv⟩ := ih t (sizeOf_arg hl (by simp))
      rcases List.mem_append.1 hn with hn | hn
      · exact ⟨_, .container hn hl hv⟩
      · exact ⟨_, .collection hn hl hv⟩
    | @map _ k v hn hl =>
      obtain ⟨ks, hk⟩ := ih k (sizeOf_arg hl (by simp))
      obtain ⟨vs, hv⟩ := ih v (sizeOf_arg hl (by simp))
      exact ⟨_, .map hn hl hk hv⟩
  · by_cases ho : ∃ n args t, LastSegment p n args ∧ OneType args t
    · obtain ⟨n, args, t, hl, ht⟩ := ho
      obtain ⟨a, b, rfl, -⟩ := id ht
      obtain ⟨vs, hv⟩ := ih t (sizeOf_arg hl (by simp))
      exact ⟨_, .oneArgument hL hl ht hv⟩
    · exact ⟨_, .default hL fun n args t h1 h2 => ho ⟨n, args, t, h1, h2⟩⟩
end

/-- Every type has a row in the table. -/
theorem values_exist (E : List Text) (t : Ty) : ∃ vs, Values E t vs := by
  cases t with
  | path p => exact path_row E p fun t _ => values_exist E t
  | array e len => obtain ⟨vs, h⟩ := values_exist E e; exact ⟨_, .array h⟩
  | slice e => obtain ⟨vs, h⟩ := values_exist E e; exact ⟨_, .slice h⟩
  | reference m e =>
    by_cases hs : ∃ x, e = .slice x
    · obtain ⟨x, rfl⟩ := hs
      obtain ⟨vs, h⟩ := values_exist E x; exact ⟨_, .sliceRef h⟩
    · have hs' : ∀ x, e ≠ .slice x := fun x h => hs ⟨x, h⟩
      obtain ⟨vs, h⟩ := values_exist E e
      cases m with
      | true => exact ⟨_, .mutRef hs' h⟩
      | false =>
        by_cases hp : ∃ p, e = .path p ∧ Plain p "str".toList
        · obtain ⟨p, rfl, hp⟩ := hp; exact ⟨_, .strRef hp⟩
        · exact ⟨_, .ref hs' (fun p he h => hp ⟨p, he, h⟩) h⟩
  | tuple ts =>
    have h : ∀ t ∈ ts, ∃ vs, Values E t vs := fun t ht => values_exist E t
    have h2 : ∃ vss : List (List Text), vss.length = ts.length ∧
        ∀ (i : Nat) t vs, ts[i]? = some t → vss[i]? = some vs → Values E t vs := by
      clear values_exist
      induction ts with
      | nil => exact ⟨[], rfl, by intro i t vs h; simp at h⟩
      | cons t ts ih =>
        obtain ⟨vss, hl, hv⟩ := ih fun x hx => h x (List.mem_cons_of_mem _ hx)
        obtain ⟨vs, h0⟩ := h t (by simp)
        refine ⟨vs :: vss, by simp [hl], ?_⟩
        intro i u us h1 h2
        cases i with
        | zero => simp only [List.getElem?_cons_zero, Option.some.injEq] at h1 h2; rw [← h1, ← h2]; exact h0
        | succ i => simp only [List.getElem?_cons_succ] at h1 h2; exact hv i u us h1 h2
    obtain ⟨vss, hl, hv⟩ := h2
    exact ⟨_, .tuple hl hv⟩
  | implTrait bs =>
    cases hm : matchImplIterator bs with
    | none => exact ⟨_, .implOther (matchImpl_none.1 hm)⟩
    | some t =>
      have hlt : sizeOf t < sizeOf (Ty.implTrait bs) := by
        obtain ⟨a, b, c, rfl, ⟨p, r, rfl, hl⟩, ha⟩ := matchImpl_some.1 hm
        have h1 := sizeOf_assoc (t := t) hl List.mem_cons_self
        have h2 := List.sizeOf_lt_of_mem (a := Bound.trait p) (as := a ++ .trait p :: c) (by simp)
        simp only [Bound.trait.sizeOf_spec, Ty.implTrait.sizeOf_spec] at *
        omega
      obtain ⟨vs, h⟩ := values_exist E t
      obtain ⟨a, b, c, rfl, hb, ha⟩ := matchImpl_some.1 hm
      exact ⟨_, .implIterator hb ha h⟩
  | never => exact ⟨_, .never⟩
  | other => exact ⟨_, .other⟩
termination_by sizeOf t
decreasing_by
  all_goals simp_wf
  all_goals first
    | omega
    | (simp only [Ty.path.sizeOf_spec] at *; omega)
    | (have := List.sizeOf_lt_of_mem ht; omega)
    | (simp only [Ty.implTrait.sizeOf_spec] at hlt; omega)
    | (subst_vars; simp only [Ty.slice.sizeOf_spec]; omega)

/-! ### The claims -/

/-- **C50**, in full, as in the book: types without a row give `Default::default()`, and a tuple of one
type gives tuples of one value. -/
def C50_full : Prop :=
  (∀ errs t, ¬ HasRow t → (typeReplacements errs t).map pretty = ["Default::default()".toList]) ∧
  ∀ errs t, (typeReplacements errs (.tuple [t])).map pretty =
    (typeReplacements errs t).map fun v => around "(" (pretty v) ",)"

/-- `name<arg>` -/
def sampleGeneric (name : String) (args : List (GenericArg Ty)) : Ty := .path ⟨false, [⟨name.toList, .angle args⟩]⟩
def sampleName (name : String) : Ty := .path ⟨false, [⟨name.toList, .none⟩]⟩

theorem not_listed_of {α} {p : SynPath α} {n : Text} {args : PathArgs α} (h : LastSegment p n args)
    (hn : n ∉ plainNames ++ nonzeroSignedNames ++ nonzeroUnsignedNames ++ words ["Result", "HttpResponse"] ++
      words ["Option", "Vec", "Cow"] ++ containerNames ++ collectionNames ++ mapNames) : ¬ Listed p := by
  intro hL
  simp only [List.mem_append, not_or] at hn
  obtain ⟨⟨⟨⟨⟨⟨⟨⟨⟨⟨h1, h2⟩, h3⟩, h4⟩, h5⟩, h6⟩, h7⟩, h8⟩, h9⟩, h10⟩, h11⟩ := hn
  cases hL with
  | plain hm hp =>
    rw [← (last_unique h (plain_last hp)).1] at hm
    simp only [List.mem_append] at hm
    rcases hm with ((hm | hm) | hm) | hm
    · exact h1 hm
    · exact h2 hm
    · exact h3 hm
    · exact h4 hm
  | named hm hl =>
    rw [← (last_unique h hl).1] at hm
    simp only [List.mem_append] at hm
    rcases hm with (hm | hm) | hm
    · exact h7 hm
    · exact h5 hm
    · exact h6 hm
  | firstType hm hl _ => rw [← (last_unique h hl).1] at hm; exact h8 hm
  | onlyType hm hl =>
    rw [← (last_unique h hl).1] at hm
    rcases List.mem_append.1 hm with hm | hm
    · exact h9 hm
    · exact h10 hm
  | map hm hl => rw [← (last_unique h hl).1] at hm; exact h11 hm

/-- **C50.** The full statement does not hold: an unknown type with one argument, like `Foo<bool>`, is
constructed with functions that it may not have. -/
theorem C50_other_types_false : ¬ C50_full := by
  intro h
  have hn : ¬ HasRow (sampleGeneric "Foo" [.type (sampleName "bool")]) :=
    not_listed_of (n := "Foo".toList) ⟨[], rfl⟩ (by decide +kernel)
  have := h.1 [] _ hn
  revert this
  decide +kernel

/-- **C50.** Nor does the other part: the value for `(bool,)` is `(true)`, which is not a tuple. -/
theorem C50_one_tuple_false : (typeReplacements [] (.tuple [sampleName "bool"])).map pretty =
    words ["(true)", "(false)"] := by decide +kernel

/-- **C50.** The values that the code finds, as they are printed and in their order, are the ones of the
table, with the two rows that are not in the book: every type has exactly one list of values there, and
it is the one that the code finds. -/
theorem C50_values_partial (errs : List Tokens) (t : Ty) (vs : List Text) :
    Values (errs.map pretty) t vs ↔ vs = (typeReplacements errs t).map pretty := by
  constructor
  · exact values_sound errs
  · rintro rfl
    obtain ⟨ws, h⟩ := values_exist (errs.map pretty) t
    rw [values_sound errs h] at h; exact h

/-- **C50.** A function without a return type gets `()`, and so does one that returns `()`. -/
theorem C50_unit (errs : List Tokens) :
    (returnTypeReplacements none errs).map pretty = ["()".toList] ∧
    (returnTypeReplacements (some (.tuple [])) errs).map pretty = ["()".toList] := by
  constructor
  · show [[parens []]].map pretty = _; decide +kernel
  · rw [returnTypeReplacements, typeReplacements, tupleValues]; decide +kernel

/-- **C50.** There is nothing to return for `!`. -/
theorem C50_never (errs : List Tokens) : returnTypeReplacements (some .never) errs = [] := by
  rw [returnTypeReplacements, typeReplacements]

theorem length_choices {α} (l : List (List α)) :
    (choices l).length = (l.map List.length).foldr (· * ·) 1 := by
  induction l with
  | nil => rfl
  | cons xs l ih =>
    show (xs.flatMap fun x => (choices l).map (x :: ·)).length = xs.length * _
    rw [← ih]
    induction xs with
    | nil => simp
    | cons x xs ih2 => rw [List.flatMap_cons, List.length_append, ih2, List.length_map, List.length_cons,
        Nat.add_mul, Nat.one_mul, Nat.add_comm]

/-- How many values a type has, by the number of its parts. -/
def count (errs : List Tokens) (t : Ty) : Nat := (typeReplacements errs t).length

theorem count_eq {errs : List Tokens} {t : Ty} {vs : List Text} (h : Values (errs.map pretty) t vs) :
    count errs t = vs.length := by
  rw [values_sound errs h, List.length_map]; rfl

theorem values_of (errs : List Tokens) (t : Ty) :
    ∃ vs, Values (errs.map pretty) t vs ∧ vs.length = count errs t := by
  obtain ⟨vs, h⟩ := values_exist (errs.map pretty) t
  exact ⟨vs, h, (count_eq h).symm⟩

theorem length_flatMap_const {α β} {f : α → List β} {k : Nat} (h : ∀ x, (f x).length = k) :
    ∀ l : List α, (l.flatMap f).length = l.length * k
  | [] => by simp
  | x :: l => by
    rw [List.flatMap_cons, List.length_append, h, length_flatMap_const h l, List.length_cons, Nat.add_mul,
      Nat.one_mul, Nat.add_comm]

/-- **C50.** The number of values: sums for alternatives, products for combinations. -/
theorem C50_counts (errs : List Tokens) :
    (∀ p args t, LastSegment p "Result".toList args → FirstType args t →
      count errs (.path p) = count errs t + errs.length) ∧
    (∀ p n args t, n ∈ words ["Option", "Vec"] → LastSegment p n args → FirstType args t →
      count errs (.path p) = count errs t + 1) ∧
    (∀ p args t, LastSegment p "Cow".toList args → FirstType args t →
      count errs (.path p) = count errs t * 2) ∧
    (∀ p n t, n ∈ containerNames → LastSegment p n (.angle [.type t]) →
      count errs (.path p) = count errs t) ∧
    (∀ p n t, n ∈ collectionNames → LastSegment p n (.angle [.type t]) →
      count errs (.path p) = count errs t + 1) ∧
    (∀ p n k v, n ∈ mapNames → LastSegment p n (.angle [.type k, .type v]) →
      count errs (.path p) = count errs k * count errs v + 1) ∧
    (∀ p n args t, ¬ Listed p → LastSegment p n args → OneType args t →
      count errs (.path p) = count errs t * 3 + 1) ∧
    (∀ t len, count errs (.array t len) = count errs t) ∧
    (∀ m t, count errs (.reference m (.slice t)) = count errs t + 1) ∧
    (∀ ts, count errs (.tuple ts) = (ts.map (count errs)).foldr (· * ·) 1) := by
  refine ⟨?_, ?_, ?_, ?_, ?_, ?_, ?_, ?_, ?_, ?_⟩
  · intro p args t hl ht
    obtain ⟨vs, hv, e⟩ := values_of errs t
    rw [count_eq (.result hl ht hv), ← e]; simp
  · intro p n args t hn hl ht
    obtain ⟨vs, hv, e⟩ := values_of errs t
    simp only [words, List.map_cons, List.map_nil, List.mem_cons, List.not_mem_nil, or_false] at hn
    rcases hn with rfl | rfl
    · rw [count_eq (.option hl ht hv), ← e]; simp
    · rw [count_eq (.vec hl ht hv), ← e]; simp
  · intro p args t hl ht
    obtain ⟨vs, hv, e⟩ := values_of errs t
    rw [count_eq (.cow hl ht hv), ← e, length_flatMap_const (k := 2)]; intro x; rfl
  · intro p n t hn hl
    obtain ⟨vs, hv, e⟩ := values_of errs t
    rw [count_eq (.container hn hl hv), ← e]; simp
  · intro p n t hn hl
    obtain ⟨vs, hv, e⟩ := values_of errs t
    rw [count_eq (.collection hn hl hv), ← e]; simp
  · intro p n k v hn hl
    obtain ⟨ks, hk, ek⟩ := values_of errs k
    obtain ⟨vs, hv, ev⟩ := values_of errs v
    rw [count_eq (.map hn hl hk hv), ← ek, ← ev, List.length_cons, length_flatMap_const (k := vs.length)]
    intro x; simp
  · intro p n args t hL hl ht
    obtain ⟨vs, hv, e⟩ := values_of errs t
    rw [count_eq (.oneArgument hL hl ht hv), ← e, List.length_cons, length_flatMap_const (k := 3)]; intro x; rfl
  · intro t len
    obtain ⟨vs, hv, e⟩ := values_of errs t
    rw [count_eq (.array hv), ← e]; simp
  · intro m t
    obtain ⟨vs, hv, e⟩ := values_of errs t
    rw [count_eq (.sliceRef hv), ← e]; simp [leaked]
  · intro ts
    show (typeReplacements errs (.tuple ts)).length = _
    rw [typeReplacements, List.length_map, product_choices, length_choices, tupleValues_eq, List.map_map]
    rfl

/-! ### No value twice -/

theorem nodup_map {α β} {f : α → β} {l : List α} (hf : ∀ a ∈ l, ∀ b ∈ l, f a = f b → a = b) (h : l.Nodup) :
    (l.map f).Nodup := by
  unfold List.Nodup at *
  rw [List.pairwise_map]
  exact h.imp_of_mem fun ha hb hab e => hab (hf _ ha _ hb e)

theorem nodup_flatMap {α β} {f : α → List β} {l : List α} (h1 : ∀ a ∈ l, (f a).Nodup)
    (h2 : ∀ a ∈ l, ∀ b ∈ l, ∀ x, x ∈ f a → x ∈ f b → a = b) (h : l.Nodup) : (l.flatMap f).Nodup := by
  unfold List.Nodup at *
  rw [List.pairwise_flatMap]
  exact ⟨h1, h.imp_of_mem fun ha hb hab x hx y hy e => hab (h2 _ ha _ hb x hx (e ▸ hy))⟩

theorem choices_nodup {α} : ∀ {l : List (List α)}, (∀ xs ∈ l, xs.Nodup) → (choices l).Nodup
  | [], _ => by simp [choices]
  | xs :: l, h => by
    show (xs.flatMap fun x => (choices l).map (x :: ·)).Nodup
    refine nodup_flatMap (fun a _ => nodup_map (fun c _ d _ e => (List.cons.inj e).2)
      (choices_nodup fun ys hy => h ys (by simp [hy]))) ?_ (h xs (by simp))
    intro a _ b _ x hx hy
    obtain ⟨c, -, rfl⟩ := List.mem_map.1 hx
    obtain ⟨d, -, e⟩ := List.mem_map.1 hy
    exact (List.cons.inj e).1.symm

theorem choices_length {α} {l : List (List α)} : ∀ c ∈ choices l, c.length = l.length := by
  induction l with
  | nil => intro c hc; simp [choices] at hc; simp [hc]
  | cons xs l ih =>
    intro c hc
    have hc : c ∈ xs.flatMap fun x => (choices l).map (x :: ·) := hc
    obtain ⟨y, -, hc⟩ := List.mem_flatMap.1 hc
    obtain ⟨d, hd, rfl⟩ := List.mem_map.1 hc
    simp [ih d hd]

/-- No comma outside of brackets. -/
def NoComma (ts : Tokens) : Prop := TokenTree.punct ',' ∉ ts

theorem comma_split {a b c d : Tokens} (ha : NoComma a) (hc : NoComma c)
    (h : a ++ .punct ',' :: b = c ++ .punct ',' :: d) : a = c ∧ b = d := by
  induction a generalizing c with
  | nil =>
    cases c with
    | nil => simpa using h
    | cons x c =>
      simp only [List.nil_append, List.cons_append, List.cons.injEq] at h
      exact absurd (h.1 ▸ List.mem_cons_self) hc
  | cons x a ih =>
    cases c with
    | nil =>
      simp only [List.nil_append, List.cons_append, List.cons.injEq] at h
      exact absurd (h.1 ▸ List.mem_cons_self) ha
    | cons y c =>
      simp only [List.cons_append, List.cons.injEq] at h
      obtain ⟨h1, h2⟩ := ih (c := c) (fun hx => ha (List.mem_cons_of_mem _ hx)) (fun hx => hc (List.mem_cons_of_mem _ hx)) h.2
      exact ⟨by rw [h.1, h1], h2⟩

theorem commaSep_inj : ∀ {l m : List Tokens}, l.length = m.length → (∀ v ∈ l, NoComma v) → (∀ v ∈ m, NoComma v) →
    commaSep l = commaSep m → l = m
  | [], [], _, _, _, _ => rfl
  | [], _ :: _, h, _, _, _ => by cases h
  | _ :: _, [], h, _, _, _ => by cases h
  | [a], [b], _, _, _, e => by rw [show a = b from e]
  | [_], _ :: _ :: _, h, _, _, _ => by simp at h
  | _ :: _ :: _, [_], h, _, _, _ => by simp at h
  | a :: a' :: l, b :: b' :: m, h, h1, h2, e => by
    rw [commaSep, commaSep, show a ++ [TokenTree.punct ','] ++ commaSep (a' :: l) = a ++ .punct ',' :: commaSep (a' :: l)
      from by simp, show b ++ [TokenTree.punct ','] ++ commaSep (b' :: m) = b ++ .punct ',' :: commaSep (b' :: m)
      from by simp] at e
    obtain ⟨e1, e2⟩ := comma_split (h1 a (by simp)) (h2 b (by simp)) e
    have := commaSep_inj (l := a' :: l) (m := b' :: m) (by simpa using h) (fun v hv => h1 v (List.mem_cons_of_mem _ hv))
      (fun v hv => h2 v (List.mem_cons_of_mem _ hv)) e2
    rw [e1, this]

theorem noComma_call (n : String) (r : Tokens) : NoComma (qCall n r) := by simp [NoComma, qCall, qi, parens]
theorem noComma_pathCall (t : Text) (n : String) (r : Tokens) : NoComma (qPathCall t n r) := by
  simp [NoComma, qPathCall, colon2, qi, parens]
theorem noComma_vec (r : Tokens) : NoComma (qVec r) := by simp [NoComma, qVec, qi]
theorem noComma_iter (n : String) (r : Tokens) : NoComma (qIter n r) := by
  simp [NoComma, qIter, colon2, qi, parens]

theorem pathCall_inj {t t' : Text} {n m : String} {r r' : Tokens} (h : qPathCall t n r = qPathCall t' m r') :
    n.toList = m.toList ∧ r = r' := by
  simp only [qPathCall, colon2, qi, parens, List.cons_append, List.nil_append, List.cons.injEq,
    TokenTree.ident.injEq, TokenTree.group.injEq, true_and, and_true] at h
  exact ⟨h.2.1, h.2.2⟩

theorem call_inj {n m : String} {r r' : Tokens} (h : qCall n r = qCall m r') : n.toList = m.toList ∧ r = r' := by
  simp only [qCall, qi, parens, List.cons.injEq, TokenTree.ident.injEq, TokenTree.group.injEq, true_and,
    and_true] at h
  exact h

theorem array_inj {r r' : Tokens} (h : qArray r = qArray r') : r = r' := by simpa [qArray] using h
theorem vec_inj {r r' : Tokens} (h : qVec r = qVec r') : r = r' := by simpa [qVec] using h
theorem iter_inj {n m : String} {r r' : Tokens} (h : qIter n r = qIter m r') : n.toList = m.toList ∧ r = r' := by
  simp only [qIter, colon2, qi, parens, List.cons_append, List.nil_append, List.cons.injEq,
    TokenTree.ident.injEq, TokenTree.group.injEq, true_and, and_true] at h
  exact h

/-- What is shown for the values of a type. -/
def Good (reps : List Tokens) : Prop := (∀ v ∈ reps, NoComma v) ∧ (∀ v ∈ reps, v ≠ []) ∧ reps.Nodup

theorem Good.cons_map {a : Tokens} {f : Tokens → Tokens} {reps : List Tokens} (h : Good reps) (ha : NoComma a ∧ a ≠ [])
    (hf : ∀ r, NoComma (f r) ∧ f r ≠ []) (hn : ∀ r ∈ reps, a ≠ f r) (hi : ∀ r ∈ reps, ∀ s ∈ reps, f r = f s → r = s) :
    Good (a :: reps.map f) := by
  refine ⟨?_, ?_, ?_⟩
  · intro v hv
    rcases List.mem_cons.1 hv with rfl | hv
    · exact ha.1
    · obtain ⟨r, -, rfl⟩ := List.mem_map.1 hv; exact (hf r).1
  · intro v hv
    rcases List.mem_cons.1 hv with rfl | hv
    · exact ha.2
    · obtain ⟨r, -, rfl⟩ := List.mem_map.1 hv; exact (hf r).2
  · rw [List.nodup_cons]
    refine ⟨?_, nodup_map hi h.2.2⟩
    intro hm
    obtain ⟨r, hr, e⟩ := List.mem_map.1 hm
    exact hn r hr e.symm

theorem Good.map {f : Tokens → Tokens} {reps : List Tokens} (h : Good reps)
    (hf : ∀ r ∈ reps, NoComma (f r) ∧ f r ≠ []) (hi : ∀ r ∈ reps, ∀ s ∈ reps, f r = f s → r = s) :
    Good (reps.map f) := by
  refine ⟨?_, ?_, nodup_map hi h.2.2⟩
  · intro v hv
    obtain ⟨r, hr, rfl⟩ := List.mem_map.1 hv; exact (hf r hr).1
  · intro v hv
    obtain ⟨r, hr, rfl⟩ := List.mem_map.1 hv; exact (hf r hr).2

theorem Good.slice {reps : List Tokens} (h : Good reps) : Good (sliceReplacements reps) := by
  refine h.cons_map ⟨noComma_pathCall _ _ _, by simp [qLeakVec, qPathCall]⟩
    (fun r => ⟨noComma_pathCall _ _ _, by simp [qLeakVec, qPathCall]⟩) ?_ ?_
  · intro r _ e
    have := (pathCall_inj e).2
    simp [qVec, qPathCall, qi] at this
  · intro r _ s _ e
    exact vec_inj (pathCall_inj e).2

theorem values_good (errs : List Tokens) (he : errs.Nodup) (t : Ty) : Good (typeReplacements errs t) := by
  obtain ⟨vs, h⟩ := values_exist (errs.map pretty) t
  have lits : ∀ {l : List Tokens}, (∀ v ∈ l, NoComma v ∧ v ≠ []) → (l.map pretty).Nodup → Good l := by
    intro l h1 h2
    refine ⟨fun v hv => (h1 v hv).1, fun v hv => (h1 v hv).2, ?_⟩
    unfold List.Nodup at *
    rw [List.pairwise_map] at h2
    exact h2.imp fun hab e => hab (by rw [e])
  have pc : ∀ t n r, NoComma (qPathCall t n r) ∧ qPathCall t n r ≠ [] :=
    fun t n r => ⟨noComma_pathCall t n r, by simp [qPathCall]⟩
  have cl : ∀ n r, NoComma (qCall n r) ∧ qCall n r ≠ [] := fun n r => ⟨noComma_call n r, by simp [qCall]⟩
  induction h with
  | bool hp => rw [path_eq, row_bool (plain_map hp)]; exact lits (by simp [NoComma, qi]) (by decide +kernel)
  | string hp =>
    rw [path_eq, row_string (plain_map hp)]
    exact lits (by simp [NoComma, qi, ql, qPathCall, colon2, parens]) (by decide +kernel)
  | str hp => rw [path_eq, row_str (plain_map hp)]; exact lits (by simp [NoComma, ql]) (by decide +kernel)
  | unsigned hn hp => rw [path_eq, row_unsigned (plain_map hp) hn]; exact lits (by simp [NoComma, ql]) (by decide +kernel)
  | signed hn hp => rw [path_eq, row_signed (plain_map hp) hn]; exact lits (by simp [NoComma, ql]) (by decide +kernel)
  | float hn hp => rw [path_eq, row_float (plain_map hp) hn]; exact lits (by simp [NoComma, ql]) (by decide +kernel)
  | nonzeroSigned hn hl =>
    rw [path_eq, row_nonzeroSigned (lastSegment_map hl) hn]; exact lits (by simp [NoComma, ql]) (by decide +kernel)
  | nonzeroUnsigned hn hl =>
    rw [path_eq, row_nonzeroUnsigned (lastSegment_map hl) hn]; exact lits (by simp [NoComma, ql]) (by decide +kernel)
  | @result p args t vs hl ht _ ih =>
    rw [path_eq, row_result (lastSegment_map hl) (firstType_map ht)]
    have h1 : Good ((typeReplacements errs t).map (qCall "Ok")) :=
      ih.map (fun r _ => cl _ r) fun r _ s _ e => (call_inj e).2
    refine ⟨?_, ?_, ?_⟩
    · intro v hv
      rcases List.mem_append.1 hv with hv | hv
      · exact h1.1 v hv
      · obtain ⟨r, -, rfl⟩ := List.mem_map.1 hv; exact (cl _ r).1
    · intro v hv
      rcases List.mem_append.1 hv with hv | hv
      · exact h1.2.1 v hv
      · obtain ⟨r, -, rfl⟩ := List.mem_map.1 hv; exact (cl _ r).2
    · rw [List.nodup_append]
      refine ⟨h1.2.2, nodup_map (fun r _ s _ e => (call_inj e).2) he, ?_⟩
      intro a ha b hb e
      obtain ⟨r, -, rfl⟩ := List.mem_map.1 ha
      obtain ⟨s, -, rfl⟩ := List.mem_map.1 hb
      exact absurd (call_inj e).1 (by decide)
  | bareResult hl ht =>
    rw [path_eq, row_bareResult (lastSegment_map hl) fun t h => by obtain ⟨u, hu⟩ := firstType_of_map h; exact ht u hu]
    refine ⟨?_, ?_, ?_⟩
    · intro v hv
      rcases List.mem_cons.1 hv with rfl | hv
      · exact (cl _ _).1
      · obtain ⟨r, -, rfl⟩ := List.mem_map.1 hv; exact (cl _ r).1
    · intro v hv
      rcases List.mem_cons.1 hv with rfl | hv
      · exact (cl _ _).2
      · obtain ⟨r, -, rfl⟩ := List.mem_map.1 hv; exact (cl _ r).2
    · rw [List.nodup_cons]
      refine ⟨?_, nodup_map (fun r _ s _ e => (call_inj e).2) he⟩
      intro hm
      obtain ⟨r, -, e⟩ := List.mem_map.1 hm
      exact absurd (call_inj e).1 (by decide)
  | httpResponse hl =>
    rw [path_eq, row_httpResponse (lastSegment_map hl)]
    exact lits (by simp [NoComma, qPathCall, colon2, qi, parens]) (by decide +kernel)
  | option hl ht _ ih =>
    rw [path_eq, row_option (lastSegment_map hl) (firstType_map ht)]
    exact ih.cons_map (by simp [NoComma, qi]) (fun r => cl _ r) (fun r _ e => by simp [qCall] at e)
      fun r _ s _ e => (call_inj e).2
  | vec hl ht _ ih =>
    rw [path_eq, row_vec (lastSegment_map hl) (firstType_map ht)]
    exact ih.cons_map ⟨noComma_vec _, by simp [qVec]⟩ (fun r => ⟨noComma_vec r, by simp [qVec]⟩)
      (fun r hr e => ih.2.1 r hr (vec_inj e).symm) fun r _ s _ e => vec_inj e
  | cow hl ht _ ih =>
    rw [path_eq, row_cow (lastSegment_map hl) (firstType_map ht)]
    refine ⟨?_, ?_, nodup_flatMap ?_ ?_ ih.2.2⟩
    · intro v hv
      obtain ⟨r, -, hv⟩ := List.mem_flatMap.1 hv
      simp only [List.mem_cons, List.not_mem_nil, or_false] at hv
      rcases hv with rfl | rfl <;> exact (pc _ _ _).1
    · intro v hv
      obtain ⟨r, -, hv⟩ := List.mem_flatMap.1 hv
      simp only [List.mem_cons, List.not_mem_nil, or_false] at hv
      rcases hv with rfl | rfl <;> exact (pc _ _ _).2
    · intro r _
      rw [List.nodup_cons, List.mem_singleton]
      exact ⟨fun e => absurd (pathCall_inj e).1 (by decide), by simp⟩
    · intro r _ s _ x hx hy
      simp only [List.mem_cons, List.not_mem_nil, or_false] at hx hy
      rcases hx with rfl | rfl <;> rcases hy with e | e
      · exact (pathCall_inj e).2
      · exact absurd (pathCall_inj e).1 (by decide)
      · exact absurd (pathCall_inj e).1 (by decide)
      · exact List.append_cancel_right (pathCall_inj e).2
  | container hn hl _ ih =>
    rw [path_eq, row_container hn (lastSegment_map hl)]
    exact ih.map (fun r _ => pc _ _ r) fun r _ s _ e => (pathCall_inj e).2
  | collection hn hl _ ih =>
    rw [path_eq, row_collection hn (lastSegment_map hl)]
    exact ih.cons_map (pc _ _ _) (fun r => pc _ _ _) (fun r _ e => absurd (pathCall_inj e).1 (by decide))
      fun r _ s _ e => array_inj (pathCall_inj e).2
  | map hn hl _ _ ih1 ih2 =>
    rw [path_eq, row_map hn (lastSegment_map hl)]
    have inj : ∀ {k k' v v' : Tokens} {n}, NoComma k → NoComma k' →
        qPathCall n "from_iter" (qArray [parens (k ++ [.punct ','] ++ v)]) =
        qPathCall n "from_iter" (qArray [parens (k' ++ [.punct ','] ++ v')]) → k = k' ∧ v = v' := by
      intro k k' v v' n hk hk' e
      have e := array_inj (pathCall_inj e).2
      simp only [parens, List.cons.injEq, TokenTree.group.injEq, true_and, and_true, List.append_assoc,
        List.singleton_append] at e
      exact comma_split hk hk' e
    refine ⟨?_, ?_, ?_⟩
    · intro v hv
      rcases List.mem_cons.1 hv with rfl | hv
      · exact (pc _ _ _).1
      · obtain ⟨r, -, hv⟩ := List.mem_flatMap.1 hv
        obtain ⟨r, -, rfl⟩ := List.mem_map.1 hv; exact (pc _ _ _).1
    · intro v hv
      rcases List.mem_cons.1 hv with rfl | hv
      · exact (pc _ _ _).2
      · obtain ⟨r, -, hv⟩ := List.mem_flatMap.1 hv
        obtain ⟨r, -, rfl⟩ := List.mem_map.1 hv; exact (pc _ _ _).2
    · rw [List.nodup_cons]
      refine ⟨?_, nodup_flatMap ?_ ?_ ih1.2.2⟩
      · intro hm
        obtain ⟨r, -, hm⟩ := List.mem_flatMap.1 hm
        obtain ⟨s, -, e⟩ := List.mem_map.1 hm
        exact absurd (pathCall_inj e).1 (by decide)
      · intro k hk
        exact nodup_map (fun v _ w _ e => (inj (ih1.1 k hk) (ih1.1 k hk) e).2) ih2.2.2
      · intro k hk k' hk' x hx hy
        obtain ⟨v, -, rfl⟩ := List.mem_map.1 hx
        obtain ⟨w, -, e⟩ := List.mem_map.1 hy
        exact (inj (ih1.1 k' hk') (ih1.1 k hk) e).1.symm
  | oneArgument hL hl ht _ ih =>
    rw [path_eq, row_one (fun h => hL (listed_of_map h)) (lastSegment_map hl) (oneType_map ht)]
    have hm : ∀ {n : Text} {r v : Tokens}, v ∈ [qPathCall n "from_iter" (qArray r), qPathCall n "new" r, qPathCall n "from" r] →
        v = qPathCall n "from_iter" (qArray r) ∨ v = qPathCall n "new" r ∨ v = qPathCall n "from" r := by
      intro n r v hv
      simpa only [List.mem_cons, List.not_mem_nil, or_false] using hv
    refine ⟨?_, ?_, ?_⟩
    · intro v hv
      rcases List.mem_cons.1 hv with rfl | hv
      · exact (pc _ _ _).1
      · obtain ⟨r, -, hv⟩ := List.mem_flatMap.1 hv
        rcases hm hv with rfl | rfl | rfl <;> exact (pc _ _ _).1
    · intro v hv
      rcases List.mem_cons.1 hv with rfl | hv
      · exact (pc _ _ _).2
      · obtain ⟨r, -, hv⟩ := List.mem_flatMap.1 hv
        rcases hm hv with rfl | rfl | rfl <;> exact (pc _ _ _).2
    · rw [List.nodup_cons]
      refine ⟨?_, nodup_flatMap ?_ ?_ ih.2.2⟩
      · intro h
        obtain ⟨r, hr, hv⟩ := List.mem_flatMap.1 h
        rcases hm hv with e | e | e
        · exact absurd (pathCall_inj e).1 (by decide)
        · exact ih.2.1 r hr (pathCall_inj e).2.symm
        · exact absurd (pathCall_inj e).1 (by decide)
      · intro r _
        refine List.nodup_cons.2 ⟨?_, List.nodup_cons.2 ⟨?_, by simp⟩⟩
        · intro h
          simp only [List.mem_cons, List.not_mem_nil, or_false] at h
          rcases h with e | e <;> exact absurd (pathCall_inj e).1 (by decide)
        · intro h
          rw [List.mem_singleton] at h; exact absurd (pathCall_inj h).1 (by decide)
      · intro r _ s _ x hx hy
        rcases hm hx with rfl | rfl | rfl <;> rcases hm hy with e | e | e <;>
          first
          | exact absurd (pathCall_inj e).1 (by decide)
          | exact array_inj (pathCall_inj e).2
          | exact (pathCall_inj e).2
  | default hL hl =>
    rw [path_eq, row_default (fun h => hL (listed_of_map h)) fun n a t h1 h2 => by
      obtain ⟨args, u, h3, h4⟩ := oneType_of_map h1 h2; exact hl _ _ _ h3 h4]
    exact lits (by simp [NoComma, qDefault, colon2, qi, parens]) (by decide +kernel)
  | array _ ih =>
    rw [typeReplacements]
    exact ih.map (fun r _ => by simp [NoComma, qArray]) fun r _ s _ e =>
      List.append_cancel_right (List.append_cancel_right (array_inj e))
  | slice _ ih => rw [typeReplacements]; exact ih.slice
  | @sliceRef m t vs _ ih =>
    have e : typeReplacements errs (.reference m (.slice t)) = sliceReplacements (typeReplacements errs t) := by
      cases m <;> rfl
    rw [e]; exact ih.slice
  | strRef hp =>
    rw [typeReplacements, if_pos (isIdent_iff.2 hp)]; exact lits (by simp [NoComma, ql]) (by decide +kernel)
  | @ref t vs hs hp _ ih =>
    have e : typeReplacements errs (.reference false t) =
        (typeReplacements errs t).map fun rep => .punct '&' :: rep := by
      cases t with
      | path p =>
        show (if p.isIdent "str".toList then _ else _) = _
        rw [if_neg fun h => hp p rfl (isIdent_iff.1 h)]
      | slice e => exact absurd rfl (hs e)
      | _ => rfl
    rw [e]
    refine ih.map (fun r hr => ⟨?_, by simp⟩) fun r _ s _ e => (List.cons.inj e).2
    have := ih.1 r hr
    unfold NoComma at *
    simpa using this
  | @mutRef t vs hs _ ih =>
    have e : typeReplacements errs (.reference true t) = (typeReplacements errs t).map fun rep =>
        qPathCall "Box".toList "leak" (qPathCall "Box".toList "new" rep) := by
      cases t with
      | slice e => exact absurd rfl (hs e)
      | _ => rfl
    rw [e]
    exact ih.map (fun r _ => pc _ _ _) fun r _ s _ e => (pathCall_inj (pathCall_inj e).2).2
  | @tuple ts vss hl _ ih =>
    have good : ∀ t ∈ ts, Good (typeReplacements errs t) := by
      intro t ht
      obtain ⟨i, hi, rfl⟩ := List.mem_iff_getElem.1 ht
      exact ih i ts[i] vss[i] (List.getElem?_eq_getElem hi) (List.getElem?_eq_getElem (by rw [hl]; exact hi))
    rw [typeReplacements, tupleValues_eq, product_choices]
    refine ⟨?_, ?_, nodup_map ?_ (choices_nodup ?_)⟩
    · intro v hv; obtain ⟨r, -, rfl⟩ := List.mem_map.1 hv; simp [NoComma, parens]
    · intro v hv; obtain ⟨r, -, rfl⟩ := List.mem_map.1 hv; simp
    · have nc : ∀ c ∈ choices (ts.map (typeReplacements errs)), ∀ v ∈ c, NoComma v := by
        intro c hc v hv
        obtain ⟨xs, hxs, hx⟩ := mem_choices hc v hv
        obtain ⟨t, ht, rfl⟩ := List.mem_map.1 hxs
        exact (good t ht).1 v hx
      intro c hc d hd e
      refine commaSep_inj (by rw [choices_length c hc, choices_length d hd]) (nc c hc) (nc d hd) ?_
      simpa [parens] using e
    · intro xs hxs
      obtain ⟨t, ht, rfl⟩ := List.mem_map.1 hxs
      exact (good t ht).2.2
  | implIterator hb ha _ ih =>
    rw [typeReplacements, boundsValues_eq, matchImpl_map, matchImpl_some.2 ⟨_, _, _, rfl, hb, ha⟩]
    exact ih.cons_map ⟨noComma_iter _ _, by simp [qIter, colon2]⟩ (fun r => ⟨noComma_iter _ _, by simp [qIter, colon2]⟩)
      (fun r _ e => absurd (iter_inj e).1 (by decide)) fun r _ s _ e => (iter_inj e).2
  | implOther hb =>
    rw [typeReplacements, boundsValues_eq, matchImpl_map, matchImpl_none.2 hb]; simp [Good]
  | never => rw [typeReplacements]; simp [Good]
  | other => rw [typeReplacements]; exact lits (by simp [NoComma, qDefault, colon2, qi, parens]) (by decide +kernel)

/-- **C50.** No value is generated twice for a type, if the configured errors are different. -/
theorem C50_distinct (errs : List Tokens) (he : errs.Nodup) (t : Ty) : (typeReplacements errs t).Nodup :=
  (values_good errs he t).2.2

/-- `Result<Option<bool>, (u8, HashMap<i8, &[String]>)>` with the error `anyhow!("mutated")` -/
example : (typeReplacements [[qi "anyhow", .punct '!', parens [ql "\"mutated\""]]]
      (sampleGeneric "Result" [.type (sampleGeneric "Option" [.type (sampleName "bool")]),
        .type (sampleName "Error")])).map pretty =
    words ["Ok(None)", "Ok(Some(true))", "Ok(Some(false))", "Err(anyhow!(\"mutated\"))"] := by decide +kernel
example : (typeReplacements [] (.tuple [sampleName "u8", sampleGeneric "HashMap" [.type (sampleName "u8"),
      .type (.reference false (.slice (sampleName "NonZeroU8")))]])).map pretty =
    words ["(0, HashMap::new())", "(0, HashMap::from_iter([(0, Vec::leak(Vec::new()))]))",
      "(0, HashMap::from_iter([(0, Vec::leak(vec![1]))]))", "(0, HashMap::from_iter([(1, Vec::leak(Vec::new()))]))",
      "(0, HashMap::from_iter([(1, Vec::leak(vec![1]))]))",
      "(1, HashMap::new())", "(1, HashMap::from_iter([(0, Vec::leak(Vec::new()))]))",
      "(1, HashMap::from_iter([(0, Vec::leak(vec![1]))]))", "(1, HashMap::from_iter([(1, Vec::leak(Vec::new()))]))",
      "(1, HashMap::from_iter([(1, Vec::leak(vec![1]))]))"] := by decide +kernel
example : ¬ Listed (⟨false, [⟨"Foo".toList, .angle [.type (sampleName "bool")]⟩]⟩ : SynPath Ty) :=
  not_listed_of (n := "Foo".toList) ⟨[], rfl⟩ (by decide +kernel)

end CM.Props
