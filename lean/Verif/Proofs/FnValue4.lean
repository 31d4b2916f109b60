import Verif.Proofs.FnValue3
/-! The code picks the row of the table. -/
namespace CM.Props
open CM CM.Spec

section
variable {α β : Type} {p : SynPath α} {n : Text} {args : PathArgs α} {f : α → β}

theorem lastSegment_map (h : LastSegment p n args) : LastSegment (p.map f) n (args.map f) := by
  rw [lastSegment_iff] at *
  rw [getLast_map, h]; rfl

theorem isIdent_ne (h : LastSegment p n args) {x : Text} (hx : n ≠ x) : p.isIdent x = false := by
  rw [Bool.eq_false_iff]; intro hi
  exact hx (last_unique h (plain_last (isIdent_iff.1 hi))).1

theorem endsWith_ne (h : LastSegment p n args) {x : Text} (hx : n ≠ x) : p.endsWith x = false := by
  rw [Bool.eq_false_iff]; intro hi
  obtain ⟨a, ha⟩ := endsWith_iff.1 hi
  exact hx (last_unique h ha).1

theorem endsWith_self (h : LastSegment p n args) : p.endsWith n = true := endsWith_iff.2 ⟨_, h⟩

theorem first_ne (h : LastSegment p n args) {x : Text} (hx : n ≠ x) : matchFirstTypeArg p x = none := by
  cases hm : matchFirstTypeArg p x with
  | none => rfl
  | some t => obtain ⟨a, ha, -⟩ := matchFirstTypeArg_iff.1 hm; exact absurd (last_unique h ha).1 hx

theorem anyIdent_ne (h : LastSegment p n args) {l : List String} (hl : n ∉ words l) :
    (l.any fun s => p.isIdent s.toList) = false := by
  rw [Bool.eq_false_iff]; intro hi
  obtain ⟨x, hx, hp⟩ := anyIdent_iff.1 hi
  exact hl ((last_unique h (plain_last hp)).1 ▸ hx)

theorem anyEnds_ne (h : LastSegment p n args) {l : List String} (hl : n ∉ words l) :
    (l.any fun s => p.endsWith s.toList) = false := by
  rw [Bool.eq_false_iff]; intro hi
  obtain ⟨x, hx, a, hp⟩ := anyEnds_iff.1 hi
  exact hl ((last_unique h hp).1 ▸ hx)

theorem container_ne (h : LastSegment p n args) (hl : n ∉ containerNames) : knownContainer p = none := by
  cases hm : knownContainer p with
  | none => rfl
  | some t => obtain ⟨c, t⟩ := t; have := knownContainer_iff.1 hm; exact absurd this.1 ((last_unique h this.2).1 ▸ hl)

theorem collection_ne (h : LastSegment p n args) (hl : n ∉ collectionNames) : knownCollection p = none := by
  cases hm : knownCollection p with
  | none => rfl
  | some t => obtain ⟨c, t⟩ := t; have := knownCollection_iff.1 hm; exact absurd this.1 ((last_unique h this.2).1 ▸ hl)

/-- No row of plain names, fixed names, or names before `k` in the order of the code. -/
theorem not_listed_conditions (h : ¬ Listed p) :
    (∀ x ∈ words ["bool", "String", "str"], p.isIdent x = false) ∧ isUnsigned p = false ∧ isSigned p = false ∧
    isNonzeroSigned p = false ∧ isNonzeroUnsigned p = false ∧ isFloat p = false ∧
    (∀ x ∈ words ["Result", "HttpResponse"], p.endsWith x = false) ∧
    (∀ x ∈ words ["Option", "Vec", "Cow"], matchFirstTypeArg p x = none) ∧ knownContainer p = none ∧
    knownCollection p = none ∧ knownMap p = none := by
  refine ⟨?_, ?_, ?_, ?_, ?_, ?_, ?_, ?_, ?_, ?_, ?_⟩
  · intro x hx; rw [Bool.eq_false_iff]; intro hi
    exact h (.plain (by simp only [List.append_assoc]; exact List.mem_append_left _ hx) (isIdent_iff.1 hi))
  · rw [Bool.eq_false_iff]; intro hi
    obtain ⟨x, hx, hp⟩ := anyIdent_iff.1 hi
    exact h (.plain (List.mem_append_left _ (List.mem_append_left _ (List.mem_append_right _ hx))) hp)
  · rw [Bool.eq_false_iff]; intro hi
    obtain ⟨x, hx, hp⟩ := anyIdent_iff.1 hi
    exact h (.plain (List.mem_append_left _ (List.mem_append_right _ hx)) hp)
  · rw [Bool.eq_false_iff]; intro hi
    obtain ⟨x, hx, a, hp⟩ := anyEnds_iff.1 hi
    exact h (.named (List.mem_append_left _ (List.mem_append_right _ hx)) hp)
  · rw [Bool.eq_false_iff]; intro hi
    obtain ⟨x, hx, a, hp⟩ := anyEnds_iff.1 hi
    exact h (.named (List.mem_append_right _ hx) hp)
  · rw [Bool.eq_false_iff]; intro hi
    obtain ⟨x, hx, hp⟩ := anyIdent_iff.1 hi
    exact h (.plain (List.mem_append_right _ hx) hp)
  · intro x hx; rw [Bool.eq_false_iff]; intro hi
    obtain ⟨a, hp⟩ := endsWith_iff.1 hi
    exact h (.named (by simp only [List.append_assoc]; exact List.mem_append_left _ hx) hp)
  · intro x hx
    cases hm : matchFirstTypeArg p x with
    | none => rfl
    | some t => obtain ⟨a, ha, ht⟩ := matchFirstTypeArg_iff.1 hm; exact absurd (.firstType hx ha ht) h
  · cases hm : knownContainer p with
    | none => rfl
    | some t =>
      obtain ⟨c, t⟩ := t; have := knownContainer_iff.1 hm
      exact absurd (.onlyType (List.mem_append_left _ this.1) this.2) h
  · cases hm : knownCollection p with
    | none => rfl
    | some t =>
      obtain ⟨c, t⟩ := t; have := knownCollection_iff.1 hm
      exact absurd (.onlyType (List.mem_append_right _ this.1) this.2) h
  · cases hm : knownMap p with
    | none => rfl
    | some t =>
      obtain ⟨c, k, v⟩ := t; have := knownMap_iff.1 hm
      exact absurd (.map this.1 this.2) h

end

section
variable {errs : List Tokens} {p : SynPath (List Tokens)} {n : Text} {args : PathArgs (List Tokens)}
  {reps keys vals : List Tokens}

/-- The rest of `pathReplacements`, from `Option` on. -/
def pathTail (p : SynPath (List Tokens)) : List Tokens :=
  match matchFirstTypeArg p "Option".toList with
  | some reps => [qi "None"] :: reps.map (qCall "Some")
  | none =>
  match matchFirstTypeArg p "Vec".toList with
  | some reps => qVec [] :: reps.map qVec
  | none =>
  match matchFirstTypeArg p "Cow".toList with
  | some reps => reps.flatMap fun rep =>
      [qPathCall "Cow".toList "Borrowed" rep,
       qPathCall "Cow".toList "Owned" (rep ++ [.punct '.', qi "to_owned", parens []])]
  | none =>
  match knownContainer p with
  | some (c, reps) => reps.map (qPathCall c "new")
  | none =>
  match knownCollection p with
  | some (c, reps) => qPathCall c "new" [] :: reps.map fun rep => qPathCall c "from_iter" (qArray rep)
  | none =>
  match knownMap p with
  | some (c, keys, vals) => qPathCall c "new" [] :: keys.flatMap fun k => vals.map fun v =>
      qPathCall c "from_iter" (qArray [parens (k ++ [.punct ','] ++ v)])
  | none =>
  match maybeCollectionOrContainer p with
  | some (c, reps) => qPathCall c "new" [] :: reps.flatMap fun rep =>
      [qPathCall c "from_iter" (qArray rep), qPathCall c "new" rep, qPathCall c "from" rep]
  | none => [qDefault]

/-- Skip the rows of plain names. -/
theorem skip_plain (h : LastSegment p n args) (hn : n ∉ words ["bool", "String", "str"] ++ unsignedNames ++
    signedNames ++ floatNames) :
    p.isIdent "bool".toList = false ∧ p.isIdent "String".toList = false ∧ p.isIdent "str".toList = false ∧
    isUnsigned p = false ∧ isSigned p = false ∧ isFloat p = false := by
  simp only [List.mem_append, not_or] at hn
  obtain ⟨⟨⟨h1, h2⟩, h3⟩, h4⟩ := hn
  have k : ∀ x ∈ words ["bool", "String", "str"], p.isIdent x = false := by
    intro x hx
    exact isIdent_ne h fun e => h1 (e ▸ hx)
  exact ⟨k _ (by decide), k _ (by decide), k _ (by decide), anyIdent_ne h h2, anyIdent_ne h h3, anyIdent_ne h h4⟩

abbrev plainNames := words ["bool", "String", "str"] ++ unsignedNames ++ signedNames ++ floatNames

theorem row_bool (h : Plain p "bool".toList) : pathReplacements errs p = [[qi "true"], [qi "false"]] := by
  rw [pathReplacements, isIdent_iff.2 h]; rfl

theorem row_string (h : Plain p "String".toList) : pathReplacements errs p =
    [qPathCall "String".toList "new" [], [ql "\"xyzzy\"", .punct '.', qi "into", parens []]] := by
  rw [pathReplacements, isIdent_ne (plain_last h) (by decide), isIdent_iff.2 h]; rfl

theorem row_str (h : Plain p "str".toList) : pathReplacements errs p = [[ql "\"\""], [ql "\"xyzzy\""]] := by
  rw [pathReplacements, isIdent_ne (plain_last h) (x := "bool".toList) (by decide),
    isIdent_ne (plain_last h) (x := "String".toList) (by decide), isIdent_iff.2 h]; rfl

theorem skip_three (h : LastSegment p n args) (hn : n ∉ words ["bool", "String", "str"]) :
    p.isIdent "bool".toList = false ∧ p.isIdent "String".toList = false ∧ p.isIdent "str".toList = false := by
  have k : ∀ x ∈ words ["bool", "String", "str"], p.isIdent x = false := by
    intro x hx
    exact isIdent_ne h fun e => hn (e ▸ hx)
  exact ⟨k _ (by decide), k _ (by decide), k _ (by decide)⟩

theorem row_unsigned (h : Plain p n) (hn : n ∈ unsignedNames) : pathReplacements errs p = [[ql "0"], [ql "1"]] := by
  obtain ⟨h1, h2, h3⟩ := skip_three (plain_last h)
    ((by decide +kernel : ∀ n ∈ unsignedNames, n ∉ words ["bool", "String", "str"]) n hn)
  have h4 : isUnsigned p = true := anyIdent_iff.2 ⟨n, hn, h⟩
  rw [pathReplacements, h1, h2, h3, h4]; rfl

theorem row_signed (h : Plain p n) (hn : n ∈ signedNames) :
    pathReplacements errs p = [[ql "0"], [ql "1"], [.punct '-', ql "1"]] := by
  obtain ⟨h1, h2, h3⟩ := skip_three (plain_last h)
    ((by decide +kernel : ∀ n ∈ signedNames, n ∉ words ["bool", "String", "str"]) n hn)
  have h4 : isUnsigned p = false :=
    anyIdent_ne (plain_last h) ((by decide +kernel : ∀ n ∈ signedNames, n ∉ unsignedNames) n hn)
  have h5 : isSigned p = true := anyIdent_iff.2 ⟨n, hn, h⟩
  rw [pathReplacements, h1, h2, h3, h4, h5]; rfl

theorem row_float (h : Plain p n) (hn : n ∈ floatNames) :
    pathReplacements errs p = [[ql "0.0"], [ql "1.0"], [.punct '-', ql "1.0"]] := by
  obtain ⟨h1, h2, h3⟩ := skip_three (plain_last h)
    ((by decide +kernel : ∀ n ∈ floatNames, n ∉ words ["bool", "String", "str"]) n hn)
  have h4 : isUnsigned p = false :=
    anyIdent_ne (plain_last h) ((by decide +kernel : ∀ n ∈ floatNames, n ∉ unsignedNames) n hn)
  have h5 : isSigned p = false :=
    anyIdent_ne (plain_last h) ((by decide +kernel : ∀ n ∈ floatNames, n ∉ signedNames) n hn)
  have h6 : isNonzeroSigned p = false :=
    anyEnds_ne (plain_last h) ((by decide +kernel : ∀ n ∈ floatNames, n ∉ nonzeroSignedNames) n hn)
  have h7 : isNonzeroUnsigned p = false :=
    anyEnds_ne (plain_last h) ((by decide +kernel : ∀ n ∈ floatNames, n ∉ nonzeroUnsignedNames) n hn)
  have h8 : isFloat p = true := anyIdent_iff.2 ⟨n, hn, h⟩
  rw [pathReplacements, h1, h2, h3, h4, h5, h6, h7, h8]; rfl

theorem row_nonzeroSigned (h : LastSegment p n args) (hn : n ∈ nonzeroSignedNames) :
    pathReplacements errs p = [[ql "1"], [.punct '-', ql "1"]] := by
  obtain ⟨h1, h2, h3, h4, h5, h6⟩ := skip_plain h
    ((by decide +kernel : ∀ n ∈ nonzeroSignedNames, n ∉ plainNames) n hn)
  have h7 : isNonzeroSigned p = true := anyEnds_iff.2 ⟨n, hn, _, h⟩
  rw [pathReplacements, h1, h2, h3, h4, h5, h7]; rfl

theorem row_nonzeroUnsigned (h : LastSegment p n args) (hn : n ∈ nonzeroUnsignedNames) :
    pathReplacements errs p = [[ql "1"]] := by
  obtain ⟨h1, h2, h3, h4, h5, h6⟩ := skip_plain h
    ((by decide +kernel : ∀ n ∈ nonzeroUnsignedNames, n ∉ plainNames) n hn)
  have h7 : isNonzeroSigned p = false :=
    anyEnds_ne h ((by decide +kernel : ∀ n ∈ nonzeroUnsignedNames, n ∉ nonzeroSignedNames) n hn)
  have h8 : isNonzeroUnsigned p = true := anyEnds_iff.2 ⟨n, hn, _, h⟩
  rw [pathReplacements, h1, h2, h3, h4, h5, h7, h8]; rfl

/-- Skip all rows up to `Result`. -/
theorem skip_numbers (h : LastSegment p n args)
    (hn : n ∉ plainNames ++ nonzeroSignedNames ++ nonzeroUnsignedNames) :
    pathReplacements errs p =
      if p.endsWith "Result".toList then
        (match matchFirstTypeArg p "Result".toList with
         | some ok => ok.map (qCall "Ok")
         | none => [qCall "Ok" qDefault]) ++ errs.map (qCall "Err")
      else if p.endsWith "HttpResponse".toList then
        [qPathCall "HttpResponse".toList "Ok" [] ++ [.punct '.', qi "finish", parens []]]
      else pathTail p := by
  simp only [List.mem_append (s := plainNames ++ nonzeroSignedNames), List.mem_append (s := plainNames), not_or] at hn
  obtain ⟨⟨k1, k2⟩, k3⟩ := hn
  obtain ⟨h1, h2, h3, h4, h5, h6⟩ := skip_plain h k1
  have h7 : isNonzeroSigned p = false := anyEnds_ne h k2
  have h8 : isNonzeroUnsigned p = false := anyEnds_ne h k3
  rw [pathReplacements, h1, h2, h3, h4, h5, h7, h8, h6]; rfl

theorem row_result (h : LastSegment p "Result".toList args) (ht : FirstType args reps) :
    pathReplacements errs p = reps.map (qCall "Ok") ++ errs.map (qCall "Err") := by
  rw [skip_numbers h (by decide +kernel), endsWith_self h, matchFirstTypeArg_iff.2 ⟨_, h, ht⟩]; rfl

theorem row_bareResult (h : LastSegment p "Result".toList args) (ht : ∀ t, ¬ FirstType args t) :
    pathReplacements errs p = qCall "Ok" qDefault :: errs.map (qCall "Err") := by
  have : matchFirstTypeArg p "Result".toList = none := by
    cases hm : matchFirstTypeArg p "Result".toList with
    | none => rfl
    | some t =>
      obtain ⟨a, ha, hf⟩ := matchFirstTypeArg_iff.1 hm
      exact absurd ((last_unique h ha).2 ▸ hf) (ht t)
  rw [skip_numbers h (by decide +kernel), endsWith_self h, this]; rfl

theorem row_httpResponse (h : LastSegment p "HttpResponse".toList args) :
    pathReplacements errs p = [qPathCall "HttpResponse".toList "Ok" [] ++ [.punct '.', qi "finish", parens []]] := by
  rw [skip_numbers h (by decide +kernel), endsWith_ne h (by decide), endsWith_self h]; rfl

theorem skip_fixed (h : LastSegment p n args)
    (hn : n ∉ plainNames ++ nonzeroSignedNames ++ nonzeroUnsignedNames ++ words ["Result", "HttpResponse"]) :
    pathReplacements errs p = pathTail p := by
  rw [List.mem_append, not_or] at hn
  have h1 : p.endsWith "Result".toList = false := endsWith_ne h fun e => hn.2 (by rw [e]; decide)
  have h2 : p.endsWith "HttpResponse".toList = false := endsWith_ne h fun e => hn.2 (by rw [e]; decide)
  rw [skip_numbers h hn.1, h1, h2]; rfl

theorem row_option (h : LastSegment p "Option".toList args) (ht : FirstType args reps) :
    pathReplacements errs p = [qi "None"] :: reps.map (qCall "Some") := by
  rw [skip_fixed h (by decide +kernel), pathTail, matchFirstTypeArg_iff.2 ⟨_, h, ht⟩]

theorem row_vec (h : LastSegment p "Vec".toList args) (ht : FirstType args reps) :
    pathReplacements errs p = qVec [] :: reps.map qVec := by
  rw [skip_fixed h (by decide +kernel), pathTail, first_ne h (by decide), matchFirstTypeArg_iff.2 ⟨_, h, ht⟩]

theorem row_cow (h : LastSegment p "Cow".toList args) (ht : FirstType args reps) :
    pathReplacements errs p = reps.flatMap fun rep =>
      [qPathCall "Cow".toList "Borrowed" rep,
       qPathCall "Cow".toList "Owned" (rep ++ [.punct '.', qi "to_owned", parens []])] := by
  rw [skip_fixed h (by decide +kernel), pathTail, first_ne h (x := "Option".toList) (by decide),
    first_ne h (x := "Vec".toList) (by decide), matchFirstTypeArg_iff.2 ⟨_, h, ht⟩]

theorem skip_first (h : LastSegment p n args)
    (hn : n ∉ plainNames ++ nonzeroSignedNames ++ nonzeroUnsignedNames ++ words ["Result", "HttpResponse"] ++
      words ["Option", "Vec", "Cow"]) :
    pathReplacements errs p = pathTail p ∧
    matchFirstTypeArg p "Option".toList = none ∧ matchFirstTypeArg p "Vec".toList = none ∧
    matchFirstTypeArg p "Cow".toList = none := by
  rw [List.mem_append, not_or] at hn
  have k : ∀ x ∈ words ["Option", "Vec", "Cow"], matchFirstTypeArg p x = none :=
    fun x hx => first_ne h fun e => hn.2 (e ▸ hx)
  exact ⟨skip_fixed h hn.1, k _ (by decide), k _ (by decide), k _ (by decide)⟩

theorem row_container (hn : n ∈ containerNames) (h : LastSegment p n (.angle [.type reps])) :
    pathReplacements errs p = reps.map (qPathCall n "new") := by
  obtain ⟨h1, h2, h3, h4⟩ := skip_first (errs := errs) h
    ((by decide +kernel : ∀ n ∈ containerNames, n ∉ plainNames ++ nonzeroSignedNames ++ nonzeroUnsignedNames ++
      words ["Result", "HttpResponse"] ++ words ["Option", "Vec", "Cow"]) n hn)
  rw [h1, pathTail, h2, h3, h4, knownContainer_iff.2 ⟨hn, h⟩]

theorem row_collection (hn : n ∈ collectionNames) (h : LastSegment p n (.angle [.type reps])) :
    pathReplacements errs p = qPathCall n "new" [] :: reps.map fun rep => qPathCall n "from_iter" (qArray rep) := by
  obtain ⟨h1, h2, h3, h4⟩ := skip_first (errs := errs) h
    ((by decide +kernel : ∀ n ∈ collectionNames, n ∉ plainNames ++ nonzeroSignedNames ++ nonzeroUnsignedNames ++
      words ["Result", "HttpResponse"] ++ words ["Option", "Vec", "Cow"]) n hn)
  rw [h1, pathTail, h2, h3, h4,
    container_ne h ((by decide +kernel : ∀ n ∈ collectionNames, n ∉ containerNames) n hn),
    knownCollection_iff.2 ⟨hn, h⟩]

theorem row_map (hn : n ∈ mapNames) (h : LastSegment p n (.angle [.type keys, .type vals])) :
    pathReplacements errs p = qPathCall n "new" [] :: keys.flatMap fun k => vals.map fun v =>
      qPathCall n "from_iter" (qArray [parens (k ++ [.punct ','] ++ v)]) := by
  obtain ⟨h1, h2, h3, h4⟩ := skip_first (errs := errs) h
    ((by decide +kernel : ∀ n ∈ mapNames, n ∉ plainNames ++ nonzeroSignedNames ++ nonzeroUnsignedNames ++
      words ["Result", "HttpResponse"] ++ words ["Option", "Vec", "Cow"]) n hn)
  rw [h1, pathTail, h2, h3, h4,
    container_ne h ((by decide +kernel : ∀ n ∈ mapNames, n ∉ containerNames) n hn),
    collection_ne h ((by decide +kernel : ∀ n ∈ mapNames, n ∉ collectionNames) n hn),
    knownMap_iff.2 ⟨hn, h⟩]

theorem skip_all (h : ¬ Listed p) : pathReplacements errs p =
    match maybeCollectionOrContainer p with
    | some (c, reps) => qPathCall c "new" [] :: reps.flatMap fun rep =>
        [qPathCall c "from_iter" (qArray rep), qPathCall c "new" rep, qPathCall c "from" rep]
    | none => [qDefault] := by
  obtain ⟨h1, h2, h3, h4, h5, h6, h7, h8, h9, h10, h11⟩ := not_listed_conditions h
  rw [pathReplacements, h1 "bool".toList (by decide), h1 "String".toList (by decide), h1 "str".toList (by decide),
    h2, h3, h4, h5, h6, h7 "Result".toList (by decide), h7 "HttpResponse".toList (by decide)]
  show pathTail p = _
  rw [pathTail, h8 "Option".toList (by decide), h8 "Vec".toList (by decide), h8 "Cow".toList (by decide),
    h9, h10, h11]

theorem row_one (h : ¬ Listed p) (hl : LastSegment p n args) (ht : OneType args reps) :
    pathReplacements errs p = qPathCall n "new" [] :: reps.flatMap fun rep =>
      [qPathCall n "from_iter" (qArray rep), qPathCall n "new" rep, qPathCall n "from" rep] := by
  rw [skip_all h, maybe_iff.2 ⟨_, hl, ht⟩]

theorem row_default (h : ¬ Listed p) (hl : ∀ n args t, LastSegment p n args → ¬ OneType args t) :
    pathReplacements errs p = [qDefault] := by
  rw [skip_all h]
  cases hm : maybeCollectionOrContainer p with
  | none => rfl
  | some x =>
    obtain ⟨n, t⟩ := x
    obtain ⟨a, ha, ht⟩ := maybe_iff.1 hm
    exact absurd ht (hl n a t ha)

end
end CM.Props
