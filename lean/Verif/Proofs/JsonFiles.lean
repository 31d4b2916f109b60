import Verif.Proofs.Json
/-! Helper lemmas: the values that are written, looked into by key. -/
namespace CM.JsonProofs
open CM CM.Spec

/-! ### numbers -/

theorem decimal_step {n : Nat} (h : 10 ≤ n) : decimal n = decimal (n / 10) ++ [Nat.digitChar (n % 10)] := by
  unfold decimal
  rw [Nat.toDigits_of_base_le (by omega) h]

theorem decimal_small {n : Nat} (h : n < 10) : decimal n = [Nat.digitChar n] := by
  unfold decimal
  exact Nat.toDigits_of_lt_base h

theorem decimal_head_zero (n : Nat) : (decimal n).head? = some '0' → n = 0 := by
  induction n using Nat.strongRecOn with
  | ind n ih =>
    intro h
    by_cases hn : n < 10
    · rw [decimal_small hn] at h
      simpa using h
    · have hn : 10 ≤ n := by omega
      rw [decimal_step hn, List.head?_append] at h
      have h : (decimal (n / 10)).head? = some '0' := by
        cases hd : decimal (n / 10) with
        | nil => exact absurd hd (decimal_ne_nil' _)
        | cons c t => rw [hd] at h; simpa using h
      have := ih (n / 10) (by omega) h
      omega

theorem all_takeWhile {p : Char → Bool} {t : Text} (h : ∀ c ∈ t, p c = true) :
    t.takeWhile p = t ∧ t.dropWhile p = [] := by
  induction t with
  | nil => simp
  | cons c t ih =>
    have := ih (fun c hc => h c (by simp [hc]))
    simp [h c (by simp), this]

theorem isUnsignedNumber_decimal (n : Nat) : isUnsignedNumber (decimal n) = true := by
  obtain ⟨h1, h2⟩ := all_takeWhile (p := (·.isDigit)) (t := decimal n) (fun c hc => isDigit_of_mem_decimal hc)
  simp only [isUnsignedNumber, h1, h2]
  have hz : (decimal n).head? != some '0' || (decimal n).length == 1 := by
    by_cases h : (decimal n).head? = some '0'
    · have := decimal_head_zero n h
      subst this
      decide
    · simp [h]
  have hne := decimal_ne_nil' n
  rw [hz]
  cases h : decimal n with
  | nil => exact absurd h hne
  | cons c t => rfl

theorem isNumber_decimal (n : Nat) : isNumber (decimal n) = true := by
  have : (decimal n).head? ≠ some '-' := by
    intro h
    exact not_mem_decimal (n := n) (c := '-') (by decide) (List.mem_of_head? h)
  rw [isNumber, if_neg this]
  exact isUnsignedNumber_decimal n

theorem someDigits_decimal (n : Nat) : someDigits (decimal n) = true := by
  have h1 : (decimal n).all (·.isDigit) = true := List.all_eq_true.2 (fun c hc => isDigit_of_mem_decimal hc)
  have h2 : (decimal n).isEmpty = false := by
    cases h : decimal n with
    | nil => exact absurd h (decimal_ne_nil' n)
    | cons c t => rfl
  simp [someDigits, h1, h2]

theorem asNat_nat (n : Nat) : asNat (.nat n) = some n := by
  have := Nat.ofDigitChars_ten_toDigits (n := n)
  simp only [asNat, Json.nat, someDigits_decimal, if_true]
  exact congrArg some this

theorem asInt_int (n : Int) : asInt (.int n) = some n := by
  cases n with
  | ofNat n =>
    have h : (decimal n).head? ≠ some '-' := fun h =>
      not_mem_decimal (n := n) (c := '-') (by decide) (List.mem_of_head? h)
    have := asNat_nat n
    simp only [Json.int, asInt, if_neg h]
    rw [Json.nat] at this
    rw [this]
    rfl
  | negSucc n =>
    have := asNat_nat (n + 1)
    rw [Json.nat] at this
    simp only [Json.int, asInt, List.head?_cons, if_true, List.tail_cons, this]
    rfl

theorem numbersOk_nat (n : Nat) : NumbersOk (.nat n) := by
  rw [Json.nat, NumbersOk]; exact isNumber_decimal n

theorem numbersOk_int (n : Int) : NumbersOk (.int n) := by
  cases n with
  | ofNat n => simp only [Json.int, NumbersOk]; exact isNumber_decimal n
  | negSucc n =>
    simp only [Json.int, NumbersOk, isNumber, List.head?_cons, if_true, List.tail_cons]
    exact isUnsignedNumber_decimal _

theorem numbersOk_str (t : Text) : NumbersOk (.str t) := by simp [NumbersOk]

theorem numbersOk_array {xs : List Json} (h : ∀ x ∈ xs, NumbersOk x) : NumbersOk (.array xs) := by
  rw [Json.array, NumbersOk]
  induction xs with
  | nil => simp [Elems.ofList, ElemNumbersOk]
  | cons x xs ih =>
    rw [Elems.ofList, ElemNumbersOk]
    exact ⟨h x (by simp), ih (fun y hy => h y (by simp [hy]))⟩

theorem numbersOk_object {ms : List (Text × Json)} (h : ∀ m ∈ ms, NumbersOk m.2) : NumbersOk (.object ms) := by
  rw [Json.object, NumbersOk]
  induction ms with
  | nil => simp [Members.ofList, MemberNumbersOk]
  | cons m ms ih =>
    obtain ⟨k, x⟩ := m
    rw [Members.ofList, MemberNumbersOk]
    exact ⟨h (k, x) (by simp), ih (fun y hy => h y (by simp [hy]))⟩

theorem numbersOk_insert {k : Text} {x : Json} (hx : NumbersOk x) : ∀ ms, MemberNumbersOk ms → MemberNumbersOk (ms.insert k x)
  | .nil, _ => by simp [Members.insert, MemberNumbersOk, hx]
  | .cons l y ms, h => by
    rw [MemberNumbersOk] at h
    have := numbersOk_insert (k := k) hx ms h.2
    rw [Members.insert]
    split
    · rw [MemberNumbersOk]; exact ⟨hx, h.2⟩
    · split
      · rw [MemberNumbersOk, MemberNumbersOk]; exact ⟨hx, h⟩
      · rw [MemberNumbersOk]; exact ⟨h.1, this⟩

mutual
theorem numbersOk_toValue : ∀ v : Json, NumbersOk v → NumbersOk v.toValue
  | .null, _ => by simp [Json.toValue, NumbersOk]
  | .bool _, _ => by simp [Json.toValue, NumbersOk]
  | .num _, h => by rw [Json.toValue]; exact h
  | .str _, _ => by simp [Json.toValue, NumbersOk]
  | .arr xs, h => by
    rw [Json.toValue, NumbersOk]; rw [NumbersOk] at h
    exact elemNumbersOk_toValue xs h
  | .obj ms, h => by
    rw [Json.toValue, NumbersOk]; rw [NumbersOk] at h
    exact memberNumbersOk_toValue ms h .nil (by simp [MemberNumbersOk])
theorem elemNumbersOk_toValue : ∀ xs : Elems, ElemNumbersOk xs → ElemNumbersOk xs.toValue
  | .nil, _ => by simp [Elems.toValue, ElemNumbersOk]
  | .cons x xs, h => by
    rw [ElemNumbersOk] at h
    rw [Elems.toValue, ElemNumbersOk]
    exact ⟨numbersOk_toValue x h.1, elemNumbersOk_toValue xs h.2⟩
theorem memberNumbersOk_toValue : ∀ ms : Members, MemberNumbersOk ms → ∀ map, MemberNumbersOk map →
    MemberNumbersOk (Members.toValue map ms)
  | .nil, _, map, hm => by rw [Members.toValue]; exact hm
  | .cons k x ms, h, map, hm => by
    rw [MemberNumbersOk] at h
    rw [Members.toValue]
    exact memberNumbersOk_toValue ms h.2 _ (numbersOk_insert (numbersOk_toValue x h.1) map hm)
end

/-! ### lookup in sorted members -/

theorem lookup_insert (k key : Text) (x : Json) : ∀ ms,
    lookup key (Members.insert k x ms) = if k = key then some x else lookup key ms
  | .nil => by simp [Members.insert, lookup]
  | .cons l y ms => by
    have ih := lookup_insert k key x ms
    rw [Members.insert]
    by_cases h : k = l
    · subst h
      rw [if_pos rfl, lookup, lookup]
      by_cases hk : k = key <;> simp [hk]
    · rw [if_neg h]
      by_cases h2 : textLt k l = true
      · rw [if_pos h2, lookup]
      · rw [if_neg h2, lookup, ih, lookup]
        by_cases hl : l = key
        · subst hl; simp [h]
        · simp [hl]

/-- The last of several members with a key counts in a map. -/
def lastOf (key : Text) : List (Text × Json) → Option Json
  | [] => none
  | (k, x) :: ms => (lastOf key ms).or (if k = key then some x else none)

theorem lookup_toValue (key : Text) (ms : List (Text × Json)) (map : Members) :
    lookup key (Members.toValue map (Members.ofList ms)) = ((lastOf key ms).map Json.toValue).or (lookup key map) := by
  induction ms generalizing map with
  | nil => simp [Members.ofList, Members.toValue, lastOf]
  | cons m ms ih =>
    obtain ⟨k, x⟩ := m
    rw [Members.ofList, Members.toValue, ih, lookup_insert, lastOf]
    cases lastOf key ms <;> by_cases h : k = key <;> simp [h]

theorem field_toValue (key : Text) (ms : List (Text × Json)) :
    field key (Json.object ms).toValue = (lastOf key ms).map Json.toValue := by
  rw [Json.object, Json.toValue, field, lookup_toValue]
  simp [lookup]

theorem field_object (key : Text) (ms : List (Text × Json)) : field key (Json.object ms) = ms.lookup key := by
  rw [Json.object, field]
  induction ms with
  | nil => rfl
  | cons m ms ih =>
    obtain ⟨k, x⟩ := m
    rw [Members.ofList, lookup, List.lookup_cons, ih]
    by_cases h : k = key
    · simp [h]
    · have : (key == k) = false := by simpa using Ne.symm h
      simp [h, this]

/-! ### arrays -/

theorem elemList_ofList (xs : List Json) : elemList (Elems.ofList xs) = xs := by
  induction xs with
  | nil => rfl
  | cons x xs ih => rw [Elems.ofList, elemList, ih]

theorem elements_array (xs : List Json) : elements (.array xs) = some xs := by
  rw [Json.array, elements, elemList_ofList]

theorem readAll_map {α β} {f : Json → Option α} {g : β → Json} {h : β → α} {xs : List β}
    (hf : ∀ x ∈ xs, f (g x) = some (h x)) : readAll f (xs.map g) = some (xs.map h) := by
  induction xs with
  | nil => rfl
  | cons x xs ih =>
    rw [List.map_cons, readAll, hf x (by simp), ih (fun y hy => hf y (by simp [hy]))]
    rfl

theorem readTexts_array (ts : List Text) : readTexts (.array (ts.map Json.ofText)) = some ts := by
  rw [readTexts, elements_array]
  have := readAll_map (f := asText) (g := Json.ofText) (h := id) (xs := ts) (fun x _ => rfl)
  simpa using this

/-! ### mutants -/

theorem asText_str (t : Text) : asText (.str t) = some t := rfl
theorem asNumber_num (t : Text) : asNumber (.num t) = some t := rfl

theorem readPosition_json (p : LineColumn) : readPosition p.json = some p := by
  have h1 : field "line".toList p.json = some (.nat p.line) := rfl
  have h2 : field "column".toList p.json = some (.nat p.column) := rfl
  simp only [readPosition, h1, h2, asNat_nat, Option.bind_eq_bind, Option.bind_some, Option.pure_def]

theorem readPosition_value (p : LineColumn) : readPosition p.json.toValue = some p := by
  have h1 : field "line".toList p.json.toValue = some (.nat p.line) := rfl
  have h2 : field "column".toList p.json.toValue = some (.nat p.column) := rfl
  simp only [readPosition, h1, h2, asNat_nat, Option.bind_eq_bind, Option.bind_some, Option.pure_def]

theorem readSpan_json (s : Span) : readSpan s.json = some s := by
  have h1 : field "start".toList s.json = some s.start.json := rfl
  have h2 : field "end".toList s.json = some s.stop.json := rfl
  simp only [readSpan, h1, h2, readPosition_json, Option.bind_eq_bind, Option.bind_some, Option.pure_def]

theorem readSpan_value (s : Span) : readSpan s.json.toValue = some s := by
  have h1 : field "start".toList s.json.toValue = some s.start.json.toValue := rfl
  have h2 : field "end".toList s.json.toValue = some s.stop.json.toValue := rfl
  simp only [readSpan, h1, h2, readPosition_value, Option.bind_eq_bind, Option.bind_some, Option.pure_def]

theorem readFunction_json (f : Function) : readFunction f.json = some f := by
  have h1 : field "function_name".toList f.json = some (.str f.functionName) := rfl
  have h2 : field "return_type".toList f.json = some (.str f.returnType) := rfl
  have h3 : field "span".toList f.json = some f.span.json := rfl
  simp only [readFunction, h1, h2, h3, asText_str, readSpan_json, Option.bind_eq_bind, Option.bind_some, Option.pure_def]

theorem readFunction_value (f : Function) : readFunction f.json.toValue = some f := by
  have h1 : field "function_name".toList f.json.toValue = some (.str f.functionName) := rfl
  have h2 : field "return_type".toList f.json.toValue = some (.str f.returnType) := rfl
  have h3 : field "span".toList f.json.toValue = some f.span.json.toValue := rfl
  simp only [readFunction, h1, h2, h3, asText_str, readSpan_value, Option.bind_eq_bind, Option.bind_some, Option.pure_def]

theorem nullOr_function (f : Option Function) : nullOr readFunction (.option Function.json f) = some f := by
  cases f with
  | none => rfl
  | some f =>
    have := readFunction_json f
    show (readFunction f.json).map some = _
    rw [this]; rfl

theorem nullOr_function_value (f : Option Function) :
    nullOr readFunction (Json.option Function.json f).toValue = some f := by
  cases f with
  | none => rfl
  | some f =>
    have := readFunction_value f
    show (readFunction f.json.toValue).map some = _
    rw [this]; rfl

theorem readGenre (g : Genre) : readWord genreWords g.json = some g := by cases g <;> rfl

theorem genre_value (g : Genre) : g.json.toValue = g.json := by cases g <;> rfl

theorem readMutant_json (m : MutantJson) : readMutant m.json = some { m with diff := none } := by
  have h1 : field "package".toList m.json = some (.str m.package) := rfl
  have h2 : field "file".toList m.json = some (.str m.file) := rfl
  have h3 : field "function".toList m.json = some (.option Function.json m.function) := rfl
  have h4 : field "span".toList m.json = some m.span.json := rfl
  have h5 : field "replacement".toList m.json = some (.str m.replacement) := rfl
  have h6 : field "genre".toList m.json = some m.genre.json := rfl
  have h7 : field "diff".toList m.json = none := rfl
  simp only [readMutant, h1, h2, h3, h4, h5, h6, h7, asText_str, Option.bind_none, nullOr_function, readSpan_json, readGenre, Option.bind_eq_bind, Option.bind_some, Option.pure_def]

theorem readMutant_listed (m : MutantJson) : readMutant m.listed = some m := by
  have hv : ∀ key, field key m.json.toValue = (lastOf key m.fields).map Json.toValue := fun key =>
    field_toValue key m.fields
  have hl : ∀ key, key ≠ "diff".toList → field key m.listed = (lastOf key m.fields).map Json.toValue := by
    intro key hk
    rw [← hv]
    unfold MutantJson.listed
    have he : m.json.toValue = .obj (Members.toValue .nil (Members.ofList m.fields)) := rfl
    rw [he]
    cases m.diff with
    | none => rfl
    | some d =>
      show lookup key (Members.insert _ _ _) = _
      rw [lookup_insert, if_neg (Ne.symm hk)]
      rfl
  have hd : field "diff".toList m.listed = m.diff.map Json.str := by
    unfold MutantJson.listed
    have he : m.json.toValue = .obj (Members.toValue .nil (Members.ofList m.fields)) := rfl
    have hn := hv "diff".toList
    rw [he] at hn ⊢
    cases m.diff with
    | none => exact hn
    | some d =>
      show lookup "diff".toList (Members.insert _ _ _) = _
      rw [lookup_insert, if_pos rfl]
      rfl
  have h1 := hl "package".toList (by decide)
  have h2 := hl "file".toList (by decide)
  have h3 := hl "function".toList (by decide)
  have h4 := hl "span".toList (by decide)
  have h5 := hl "replacement".toList (by decide)
  have h6 := hl "genre".toList (by decide)
  rw [show lastOf "package".toList m.fields = some (.str m.package) from rfl] at h1
  rw [show lastOf "file".toList m.fields = some (.str m.file) from rfl] at h2
  rw [show lastOf "function".toList m.fields = some (.option Function.json m.function) from rfl] at h3
  rw [show lastOf "span".toList m.fields = some m.span.json from rfl] at h4
  rw [show lastOf "replacement".toList m.fields = some (.str m.replacement) from rfl] at h5
  rw [show lastOf "genre".toList m.fields = some m.genre.json from rfl] at h6
  have h7 : (m.diff.map Json.str).bind asText = m.diff := by cases m.diff <;> rfl
  unfold readMutant
  rw [h1, h2, h3, h4, h5, h6, hd, h7]
  simp only [asText_str, Json.toValue, Option.map_some, nullOr_function_value, readSpan_value, readGenre, genre_value, Option.bind_eq_bind, Option.bind_some, Option.pure_def]

theorem numbersOk_position (p : LineColumn) : NumbersOk p.json :=
  numbersOk_object (by simp [numbersOk_nat])

theorem numbersOk_span (s : Span) : NumbersOk s.json :=
  numbersOk_object (by simp [numbersOk_position])

theorem numbersOk_function (f : Option Function) : NumbersOk (.option Function.json f) := by
  cases f with
  | none => simp [Json.option, NumbersOk]
  | some f => exact numbersOk_object (by simp [numbersOk_span, numbersOk_str])

theorem numbersOk_genre (g : Genre) : NumbersOk g.json := by cases g <;> simp [Genre.json, NumbersOk]

theorem numbersOk_mutant (m : MutantJson) : NumbersOk m.json :=
  numbersOk_object (by
    simp [MutantJson.fields, numbersOk_span, numbersOk_str, numbersOk_function, numbersOk_genre])

theorem numbersOk_listed (m : MutantJson) : NumbersOk m.listed := by
  have h := numbersOk_toValue _ (numbersOk_mutant m)
  unfold MutantJson.listed
  have he : m.json.toValue = .obj (Members.toValue .nil (Members.ofList m.fields)) := rfl
  rw [he] at h ⊢
  cases m.diff with
  | none => exact h
  | some d =>
    show NumbersOk (.obj (Members.insert _ _ _))
    rw [NumbersOk] at h ⊢
    exact numbersOk_insert (numbersOk_str d) _ h

/-! ### outcomes -/

/-- What the entry of an outcome should say about the scenario. -/
def scenarioSays : Scenario → Option MutantJson
  | .baseline => none
  | .mutant m => some m.toJson

/-- What the entry of an outcome should say. -/
def saysOf (w : JsonWorld) (index : Nat) (o : ScenarioOutcome) (s : SummaryOutcome) : OutcomeSays :=
  { mutant := scenarioSays o.scenario
    summary := s
    logPath := w.logPath index
    diffPath := w.diffPath index
    phases := o.phaseResults.map fun p => ⟨p.phase, w.seconds p.duration, p.status, p.argv⟩ }

theorem readSummary (s : SummaryOutcome) : readWord summaryWords s.json = some s := by cases s <;> rfl
theorem readPhaseWord (p : Phase) : readWord phaseWords p.json = some p := by cases p <;> rfl

theorem readExit_json (e : Exit) : readExit e.json = some e := by
  cases e with
  | success => rfl
  | timeout => rfl
  | other => rfl
  | failure c =>
    have h1 : field "Failure".toList (Exit.failure c).json = some (.int c) := rfl
    simp only [readExit, h1, asInt_int]; rfl
  | signalled c =>
    have h1 : field "Failure".toList (Exit.signalled c).json = none := rfl
    have h2 : field "Signalled".toList (Exit.signalled c).json = some (.int c) := rfl
    simp only [readExit, h1, h2, asInt_int]; rfl

theorem numbersOk_exit (e : Exit) : NumbersOk e.json := by
  cases e with
  | success => simp [Exit.json, NumbersOk]
  | timeout => simp [Exit.json, NumbersOk]
  | other => simp [Exit.json, NumbersOk]
  | failure c => exact numbersOk_object (by simp [numbersOk_int])
  | signalled c => exact numbersOk_object (by simp [numbersOk_int])

theorem readPhase_json (w : JsonWorld) (p : PhaseResult) :
    readPhase (p.json w) = some ⟨p.phase, w.seconds p.duration, p.status, p.argv⟩ := by
  have h1 : field "phase".toList (p.json w) = some p.phase.json := rfl
  have h2 : field "duration".toList (p.json w) = some (.num (w.seconds p.duration)) := rfl
  have h3 : field "process_status".toList (p.json w) = some p.status.json := rfl
  have h4 : field "argv".toList (p.json w) = some (.array (p.argv.map Json.ofText)) := rfl
  simp only [readPhase, h1, h2, h3, h4, readPhaseWord, asNumber_num, readExit_json, readTexts_array, Option.bind_eq_bind, Option.bind_some, Option.pure_def]

theorem numbersOk_phase {w : JsonWorld} (hw : ∀ n, isNumber (w.seconds n) = true) (p : PhaseResult) :
    NumbersOk (p.json w) := by
  refine numbersOk_object ?_
  have h1 : NumbersOk p.phase.json := by cases p.phase <;> simp [Phase.json, NumbersOk]
  have h2 : NumbersOk (.num (w.seconds p.duration)) := by rw [NumbersOk]; exact hw _
  have h3 : NumbersOk (.array (p.argv.map Json.ofText)) := numbersOk_array (by simp [Json.ofText, numbersOk_str])
  simp [h1, h2, h3, numbersOk_exit]

theorem readScenario_json (s : Scenario) :
    readScenario s.json = some (scenarioSays s) := by
  cases s with
  | baseline => rfl
  | mutant m =>
    have h1 : field "Mutant".toList (Scenario.mutant m).json = some m.toJson.json := rfl
    simp only [readScenario, h1, readMutant_json]
    rfl

theorem numbersOk_scenario (s : Scenario) : NumbersOk s.json := by
  cases s with
  | baseline => simp [Scenario.json, NumbersOk]
  | mutant m => exact numbersOk_object (by simp [numbersOk_mutant])

theorem nullOr_text (t : Option Text) : nullOr asText (.option Json.ofText t) = some t := by cases t <;> rfl

theorem numbersOk_summary (s : SummaryOutcome) : NumbersOk s.json := by cases s <;> simp [SummaryOutcome.json, NumbersOk]

theorem readOutcome_json {w : JsonWorld} {i : Nat} {o : ScenarioOutcome} {s : SummaryOutcome} {v : Json}
    (hs : o.summary = some s) (hv : o.json w i = some v) : readOutcome v = some (saysOf w i o s) := by
  rw [ScenarioOutcome.json, hs, Option.map_some, Option.some.injEq] at hv
  have h1 : field "scenario".toList v = some o.scenario.json := by rw [← hv]; rfl
  have h2 : field "summary".toList v = some s.json := by rw [← hv]; rfl
  have h3 : field "log_path".toList v = some (.str (w.logPath i)) := by rw [← hv]; rfl
  have h4 : field "diff_path".toList v = some (.option Json.ofText (w.diffPath i)) := by rw [← hv]; rfl
  have h5 : field "phase_results".toList v = some (.array (o.phaseResults.map (PhaseResult.json w))) := by
    rw [← hv]; rfl
  have hp := readAll_map (f := readPhase) (g := PhaseResult.json w)
    (h := fun p => (⟨p.phase, w.seconds p.duration, p.status, p.argv⟩ : PhaseSays)) (xs := o.phaseResults)
    (fun p _ => readPhase_json w p)
  simp only [readOutcome, h1, h2, h3, h4, h5, readScenario_json, readSummary, asText_str, nullOr_text, elements_array, hp, saysOf,
    Option.bind_eq_bind, Option.bind_some, Option.pure_def]

theorem numbersOk_outcome {w : JsonWorld} (hw : ∀ n, isNumber (w.seconds n) = true) {i : Nat} {o : ScenarioOutcome}
    {v : Json} (hv : o.json w i = some v) : NumbersOk v := by
  rw [ScenarioOutcome.json] at hv
  cases hs : o.summary with
  | none => rw [hs] at hv; cases hv
  | some s =>
    rw [hs, Option.map_some, Option.some.injEq] at hv
    subst hv
    refine numbersOk_object ?_
    have h1 : NumbersOk (.array (o.phaseResults.map (PhaseResult.json w))) :=
      numbersOk_array (by
        intro x hx
        obtain ⟨p, _, rfl⟩ := List.mem_map.1 hx
        exact numbersOk_phase hw p)
    have h2 : NumbersOk (.option Json.ofText (w.diffPath i)) := by
      cases w.diffPath i <;> simp [Json.option, Json.ofText, NumbersOk]
    simp [h1, h2, numbersOk_scenario, numbersOk_summary, numbersOk_str]

/-- What the entries should say, numbered from `i`. -/
def saysFrom (w : JsonWorld) (i : Nat) : List ScenarioOutcome → Option (List OutcomeSays)
  | [] => some []
  | o :: os => do
    let s ← o.summary
    let rest ← saysFrom w (i + 1) os
    pure (saysOf w i o s :: rest)

theorem outcomesJsonFrom_read {w : JsonWorld} {os : List ScenarioOutcome} {i : Nat} {vs : List Json}
    (h : outcomesJsonFrom w i os = some vs) :
    ∃ ss, saysFrom w i os = some ss ∧ readAll readOutcome vs = some ss := by
  induction os generalizing i vs with
  | nil => cases h; exact ⟨[], rfl, rfl⟩
  | cons o os ih =>
    rw [outcomesJsonFrom] at h
    cases hv : o.json w i with
    | none => rw [hv] at h; cases h
    | some v =>
      rw [hv] at h
      simp only [Option.bind_eq_bind, Option.bind_some] at h
      cases hr : outcomesJsonFrom w (i + 1) os with
      | none => rw [hr] at h; cases h
      | some rest =>
        rw [hr] at h
        cases h
        obtain ⟨ss, h1, h2⟩ := ih hr
        cases hs : o.summary with
        | none => rw [ScenarioOutcome.json, hs] at hv; cases hv
        | some s =>
          refine ⟨saysOf w i o s :: ss, ?_, ?_⟩
          · rw [saysFrom, hs, h1]; rfl
          · rw [readAll, readOutcome_json hs hv, h2]; rfl

theorem outcomesJsonFrom_numbers {w : JsonWorld} (hw : ∀ n, isNumber (w.seconds n) = true)
    {os : List ScenarioOutcome} {i : Nat} {vs : List Json} (h : outcomesJsonFrom w i os = some vs) :
    ∀ v ∈ vs, NumbersOk v := by
  induction os generalizing i vs with
  | nil => cases h; simp
  | cons o os ih =>
    rw [outcomesJsonFrom] at h
    cases hv : o.json w i with
    | none => rw [hv] at h; cases h
    | some v =>
      rw [hv] at h
      simp only [Option.bind_eq_bind, Option.bind_some] at h
      cases hr : outcomesJsonFrom w (i + 1) os with
      | none => rw [hr] at h; cases h
      | some rest =>
        rw [hr] at h
        cases h
        intro x hx
        rcases List.mem_cons.1 hx with rfl | hx
        · exact numbersOk_outcome hw hv
        · exact ih hr x hx

theorem outcomesJsonFrom_some {w : JsonWorld} {os : List ScenarioOutcome} (i : Nat)
    (h : ∀ o ∈ os, ∃ s, o.summary = some s) : ∃ vs, outcomesJsonFrom w i os = some vs := by
  induction os generalizing i with
  | nil => exact ⟨[], rfl⟩
  | cons o os ih =>
    obtain ⟨s, hs⟩ := h o (by simp)
    obtain ⟨vs, hv⟩ := ih (i + 1) (fun o ho => h o (by simp [ho]))
    exact ⟨_, by rw [outcomesJsonFrom, ScenarioOutcome.json, hs, hv]; rfl⟩

theorem readOutcomes_text {w : JsonWorld} (hw : ∀ n, isNumber (w.seconds n) = true) {l : LabOutcome} {t : Text}
    (h : outcomesJsonText w l = some t) :
    ∃ ss, saysFrom w 0 l.outcomes = some ss ∧
      readOutcomes t = some ⟨ss, l.totalMutants, l.missed, l.caught, l.timeout, l.unviable, l.success⟩ := by
  rw [outcomesJsonText, LabOutcome.json] at h
  cases hv : outcomesJsonFrom w 0 l.outcomes with
  | none => rw [hv] at h; cases h
  | some vs =>
    rw [hv, Option.map_some, Option.map_some, Option.some.injEq] at h
    obtain ⟨ss, h1, h2⟩ := outcomesJsonFrom_read hv
    refine ⟨ss, h1, ?_⟩
    subst h
    rw [readOutcomes, readJson_pretty _ (numbersOk_object (by
      have := numbersOk_array (outcomesJsonFrom_numbers hw hv)
      simp [this, numbersOk_nat]))]
    generalize hj : Json.object _ = v
    have f0 : field "outcomes".toList v = some (.array vs) := by rw [← hj]; rfl
    have f1 : field "total_mutants".toList v = some (.nat l.totalMutants) := by rw [← hj]; rfl
    have f2 : field "missed".toList v = some (.nat l.missed) := by rw [← hj]; rfl
    have f3 : field "caught".toList v = some (.nat l.caught) := by rw [← hj]; rfl
    have f4 : field "timeout".toList v = some (.nat l.timeout) := by rw [← hj]; rfl
    have f5 : field "unviable".toList v = some (.nat l.unviable) := by rw [← hj]; rfl
    have f6 : field "success".toList v = some (.nat l.success) := by rw [← hj]; rfl
    simp only [f0, f1, f2, f3, f4, f5, f6, elements_array, h2, asNat_nat, Option.bind_eq_bind, Option.bind_some,
      Option.pure_def]

end CM.JsonProofs
