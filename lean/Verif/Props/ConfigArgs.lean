import Verif.Spec.ConfigArgs
import Verif.Props.ConfigFile
import Verif.Props.Program
/-! **C83**: a setting in the configuration file does what the option does. -/
namespace CM.Props
open CM CM.Spec

theorem splitOn_no_comma (n : Text) (h : ',' ∉ n) : splitOn ',' n = [n] := by
  induction n with
  | nil => rfl
  | cons c n ih =>
    have hc : c ≠ ',' := fun e => h (e ▸ List.mem_cons_self ..)
    simp only [splitOn, ih fun hm => h (List.mem_cons_of_mem _ hm)]
    simp [hc]

theorem flatMap_no_comma (ns : List Text) (h : ∀ n ∈ ns, ',' ∉ n) : ns.flatMap (splitOn ',') = ns := by
  induction ns with
  | nil => rfl
  | cons n ns ih =>
    rw [List.flatMap_cons, splitOn_no_comma n (h n (List.mem_cons_self ..)), ih fun m hm => h m (List.mem_cons_of_mem _ hm)]
    rfl

/-- A key and its option have the same value, or neither is given. -/
theorem option_value {number entries c a} (hm : Means number entries c) (hg : Gives number entries a) {k opt}
    (hk : k ∈ configKeys) (ho : (k.name, opt) ∈ optionKeys) :
    opt a = k.value c ∨ (NotGiven (opt a) ∧ k.value c = unset k) := by
  by_cases hv : ∃ v, (k.name.toList, v) ∈ entries
  · obtain ⟨v, hv⟩ := hv
    obtain ⟨s, hs, h1⟩ := hm.given k hk v hv
    obtain ⟨s', hs', h2⟩ := hg.given k hk v hv opt ho
    exact .inl (by rw [h1, h2, writes_unique hs hs'])
  · have hv : ∀ v, (k.name.toList, v) ∉ entries := fun v h => hv ⟨v, h⟩
    exact .inr ⟨hg.missing k hk hv opt ho, hm.missing k hk hv⟩

theorem map_inj {α} {f : α → Setting} (hf : ∀ x y, f x = f y → x = y) {a b : Option α} (h : a.map f = b.map f) : a = b := by
  cases a <;> cases b <;> first | rfl | cases h | (simp only [Option.map_some, Option.some.injEq] at h; rw [hf _ _ h])

theorem scalar_value {α} {f : α → Setting} (hf : ∀ x y, f x = f y → x = y) (ht : ∀ x, f x ≠ .texts []) {a b : Option α}
    (h : a.map f = b.map f ∨ (NotGiven (a.map f) ∧ b.map f = none)) : a = b := by
  rcases h with h | ⟨h | h, h'⟩
  · exact map_inj hf h
  · exact map_inj hf (h.trans h'.symm)
  · cases a with
    | none => cases h
    | some x => exact absurd (Option.some.inj h) (ht x)

theorem list_value {a b : List Text} (h : some (Setting.texts a) = some (.texts b) ∨
    (NotGiven (some (Setting.texts a)) ∧ some (Setting.texts b) = some (.texts []))) : a = b := by
  rcases h with h | ⟨h | h, h'⟩
  · cases h; rfl
  · cases h
  · cases h; cases h'; rfl

theorem not_given_list {number a k opt} (hg : Gives number [] a) (hk : k ∈ configKeys) (ho : (k.name, opt) ∈ optionKeys) :
    NotGiven (opt a) := hg.missing k hk (fun _ h => by cases h) opt ho

theorem not_given_scalar {α} {f : α → Setting} (ht : ∀ x, f x ≠ .texts []) {a : Option α} (h : NotGiven (a.map f)) : a = none := by
  cases a with
  | none => rfl
  | some x =>
    rcases h with h | h
    · cases h
    · exact absurd (Option.some.inj h) (ht x)

/-- What arguments that give what a file sets are. -/
theorem gives_fields {number entries c b} (hm : Means number entries c) (hg : Gives number entries b) :
    b.cargoArg = c.additionalCargoArgs ∧ b.cargoTestArgs = c.additionalCargoTestArgs ∧
    b.buildTimeoutMultiplier = c.buildTimeoutMultiplier ∧ b.capLints.getD false = c.capLints ∧ b.copyVcs = c.copyVcs ∧
    b.error = c.errorValues ∧ b.file = c.examineGlobs ∧ b.examineRe = c.examineRe ∧ b.exclude = c.excludeGlobs ∧
    b.excludeRe = c.excludeRe ∧ b.minimumTestTimeout = c.minimumTestTimeout ∧ b.output = c.output ∧ b.profile = c.profile ∧
    b.skipCalls = c.skipCalls ∧ b.skipCallsDefaults = c.skipCallsDefaults ∧ b.testPackage = c.testPackage ∧
    b.testTool = c.testTool ∧ b.testWorkspace = c.testWorkspace ∧ b.timeoutMultiplier = c.timeoutMultiplier := by
  have v := fun {k opt} => @option_value _ _ _ _ hm hg k opt
  have inList : ∀ {n opt} i, optionKeys[i]? = some (n, opt) → (n, opt) ∈ optionKeys := fun i h => List.mem_of_getElem? h
  have inKeys : ∀ {k} i, configKeys[i]? = some k → k ∈ configKeys := fun i h => List.mem_of_getElem? h
  refine ⟨list_value (v (inKeys 0 rfl) (inList 0 rfl)), list_value (v (inKeys 1 rfl) (inList 1 rfl)),
    scalar_value (f := .number) (by simp) (by simp) (v (inKeys 2 rfl) (inList 2 rfl)), ?_,
    scalar_value (f := .flag) (by simp) (by simp) (v (inKeys 4 rfl) (inList 4 rfl)),
    list_value (v (inKeys 5 rfl) (inList 5 rfl)), list_value (v (inKeys 6 rfl) (inList 6 rfl)),
    list_value (v (inKeys 7 rfl) (inList 7 rfl)), list_value (v (inKeys 8 rfl) (inList 8 rfl)),
    list_value (v (inKeys 9 rfl) (inList 9 rfl)), scalar_value (f := .number) (by simp) (by simp) (v (inKeys 10 rfl) (inList 10 rfl)),
    scalar_value (f := .text) (by simp) (by simp) (v (inKeys 11 rfl) (inList 11 rfl)),
    scalar_value (f := .text) (by simp) (by simp) (v (inKeys 12 rfl) (inList 12 rfl)),
    list_value (v (inKeys 13 rfl) (inList 13 rfl)), scalar_value (f := .flag) (by simp) (by simp) (v (inKeys 14 rfl) (inList 14 rfl)),
    list_value (v (inKeys 15 rfl) (inList 15 rfl)), scalar_value (f := .tool) (by simp) (by simp) (v (inKeys 16 rfl) (inList 16 rfl)),
    scalar_value (f := .flag) (by simp) (by simp) (v (inKeys 17 rfl) (inList 17 rfl)),
    scalar_value (f := .number) (by simp) (by simp) (v (inKeys 18 rfl) (inList 18 rfl))⟩
  rcases v (inKeys 3 rfl) (inList 3 rfl) with h | ⟨h, h'⟩
  · cases hb : b.capLints with
    | none => rw [hb] at h; cases h
    | some x => rw [hb] at h; cases h; rfl
  · rw [not_given_scalar (f := .flag) (by simp) h]
    have h' : some (Setting.flag c.capLints) = some (.flag false) := h'
    simp only [Option.some.injEq, Setting.flag.injEq] at h'
    rw [h']
    rfl

theorem no_commas_in {number entries c} (hm : Means number entries c) (hn : NoCommas entries) :
    (∀ n ∈ c.skipCalls, ',' ∉ n) ∧ ∀ n ∈ c.testPackage, ',' ∉ n := by
  have key : ∀ (i : Nat) (key : String) (get : Config → List Text), configKeys[i]? = some ⟨key, .texts, fun c => some (.texts (get c))⟩ →
      key ∈ ["skip_calls", "test_package"] → ∀ n ∈ get c, ',' ∉ n := by
    intro i key get hi hkey n hmem
    have hk := List.mem_of_getElem? hi
    by_cases hv : ∃ v, (key.toList, v) ∈ entries
    · obtain ⟨v, hv⟩ := hv
      obtain ⟨s, hs, h1⟩ := hm.given _ hk v hv
      cases hs with
      | texts ss =>
        cases h1
        exact hn key hkey _ hv n hmem
    · have h := hm.missing _ hk fun v h => hv ⟨v, h⟩
      have h : some (Setting.texts (get c)) = some (.texts []) := h
      simp only [Option.some.injEq, Setting.texts.injEq] at h
      rw [h] at hmem
      cases hmem
  exact ⟨key 13 _ _ rfl (by simp), key 15 _ _ rfl (by simp)⟩

theorem skip_calls_same {a b : Args} {c : Config} (h1 : a.skipCalls = []) (h2 : a.skipCallsDefaults = none)
    (h3 : b.skipCalls = c.skipCalls) (h4 : b.skipCallsDefaults = c.skipCallsDefaults) (hn : ∀ n ∈ c.skipCalls, ',' ∉ n) :
    chooseSkipCalls a c = chooseSkipCalls b {} := by
  unfold chooseSkipCalls
  rw [h1, h2, h3, h4, flatMap_no_comma _ hn, List.flatMap_nil, List.nil_append, List.append_nil, Option.none_or, Option.or_none]

theorem test_package_same {a b : Args} {c : Config} (h1 : a.testPackage = []) (h2 : a.testWorkspace = none)
    (h3 : b.testPackage = c.testPackage) (h4 : b.testWorkspace = c.testWorkspace) (hn : ∀ n ∈ c.testPackage, ',' ∉ n) :
    chooseTestPackage a c = chooseTestPackage b {} := by
  unfold chooseTestPackage
  rw [h1, h2, h3, h4, flatMap_no_comma _ hn]
  generalize c.testWorkspace = t
  generalize c.testPackage = p
  match t, p with
  | none, [] => rfl
  | none, _ :: _ => rfl
  | some true, _ => rfl
  | some false, [] => rfl
  | some false, _ :: _ => rfl

/-- **C83**: the options of a run are the same whether settings are in the configuration file or given by the options that stand
for them. -/
theorem C83_options (number : Text → Option Rat) (regex : Text → Option (Text → Bool)) (entries : List (Text × Toml)) (c c0 : Config)
    (hc : Means number entries c) (h0 : Means number [] c0) (hn : NoCommas entries)
    (a b : Args) (ha : Gives number [] a) (hb : Gives number entries b) (hs : SameOtherwise a b) :
    Options.new regex a c = Options.new regex b c0 := by
  obtain ⟨a1, a2, a3, -, a5, a6, a7, a8, a9, a10, a11, a12, a13, a14, a15, a16, a17, a18, a19⟩ := gives_fields h0 ha
  obtain ⟨b1, b2, b3, b4, b5, b6, b7, b8, b9, b10, b11, b12, b13, b14, b15, b16, b17, b18, b19⟩ := gives_fields hc hb
  have a4 : a.capLints = none := not_given_scalar (f := .flag) (by simp)
    (not_given_list ha (List.mem_of_getElem? (i := 3) rfl) (List.mem_of_getElem? (i := 3) rfl))
  have hc0 : c0 = {} := by
    have : Config.ofToml number (.table []) = some c0 := (C81_meaning _ _ _).2 ⟨[], rfl, h0⟩
    exact (Option.some.inj this).symm
  subst hc0
  obtain ⟨s1, s2, s3, s4, s5, s6, s7, s8, s9⟩ := hs
  obtain ⟨n1, n2⟩ := no_commas_in hc hn
  have o : ∀ x : List Text, orSlices x [] = x := by intro x; cases x <;> rfl
  have o' : ∀ x : List Text, orSlices [] x = x := fun x => rfl
  have sk : chooseSkipCalls a c = chooseSkipCalls b {} := skip_calls_same a14 a15 b14 b15 n1
  have tp : chooseTestPackage a c = chooseTestPackage b {} := test_package_same a16 a18 b16 b18 n2
  have e1 : joinSlices a.cargoArg c.additionalCargoArgs = joinSlices b.cargoArg [] := by rw [a1, b1]; simp [joinSlices]
  have e2 : joinSlices a.cargoTestArgs c.additionalCargoTestArgs = joinSlices b.cargoTestArgs [] := by
    rw [a2, b2]; simp [joinSlices]
  have e3 : joinSlices a.error c.errorValues = joinSlices b.error [] := by rw [a6, b6]; simp [joinSlices]
  have e4 : orSlices a.examineRe c.examineRe = orSlices b.examineRe [] := by rw [a8, b8, o]; rfl
  have e5 : orSlices a.excludeRe c.excludeRe = orSlices b.excludeRe [] := by rw [a10, b10, o]; rfl
  have e6 : orSlices a.file c.examineGlobs = orSlices b.file [] := by rw [a7, b7, o]; rfl
  have e7 : orSlices a.exclude c.excludeGlobs = orSlices b.exclude [] := by rw [a9, b9, o]; rfl
  have e8 : a.minimumTestTimeout.or c.minimumTestTimeout = b.minimumTestTimeout.or none := by rw [a11, b11]; simp
  have e9 : a.buildTimeoutMultiplier.or c.buildTimeoutMultiplier = b.buildTimeoutMultiplier.or none := by rw [a3, b3]; simp
  have e10 : a.timeoutMultiplier.or c.timeoutMultiplier = b.timeoutMultiplier.or none := by rw [a19, b19]; simp
  have e11 : a.copyVcs.or c.copyVcs = b.copyVcs.or none := by rw [a5, b5]; simp
  have e12 : a.output.or c.output = b.output.or none := by rw [a12, b12]; simp
  have e13 : a.profile.or c.profile = b.profile.or none := by rw [a13, b13]; simp
  have e14 : a.testTool.or c.testTool = b.testTool.or none := by rw [a17, b17]; simp
  have e15 : a.capLints.getD c.capLints = b.capLints.getD false := by rw [a4, b4]; rfl
  unfold Options.new
  rw [sk, tp, e1, e2, e3, e4, e5, e6, e7, e8, e9, e10, e11, e12, e13, e14, e15, s1, s2, s3, s4, s5, s6, s7, s8, s9]

theorem listText_config (w : World) (c c0 : Config) (l d : Bool) (ms : List Mutant) :
    listMutantsText { w with config := c } l d ms = listMutantsText { w with config := c0 } l d ms := by
  induction ms with
  | nil => rfl
  | cons m ms ih => unfold listMutantsText; rw [ih]

theorem afterDiscovery_config (w : World) (c c0 : Config) (a : MainArgs) (b : Args) (ms : List Mutant) (fs : List SourceFile) :
    afterDiscovery { w with config := c } a ms fs = afterDiscovery { w with config := c0 } { a with options := b } ms fs := by
  have h1 : ∀ ms, iterateFilter { w with config := c } a.iterate ms = iterateFilter { w with config := c0 } a.iterate ms := fun _ => rfl
  have h2 : ∀ ms, inDiffFilter { w with config := c } a.inDiff ms = inDiffFilter { w with config := c0 } a.inDiff ms := fun _ => rfl
  have h3 : ∀ ms, listMutantsJson { w with config := c } a.diff ms = listMutantsJson { w with config := c0 } a.diff ms := fun _ => rfl
  have h4 := listText_config w c c0 a.lineCol a.diff
  have h5 : prepareOutput { w with config := c } a.iterate = prepareOutput { w with config := c0 } a.iterate := rfl
  unfold afterDiscovery
  simp only [h1, h2, h3, h4, h5]

theorem runs_same {w : World} {c c0 : Config} {a : MainArgs} {b : Args}
    (h : Options.new w.regex a.options c = Options.new w.regex b c0) (act : Action) :
    Runs { w with config := c } a act ↔ Runs { w with config := c0 } { a with options := b } act := by
  refine exists_congr fun ms => exists_congr fun fs => and_congr ?_ (by rw [afterDiscovery_config w c c0 a b])
  refine exists_congr fun o => exists_congr fun pkgs => exists_congr fun exprs => ?_
  refine and_congr ?_ Iff.rfl
  show Options.new w.regex a.options c = some o ↔ Options.new w.regex b c0 = some o
  rw [h]

theorem tests_same {w : World} {c c0 : Config} {a : MainArgs} {b : Args}
    (h : Options.new w.regex a.options c = Options.new w.regex b c0) (hs : SameOtherwise a.options b) (x : Program.Machine)
    (cfg : Run.Config) :
    Program.Tests { w with config := c } x a cfg ↔ Program.Tests { w with config := c0 } x { a with options := b } cfg := by
  obtain ⟨-, -, -, hi, hj, hn, -⟩ := hs
  refine and_congr ?_ (exists_congr fun o => exists_congr fun out => exists_congr fun ms => and_congr ?_ (and_congr (runs_same h _) ?_))
  · show (a.options.inPlace = true → a.options.jobs = none) ↔ (b.inPlace = true → b.jobs = none)
    rw [hi, hj]
  · show Options.new w.regex a.options c = some o ↔ Options.new w.regex b c0 = some o
    rw [h]
  · have : Program.config { w with config := c } x a o ms = Program.config { w with config := c0 } x { a with options := b } o ms := by
      unfold Program.config testQueue
      rw [hn]
    rw [this]

theorem ends_same {w : World} {c c0 : Config} {a b : MainArgs} {x : Program.Machine}
    (hr : ∀ act, Runs { w with config := c } a act ↔ Runs { w with config := c0 } b act)
    (ht : ∀ cfg, Program.Tests { w with config := c } x a cfg ↔ Program.Tests { w with config := c0 } x b cfg)
    (hl : (a.list || a.listFiles) = (b.list || b.listFiles)) {code}
    (h : Program.Ends { w with config := c } x (.run a) code) : Program.Ends { w with config := c0 } x (.run b) code := by
  cases h with
  | error h => exact .error fun act h' => h act ((hr act).2 h')
  | panic h => exact .panic fun act h' => h act ((hr act).2 h')
  | troubleError h => exact .troubleError h
  | troublePanic h => exact .troublePanic h
  | listed h h' => exact .listed ((hr _).1 h) (hl ▸ h')
  | tested h he hm hc => exact .tested ((ht _).1 h) he hm hc
  | testError h he hm => exact .testError ((ht _).1 h) he hm
  | testPanic h he hm => exact .testPanic ((ht _).1 h) he hm
  | exitPanic h he hm hc => exact .exitPanic ((ht _).1 h) he hm hc

/-- **C83**: a run with a configuration file and one without it that has the options for the settings instead list the same or
test the same, and may end with the same exit codes. -/
theorem C83_same_run (number : Text → Option Rat) (w : World) (entries : List (Text × Toml)) (c c0 : Config)
    (hc : Means number entries c) (h0 : Means number [] c0) (hn : NoCommas entries)
    (a : MainArgs) (b : Args) (ha : Gives number [] a.options) (hb : Gives number entries b) (hs : SameOtherwise a.options b) :
    (∀ act, Runs { w with config := c } a act ↔ Runs { w with config := c0 } { a with options := b } act) ∧
    (∀ x cfg, Program.Tests { w with config := c } x a cfg ↔ Program.Tests { w with config := c0 } x { a with options := b } cfg) ∧
    ∀ x code, Program.Ends { w with config := c } x (.run a) code ↔
      Program.Ends { w with config := c0 } x (.run { a with options := b }) code := by
  have ho := C83_options number w.regex entries c c0 hc h0 hn a.options b ha hb hs
  have hr := fun act => runs_same ho act
  have ht := fun x cfg => tests_same ho hs x cfg
  exact ⟨hr, ht, fun x code => ⟨ends_same hr (ht x) rfl, ends_same (fun act => (hr act).symm) (fun cfg => (ht x cfg).symm) rfl⟩⟩

/-- The options for the settings of the file above. -/
def sampleConfigArgs : Args := { timeoutMultiplier := some 3, excludeRe := ["a".toList, "b".toList], testTool := some .nextest }

/-- The hypotheses of the theorems hold for that file. -/
example : Gives sampleNumber sampleConfigEntries sampleConfigArgs ∧ Gives sampleNumber [] {} ∧ SameOtherwise {} sampleConfigArgs ∧
    NoCommas sampleConfigEntries := by
  refine ⟨⟨?_, ?_⟩, ⟨fun _ _ _ h => (by cases h), ?_⟩, by simp [SameOtherwise, sampleConfigArgs], ?_⟩
  · intro k hk v hv opt ho
    simp only [sampleConfigEntries, List.mem_cons, Prod.mk.injEq, List.not_mem_nil, or_false] at hv
    simp only [configKeys, List.mem_cons, List.not_mem_nil, or_false] at hk
    simp only [optionKeys, List.mem_cons, List.not_mem_nil, or_false] at ho
    rcases hk with rfl | rfl | rfl | rfl | rfl | rfl | rfl | rfl | rfl | rfl | rfl | rfl | rfl | rfl | rfl | rfl | rfl | rfl | rfl
    all_goals simp at hv
    all_goals simp at ho
    · subst hv; subst ho
      exact ⟨_, .texts ["a".toList, "b".toList], rfl⟩
    · subst hv; subst ho
      exact ⟨_, .nextest, rfl⟩
    · subst hv; subst ho
      exact ⟨_, .number (q := 3) rfl, rfl⟩
  · intro k hk hv opt ho
    simp only [configKeys, List.mem_cons, List.not_mem_nil, or_false] at hk
    simp only [optionKeys, List.mem_cons, List.not_mem_nil, or_false] at ho
    rcases hk with rfl | rfl | rfl | rfl | rfl | rfl | rfl | rfl | rfl | rfl | rfl | rfl | rfl | rfl | rfl | rfl | rfl | rfl | rfl
    all_goals simp at ho
    all_goals subst ho
    all_goals first
      | exact .inl rfl
      | exact .inr rfl
      | exact absurd (List.mem_of_getElem? (i := 0) rfl) (hv _)
      | exact absurd (List.mem_of_getElem? (i := 1) rfl) (hv _)
      | exact absurd (List.mem_of_getElem? (i := 2) rfl) (hv _)
  · intro k hk _ opt ho
    simp only [configKeys, List.mem_cons, List.not_mem_nil, or_false] at hk
    simp only [optionKeys, List.mem_cons, List.not_mem_nil, or_false] at ho
    rcases hk with rfl | rfl | rfl | rfl | rfl | rfl | rfl | rfl | rfl | rfl | rfl | rfl | rfl | rfl | rfl | rfl | rfl | rfl | rfl
    all_goals simp at ho
    all_goals subst ho
    all_goals first | exact .inl rfl | exact .inr rfl
  · intro key hk names hn
    simp only [sampleConfigEntries, List.mem_cons, Prod.mk.injEq, List.not_mem_nil, or_false] at hn
    simp only [List.mem_cons, List.not_mem_nil, or_false] at hk
    rcases hk with rfl | rfl <;> simp at hn

/-- Commas matter: a key can not give two names in one text. -/
example (regex) : Options.new regex {} { skipCalls := ["a,b".toList] } ≠ Options.new regex { skipCalls := ["a,b".toList] } {} := by
  intro h
  have : chooseSkipCalls {} { skipCalls := ["a,b".toList] } = chooseSkipCalls { skipCalls := ["a,b".toList] } {} := by
    have := congrArg (Option.map Options.skipCalls) h
    exact Option.some.inj this
  revert this
  decide

end CM.Props
