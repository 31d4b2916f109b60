import Verif.Props.Same
/-! C100 and C101: runs with `--iterate` and `--shard` give the results of the whole run, if the commands end alike. -/
namespace CM.Props
open CM CM.Spec

/-! ### C101 -/

theorem code_le {check baseline : Bool} {beh : Scenario → Phase → Exit} {part ms : List Mutant} (h : ∀ m ∈ part, m ∈ ms) :
    expectedCode check baseline beh part ≤ expectedCode check baseline beh ms := by
  unfold expectedCode
  by_cases h1 : part = []
  · rw [if_pos h1]; exact Nat.zero_le _
  · have h2 : ms ≠ [] := by
      rintro rfl
      obtain ⟨m, hm⟩ := List.exists_mem_of_ne_nil _ h1
      cases h m hm
    rw [if_neg h1, if_neg h2]
    by_cases hst : Stopped check baseline beh
    · rw [if_pos hst, if_pos hst]; exact Nat.le_refl _
    · rw [if_neg hst, if_neg hst]
      have sub : ∀ f, (∃ m ∈ part, fateFrom check beh m = some f) → ∃ m ∈ ms, fateFrom check beh m = some f :=
        fun f ⟨m, hm, hf⟩ => ⟨m, h m hm, hf⟩
      by_cases ht : ∃ m ∈ part, fateFrom check beh m = some .timeout
      · rw [if_pos ht, if_pos (sub _ ht)]; exact Nat.le_refl _
      · rw [if_neg ht]
        by_cases hm : ∃ m ∈ part, fateFrom check beh m = some .missed
        · rw [if_pos hm]
          by_cases ht' : ∃ m ∈ ms, fateFrom check beh m = some .timeout
          · rw [if_pos ht']; decide
          · rw [if_neg ht', if_pos (sub _ hm)]; exact Nat.le_refl _
        · rw [if_neg hm]; exact Nat.zero_le _

/-- The code of the whole is that of some part. -/
theorem code_of_part {check baseline : Bool} {beh : Scenario → Phase → Exit} {parts : List (List Mutant)} {ms : List Mutant}
    (hne : parts ≠ []) (h : parts.flatten.Perm ms) :
    ∃ part ∈ parts, expectedCode check baseline beh part = expectedCode check baseline beh ms := by
  have hsub : ∀ part ∈ parts, ∀ m ∈ part, m ∈ ms := fun part hp m hm => h.mem_iff.1 (List.mem_flatten.2 ⟨part, hp, hm⟩)
  have hin : ∀ m ∈ ms, ∃ part ∈ parts, m ∈ part := fun m hm => List.mem_flatten.1 (h.mem_iff.2 hm)
  have enough : ∀ part ∈ parts, expectedCode check baseline beh ms ≤ expectedCode check baseline beh part →
      ∃ part ∈ parts, expectedCode check baseline beh part = expectedCode check baseline beh ms :=
    fun part hp hle => ⟨part, hp, Nat.le_antisymm (code_le (hsub part hp)) hle⟩
  obtain ⟨part0, hp0⟩ := List.exists_mem_of_ne_nil _ hne
  by_cases h2 : ms = []
  · refine enough part0 hp0 ?_
    rw [show expectedCode check baseline beh ms = 0 by unfold expectedCode; rw [if_pos h2]]
    exact Nat.zero_le _
  · by_cases hst : Stopped check baseline beh
    · obtain ⟨m, hm⟩ := List.exists_mem_of_ne_nil _ h2
      obtain ⟨part, hp, hmp⟩ := hin m hm
      refine ⟨part, hp, ?_⟩
      unfold expectedCode
      rw [if_neg h2, if_neg (List.ne_nil_of_mem hmp), if_pos hst, if_pos hst]
    · by_cases ht : ∃ m ∈ ms, fateFrom check beh m = some .timeout
      · obtain ⟨m, hm, hf⟩ := ht
        obtain ⟨part, hp, hmp⟩ := hin m hm
        refine ⟨part, hp, ?_⟩
        unfold expectedCode
        rw [if_neg h2, if_neg (List.ne_nil_of_mem hmp), if_neg hst, if_neg hst, if_pos ⟨m, hmp, hf⟩, if_pos ⟨m, hm, hf⟩]
      · by_cases hmi : ∃ m ∈ ms, fateFrom check beh m = some .missed
        · obtain ⟨m, hm, hf⟩ := hmi
          obtain ⟨part, hp, hmp⟩ := hin m hm
          refine ⟨part, hp, ?_⟩
          unfold expectedCode
          rw [if_neg h2, if_neg (List.ne_nil_of_mem hmp), if_neg hst, if_neg hst, if_neg ht,
            if_neg fun ⟨m', hm', hf'⟩ => ht ⟨m', hsub part hp m' hm', hf'⟩, if_pos ⟨m, hmp, hf⟩, if_pos ⟨m, hm, hf⟩]
        · refine enough part0 hp0 ?_
          rw [show expectedCode check baseline beh ms = 0 by
            unfold expectedCode; rw [if_neg h2, if_neg hst, if_neg ht, if_neg hmi]]
          exact Nat.zero_le _

theorem lines_flatten (check baseline : Bool) (beh : Scenario → Phase → Exit) (f : ListFile) (parts : List (List Mutant)) :
    parts.flatMap (fun part => expectedLines check baseline beh part f) = expectedLines check baseline beh parts.flatten f := by
  unfold expectedLines
  by_cases hst : Stopped check baseline beh
  · simp only [if_pos hst]
    induction parts with
    | nil => rfl
    | cons p ps ih => rw [List.flatMap_cons, ih, List.nil_append]
  · simp only [if_neg hst]
    induction parts with
    | nil => rfl
    | cons p ps ih => rw [List.flatMap_cons, ih, List.flatten_cons, List.filter_append, List.filterMap_append]

theorem lines_perm {check baseline : Bool} {beh : Scenario → Phase → Exit} {f : ListFile} {ms ms' : List Mutant} (h : ms.Perm ms') :
    (expectedLines check baseline beh ms f).Perm (expectedLines check baseline beh ms' f) := by
  unfold expectedLines
  by_cases hst : Stopped check baseline beh
  · rw [if_pos hst, if_pos hst]
  · rw [if_neg hst, if_neg hst]
    exact (h.filter _).filterMap _

theorem flatMap_range_perm {α} {g : Nat → List α} {xs : List (List α)} (h : ∀ k (hk : k < xs.length), (g k).Perm xs[k]) :
    ((List.range xs.length).flatMap g).Perm xs.flatten := by
  induction xs generalizing g with
  | nil => exact List.Perm.refl _
  | cons x xs ih =>
    rw [List.length_cons, List.range_succ_eq_map, List.flatMap_cons, List.flatten_cons, List.flatMap_map]
    exact (h 0 (Nat.zero_lt_succ _)).append (ih fun k hk => h (k + 1) (Nat.succ_lt_succ hk))

/-- **C101**: all shards are run, each perhaps on its own machine, with its own number of jobs, order and output directory; and the
whole is run without sharding. If the commands end alike in all these runs, then the lists of the shards together have the lines
of the list of the whole run, and its exit code is the greatest of theirs. -/
theorem C101_shards_are_the_whole (w : World) (a : MainArgs) (n : Nat) (hn : 0 < n) (x0 : Program.Machine) (cfg0 : Run.Config)
    (h0 : Program.Tests w x0 { a with shard := none } cfg0) (ms : List Mutant) (hs : Selects w { a with shard := none } ms)
    (hnames : ∀ m ∈ ms, ∀ n, m.name true = some n → OneLine n) (es0 : List Run.Event) (s0 : Run.State)
    (he0 : Run.exec cfg0 (Run.init cfg0) es0 = some s0) (l0 : LabOutcome) (hr0 : s0.lab.main = .returned (some l0))
    (out : Nat → FsState) (hout : a.iterate = true → ∀ k < n, out k = w.output) (x : Nat → Program.Machine)
    (cfg : Nat → Run.Config) (es : Nat → List Run.Event) (s : Nat → Run.State) (l : Nat → LabOutcome)
    (h : ∀ k < n, Program.Tests (World.withOutput w (out k)) (x k) { a with shard := some ⟨k, n⟩ } (cfg k))
    (he : ∀ k < n, Run.exec (cfg k) (Run.init (cfg k)) (es k) = some (s k))
    (hr : ∀ k < n, (s k).lab.main = .returned (some (l k))) (beh : Scenario → Phase → Exit) (hb0 : Behaves cfg0 es0 beh)
    (hb : ∀ k < n, Behaves (cfg k) (es k) beh) :
    (∀ f, ((List.range n).flatMap fun k => rustLines ((s k).lab.sh.out.get f)).Perm (rustLines (s0.lab.sh.out.get f))) ∧
    ∃ c, l0.exitCode = some c ∧ (∀ k < n, ∃ c' ≤ c, (l k).exitCode = some c') ∧ ∃ k < n, (l k).exitCode = some c := by
  obtain ⟨parts, hlen, hperm, hsel⟩ := selects_shards w a ms hs n hn
  subst hlen
  have hsub : ∀ k (hk : k < parts.length), ∀ m ∈ parts[k], m ∈ ms := fun k hk m hm =>
    hperm.mem_iff.1 (List.mem_flatten.2 ⟨_, List.getElem_mem hk, hm⟩)
  have sel : ∀ k (hk : k < parts.length), Selects (World.withOutput w (out k)) { a with shard := some ⟨k, parts.length⟩ } parts[k] :=
    fun k hk => (selects_withOutput (a := { a with shard := some ⟨k, parts.length⟩ }) (fun hi => hout hi k hk) _).2 (hsel k hk)
  have code : ∀ k (hk : k < parts.length), (l k).exitCode =
      some (expectedCode a.options.check (decide (a.options.baseline = .run)) beh parts[k]) := fun k hk =>
    C98_code _ (x k) { a with shard := some ⟨k, parts.length⟩ } (cfg k) (h k hk) _ (sel k hk) (es k) (s k) (he k hk) (l k) (hr k hk)
      beh (hb k hk)
  constructor
  · intro f
    refine List.Perm.trans ?_ (C98_lines w x0 _ cfg0 h0 ms hs hnames es0 s0 he0 l0 hr0 beh hb0 f).symm
    have hlines : ∀ k (hk : k < parts.length), (rustLines ((s k).lab.sh.out.get f)).Perm
        (expectedLines a.options.check (decide (a.options.baseline = .run)) beh parts[k] f) := fun k hk =>
      C98_lines _ (x k) { a with shard := some ⟨k, parts.length⟩ } (cfg k) (h k hk) _ (sel k hk)
        (fun m hm => hnames m (hsub k hk m hm)) (es k) (s k) (he k hk) (l k) (hr k hk) beh (hb k hk) f
    have := flatMap_range_perm (g := fun k => rustLines ((s k).lab.sh.out.get f))
      (xs := parts.map fun part => expectedLines a.options.check (decide (a.options.baseline = .run)) beh part f)
      (by
        intro k hk
        rw [List.getElem_map]
        exact hlines k (by simpa using hk))
    rw [List.length_map] at this
    refine this.trans ?_
    rw [← List.flatMap_def, lines_flatten]
    exact lines_perm hperm
  · refine ⟨_, C98_code w x0 _ cfg0 h0 ms hs es0 s0 he0 l0 hr0 beh hb0, ?_, ?_⟩
    · exact fun k hk => ⟨_, code_le (hsub k hk), code k hk⟩
    · obtain ⟨part, hp, hc⟩ := code_of_part (check := a.options.check) (baseline := decide (a.options.baseline = .run)) (beh := beh)
        (List.ne_nil_of_length_pos hn) hperm
      obtain ⟨k, hk, rfl⟩ := List.getElem_of_mem hp
      exact ⟨k, hk, (code k hk).trans (congrArg some hc)⟩

/-! ### C100 -/

/-- What is selected after a run that left these lists. -/
theorem selects_again {w : World} {a : MainArgs} (hshard : a.shard = none)
    (hprev : a.iterate = true → ∀ n, ListedAsDone w.output n → OneLine n) {ms : List Mutant} (hs : Selects w a ms) {out : FsState}
    (ho : prepareOutput w a.iterate = some out) (f : OutputFiles) {ms' : List Mutant}
    (hs' : Selects (World.withOutput w (Program.leaves out f)) { a with iterate := true } ms') :
    ms' = ms.filter (notCaught (rustLines f.caughtTxt ++ rustLines f.unviableTxt)) := by
  obtain ⟨found, fs, left, changed, hd, h1, h2, h3⟩ := hs
  obtain ⟨found', fs', left', changed', hd', h1', h2', h3'⟩ := hs'
  obtain ⟨e, _⟩ := discovers_unique (w := w) (a := a) hd hd'
  subst e
  rw [hshard] at h3
  simp only [hshard] at h3'
  cases h3
  cases h3'
  obtain ⟨d, hdir, hpc⟩ := prepared_dir ho
  have listed := fun n => listed_leaves hdir f n
  simp only [iterateFilter, if_true] at h1'
  have e' := iterate_eq h1'
  have hleft : left' = left.filter (notCaught (rustLines f.caughtTxt ++ rustLines f.unviableTxt)) := by
    rw [e']
    cases hi : a.iterate with
    | false =>
      rw [hi] at h1 hpc
      cases h1
      refine List.filter_congr fun m _ => ?_
      unfold notCaught
      cases m.name true with
      | none => rfl
      | some n =>
        show (!decide (n ∈ loadPreviouslyCaught (Program.leaves out f))) = !decide _
        refine congrArg _ (decide_eq_decide.2 ?_)
        rw [mem_load, listed, hpc, List.mem_append]
        simp
    | true =>
      rw [hi] at h1 hpc
      simp only [iterateFilter, if_true] at h1
      rw [iterate_eq h1, List.filter_filter]
      refine List.filter_congr fun m _ => ?_
      unfold notCaught
      cases m.name true with
      | none => rfl
      | some n =>
        show (!decide (n ∈ loadPreviouslyCaught (Program.leaves out f))) = _
        have : n ∈ loadPreviouslyCaught (Program.leaves out f) ↔
            n ∈ rustLines f.caughtTxt ++ rustLines f.unviableTxt ∨ n ∈ loadPreviouslyCaught w.output := by
          rw [mem_load, listed, hpc, List.mem_append, if_pos rfl]
          simp only [Option.some.injEq]
          constructor
          · rintro (h | h | ⟨t, rfl, h⟩)
            · exact .inl (.inl h)
            · exact .inl (.inr h)
            · rw [prev_lines (hprev hi)] at h; exact .inr h
          · rintro ((h | h) | h)
            · exact .inl h
            · exact .inr (.inl h)
            · exact .inr (.inr ⟨_, rfl, by rw [prev_lines (hprev hi)]; exact h⟩)
        simp only [decide_eq_decide.2 this]
        by_cases p1 : n ∈ rustLines f.caughtTxt ++ rustLines f.unviableTxt <;>
          by_cases p2 : n ∈ loadPreviouslyCaught w.output <;> simp [p1, p2]
  unfold inDiffFilter at h2 h2'
  cases hdiff : a.inDiff with
  | none =>
    rw [hdiff] at h2
    simp only [hdiff] at h2'
    cases h2
    cases h2'
    exact hleft
  | some file =>
    rw [hdiff] at h2
    simp only [hdiff] at h2'
    obtain ⟨t, ht, h2⟩ := Option.bind_eq_some_iff.1 h2
    obtain ⟨t', ht', h2'⟩ := Option.bind_eq_some_iff.1 h2'
    cases ht.symm.trans ht'
    have e1 := diff_eq h2
    have e2 := diff_eq h2'
    rw [e2, hleft, e1, List.filter_filter, List.filter_filter]
    refine List.filter_congr fun m _ => ?_
    exact Bool.and_comm _ _

/-- **C100**: a run is made, and then one with `--iterate` in the output directory that it left, perhaps with other jobs and in another
order. If the commands end alike, then the second run finds the same: the lists of missed mutants and of those that took too long
have the same lines, nothing is caught or found unviable again, and the exit code is the same. -/
theorem C100_iterate_finds_the_same (w : World) (x x' : Program.Machine) (a : MainArgs) (hshard : a.shard = none) (cfg cfg' : Run.Config)
    (h : Program.Tests w x a cfg) (ms : List Mutant) (hs : Selects w a ms)
    (hnames : ∀ m ∈ ms, ∀ n, m.name true = some n → OneLine n)
    (hinj : ∀ m ∈ ms, ∀ m' ∈ ms, m.name true = m'.name true → m = m')
    (hprev : a.iterate = true → ∀ n, ListedAsDone w.output n → OneLine n) (out : FsState)
    (ho : prepareOutput w a.iterate = some out) (es es' : List Run.Event) (s s' : Run.State)
    (he : Run.exec cfg (Run.init cfg) es = some s) (l l' : LabOutcome) (hr : s.lab.main = .returned (some l))
    (h' : Program.Tests (World.withOutput w (Program.leaves out s.lab.sh.out)) x' { a with iterate := true } cfg')
    (he' : Run.exec cfg' (Run.init cfg') es' = some s') (hr' : s'.lab.main = .returned (some l'))
    (beh : Scenario → Phase → Exit) (hb : Behaves cfg es beh) (hb' : Behaves cfg' es' beh) :
    (rustLines s'.lab.sh.out.missedTxt).Perm (rustLines s.lab.sh.out.missedTxt) ∧
    (rustLines s'.lab.sh.out.timeoutTxt).Perm (rustLines s.lab.sh.out.timeoutTxt) ∧
    rustLines s'.lab.sh.out.caughtTxt = [] ∧ rustLines s'.lab.sh.out.unviableTxt = [] ∧ l'.exitCode = l.exitCode ∧
    (l.exitCode ≠ some 4 → ∀ m ∈ cfg'.mutants, fateFrom a.options.check beh m ≠ some .caught ∧
      fateFrom a.options.check beh m ≠ some .unviable) := by
  obtain ⟨_, _, _, _, _, ms', hs', hperm', _⟩ := tests_facts h'
  have hms := selects_again hshard hprev hs ho _ hs'
  have hmem : ∀ m ∈ ms', m ∈ ms := fun m hm => (List.mem_filter.1 (hms ▸ hm)).1
  have lines := C98_lines w x a cfg h ms hs hnames es s he l hr beh hb
  have lines' := C98_lines _ x' { a with iterate := true } cfg' h' ms' hs' (fun m hm => hnames m (hmem m hm)) es' s' he' l' hr' beh hb'
  have code := C98_code w x a cfg h ms hs es s he l hr beh hb
  have code' := C98_code _ x' { a with iterate := true } cfg' h' ms' hs' es' s' he' l' hr' beh hb'
  simp only at lines' code'
  rw [code, code']
  generalize decide (a.options.baseline = .run) = base at *
  by_cases hst : Stopped a.options.check base beh
  · have empty : ∀ ms f, expectedLines a.options.check base beh ms f = [] := fun ms f => by unfold expectedLines; rw [if_pos hst]
    have hall : ms' = ms := by
      have h1 := (lines .caught).trans (by rw [empty])
      have h2 := (lines .unviable).trans (by rw [empty])
      have h1 : rustLines s.lab.sh.out.caughtTxt = [] := h1.eq_nil
      have h2 : rustLines s.lab.sh.out.unviableTxt = [] := h2.eq_nil
      rw [hms, h1, h2]
      refine List.filter_eq_self.2 fun m _ => ?_
      unfold notCaught
      cases m.name true <;> simp
    have nil : ∀ f, rustLines (s'.lab.sh.out.get f) = [] := fun f => ((lines' f).trans (by rw [empty])).eq_nil
    have nil0 : ∀ f, rustLines (s.lab.sh.out.get f) = [] := fun f => ((lines f).trans (by rw [empty])).eq_nil
    refine ⟨?_, ?_, nil .caught, nil .unviable, by rw [hall], ?_⟩
    · rw [show rustLines s'.lab.sh.out.missedTxt = [] from nil .missed, show rustLines s.lab.sh.out.missedTxt = [] from nil0 .missed]
    · rw [show rustLines s'.lab.sh.out.timeoutTxt = [] from nil .timeout, show rustLines s.lab.sh.out.timeoutTxt = [] from nil0 .timeout]
    · intro hne m hm
      exfalso
      have : m ∈ ms := hall ▸ hperm'.mem_iff.1 hm
      refine hne ?_
      unfold expectedCode
      rw [if_neg (List.ne_nil_of_mem this), if_pos hst]
  · have hlist : ∀ f, ∀ m ∈ ms, (∃ n, m.name true = some n ∧ n ∈ rustLines (s.lab.sh.out.get f)) ↔ fateFrom a.options.check beh m = some f := by
      intro f m hm
      obtain ⟨found, fs, ⟨oo, pkgs, exprs, _, _, _, hw⟩, hsub⟩ := selects_found hs
      obtain ⟨n, hn⟩ := walksTree_named hw m (hsub m hm) true
      have hin : n ∈ rustLines (s.lab.sh.out.get f) ↔ ∃ m' ∈ ms, fateFrom a.options.check beh m' = some f ∧ m'.name true = some n := by
        rw [(lines f).mem_iff]
        unfold expectedLines
        rw [if_neg hst]
        simp only [List.mem_filterMap, List.mem_filter, decide_eq_true_eq, and_assoc]
      constructor
      · rintro ⟨n', hn', h1⟩
        cases hn.symm.trans hn'
        obtain ⟨m', hm', h2, h3⟩ := hin.1 h1
        rw [hinj m hm m' hm' (hn.trans h3.symm)]
        exact h2
      · exact fun h1 => ⟨n, hn, hin.2 ⟨m, hm, h1, hn⟩⟩
    have hkeep : ∀ m ∈ ms, notCaught (rustLines s.lab.sh.out.caughtTxt ++ rustLines s.lab.sh.out.unviableTxt) m = true ↔
        fateFrom a.options.check beh m ≠ some .caught ∧ fateFrom a.options.check beh m ≠ some .unviable := by
      intro m hm
      have h1 := hlist .caught m hm
      have h2 := hlist .unviable m hm
      rw [Ne, Ne, ← h1, ← h2]
      unfold notCaught
      cases m.name true with
      | none => simp
      | some n =>
        simp only [Bool.not_eq_true', decide_eq_false_iff_not, List.mem_append, not_or, Option.some.injEq]
        constructor
        · rintro ⟨p, q⟩
          exact ⟨fun ⟨n', e, h⟩ => p (e ▸ h), fun ⟨n', e, h⟩ => q (e ▸ h)⟩
        · rintro ⟨p, q⟩
          exact ⟨fun h => p ⟨n, rfl, h⟩, fun h => q ⟨n, rfl, h⟩⟩
    have hms2 : ∀ m, m ∈ ms' ↔ m ∈ ms ∧ fateFrom a.options.check beh m ≠ some .caught ∧ fateFrom a.options.check beh m ≠ some .unviable := by
      intro m
      rw [hms, List.mem_filter]
      exact and_congr_right fun hm => hkeep m hm
    have keep : ∀ f, f ≠ .caught → f ≠ .unviable → expectedLines a.options.check base beh ms' f = expectedLines a.options.check base beh ms f := by
      intro f h1 h2
      unfold expectedLines
      rw [if_neg hst, if_neg hst, hms, List.filter_filter]
      congr 1
      refine List.filter_congr fun m hm => ?_
      by_cases hf : fateFrom a.options.check beh m = some f
      · have := (hkeep m hm).2 ⟨by rw [hf]; simpa using h1, by rw [hf]; simpa using h2⟩
        simp [hf, this]
      · simp [hf]
    have gone : ∀ f, f = .caught ∨ f = .unviable → expectedLines a.options.check base beh ms' f = [] := by
      intro f hf
      unfold expectedLines
      rw [if_neg hst]
      rw [List.filter_eq_nil_iff.2]
      · rfl
      · intro m hm
        obtain ⟨_, h1, h2⟩ := (hms2 m).1 hm
        rcases hf with rfl | rfl <;> simpa
    refine ⟨?_, ?_, ?_, ?_, ?_, ?_⟩
    · exact (lines' .missed).trans (by rw [keep .missed (by simp) (by simp)]; exact (lines .missed).symm)
    · exact (lines' .timeout).trans (by rw [keep .timeout (by simp) (by simp)]; exact (lines .timeout).symm)
    · exact ((lines' .caught).trans (by rw [gone .caught (.inl rfl)])).eq_nil
    · exact ((lines' .unviable).trans (by rw [gone .unviable (.inr rfl)])).eq_nil
    · congr 1
      have some_iff : ∀ f, f ≠ .caught → f ≠ .unviable →
          ((∃ m ∈ ms', fateFrom a.options.check beh m = some f) ↔ ∃ m ∈ ms, fateFrom a.options.check beh m = some f) := by
        intro f h1 h2
        constructor
        · rintro ⟨m, hm, hf⟩; exact ⟨m, hmem m hm, hf⟩
        · rintro ⟨m, hm, hf⟩; exact ⟨m, (hms2 m).2 ⟨hm, by rw [hf]; simpa using h1, by rw [hf]; simpa using h2⟩, hf⟩
      have ht := some_iff .timeout (by simp) (by simp)
      have hmi := some_iff .missed (by simp) (by simp)
      unfold expectedCode
      simp only [if_neg hst, ht, hmi]
      by_cases h1 : ms = []
      · have : ms' = [] := by rw [hms, h1]; rfl
        rw [if_pos h1, if_pos this]
      · rw [if_neg h1]
        by_cases h2 : ms' = []
        · rw [if_pos h2]
          have none : ∀ f, f ≠ .caught → f ≠ .unviable → ¬ ∃ m ∈ ms, fateFrom a.options.check beh m = some f := by
            intro f p q h
            obtain ⟨m, hm, _⟩ := (some_iff f p q).2 h
            rw [h2] at hm
            cases hm
          rw [if_neg (none .timeout (by simp) (by simp)), if_neg (none .missed (by simp) (by simp))]
        · rw [if_neg h2]
    · intro _ m hm
      exact ((hms2 m).1 (hperm'.mem_iff.1 hm)).2

/-! ### Runs that meet the hypotheses -/

namespace CampaignSample
open RunSample ProgramSample

/-- `afterIn`, with the mutants, if the run has ended, and its commands have ended as `caughtFirst` tells. -/
def alikeIn (a : MainArgs) (out : FsState) (es : List Run.Event) : Option (List Mutant × Run.State × LabOutcome × FsState) :=
  (trySelect (world out) a 3).bind fun ms => (Options.new (world out).regex a.options (world out).config).bind fun o =>
    (prepareOutput (world out) a.iterate).bind fun f =>
    (Run.exec (Program.config (world out) machine a o ms) (Run.init (Program.config (world out) machine a o ms)) es).bind fun s =>
    if endsAlike (Program.config (world out) machine a o ms) caughtFirst (Run.init (Program.config (world out) machine a o ms)) es then
      match s.lab.main with
      | .returned (some l) => some (ms, s, l, Program.leaves f s.lab.sh.out)
      | _ => none
    else none

theorem alikeIn_tests {a out es ms s l f'} (ha : Program.Accepted a) (hf : a.listFiles = false) (hl : a.list = false)
    (h : alikeIn a out es = some (ms, s, l, f')) : ∃ cfg f, Selects (world out) a ms ∧ Program.Tests (world out) machine a cfg ∧
    prepareOutput (world out) a.iterate = some f ∧ Run.exec cfg (Run.init cfg) es = some s ∧ s.lab.main = .returned (some l) ∧
    Behaves cfg es caughtFirst ∧ f' = Program.leaves f s.lab.sh.out := by
  unfold alikeIn at h
  obtain ⟨ms1, h1, h⟩ := Option.bind_eq_some_iff.1 h
  obtain ⟨o, h2, h⟩ := Option.bind_eq_some_iff.1 h
  obtain ⟨f, h3, h⟩ := Option.bind_eq_some_iff.1 h
  obtain ⟨s1, h4, h⟩ := Option.bind_eq_some_iff.1 h
  split at h
  · rename_i hb
    split at h
    · rename_i l1 hl1
      cases h
      have hs := selects_of_try h1
      exact ⟨_, f, hs, ⟨ha, o, f, ms, h2, (runs_iff _ _ hf _).2 ⟨ms, hs, by
        rw [if_neg (by rw [hl]; exact Bool.false_ne_true)]; exact ⟨f, h3, rfl⟩⟩, rfl⟩, h3, h4, hl1, behaves_of hb, rfl⟩
    · cases h
  · cases h

/-- What the run has written to `caught.txt` and `missed.txt`, and its exit code. -/
def told (r : List Mutant × Run.State × LabOutcome × FsState) : List Text × List Text × Option Nat :=
  (rustLines r.2.1.lab.sh.out.caughtTxt, rustLines r.2.1.lab.sh.out.missedTxt, r.2.2.1.exitCode)

def third : Text := "util/src/lib.rs:3:7: replace + with *".toList

def threeMutants (st st' st'' : ExitStatus) : List Run.Event :=
  baseline ++ [ok] ++ mutant st ++ mutant st' ++ mutant st'' ++ [ok, .main true]

end CampaignSample

set_option synthInstance.maxSize 512 in
/-- For C101: the runs of two shards and the whole run; `alikeIn_tests` tells that they meet the hypotheses. -/
example : (CampaignSample.alikeIn { CampaignSample.args with shard := none } CampaignSample.nothing
      (CampaignSample.threeMutants ProgramSample.exit101 RunSample.exit0 RunSample.exit0)).map CampaignSample.told =
    some ([ProgramSample.first], [ProgramSample.second, CampaignSample.third], some 2) := by decide +kernel
set_option synthInstance.maxSize 512 in
example : (CampaignSample.alikeIn { CampaignSample.args with shard := some ⟨0, 2⟩ } CampaignSample.nothing
      (CampaignSample.twoMutants ProgramSample.exit101 RunSample.exit0)).map CampaignSample.told =
    some ([ProgramSample.first], [CampaignSample.third], some 2) := by decide +kernel
set_option synthInstance.maxSize 512 in
example : (CampaignSample.alikeIn { CampaignSample.args with shard := some ⟨1, 2⟩ } CampaignSample.nothing
      (CampaignSample.oneMutant RunSample.exit0)).map CampaignSample.told =
    some ([], [ProgramSample.second], some 2) := by decide +kernel

namespace CampaignSample

theorem world_again (out out' : FsState) : World.withOutput (world out) out' = world out' := rfl
theorem args_again : { args with iterate := true } = args := rfl

def distinct (ms : List Mutant) : Bool := ms.all fun m => ms.all fun m' => (m.name true != m'.name true) || m == m'

theorem distinct_iff {ms} (h : distinct ms = true) : ∀ m ∈ ms, ∀ m' ∈ ms, m.name true = m'.name true → m = m' := by
  intro m hm m' hm' he
  have := List.all_eq_true.1 (List.all_eq_true.1 h m hm) m' hm'
  rw [he, bne_self_eq_false, Bool.false_or] at this
  exact eq_of_beq this

theorem twice : (alikeIn args nothing (threeMutants ProgramSample.exit101 RunSample.exit0 RunSample.exit0)).any (fun r =>
    allOneLine r.1 && distinct r.1 && (rustLines r.2.1.lab.sh.out.caughtTxt == [ProgramSample.first]) &&
    (alikeIn args r.2.2.2 (twoMutants RunSample.exit0 RunSample.exit0)).any fun r' =>
      rustLines r'.2.1.lab.sh.out.missedTxt == [ProgramSample.second, third]) = true := by decide +kernel

/-- For C100: two runs that meet the hypotheses. The first mutant is caught, the other two are missed and tested again. -/
example : ∃ w x a cfg cfg' ms out es es' s s' l l' beh, a.shard = none ∧ Program.Tests w x a cfg ∧ Selects w a ms ∧
    (∀ m ∈ ms, ∀ n, m.name true = some n → OneLine n) ∧ (∀ m ∈ ms, ∀ m' ∈ ms, m.name true = m'.name true → m = m') ∧
    (∀ n, ListedAsDone w.output n → OneLine n) ∧ prepareOutput w a.iterate = some out ∧
    Run.exec cfg (Run.init cfg) es = some s ∧ s.lab.main = .returned (some l) ∧
    Program.Tests (World.withOutput w (Program.leaves out s.lab.sh.out)) x { a with iterate := true } cfg' ∧
    Run.exec cfg' (Run.init cfg') es' = some s' ∧ s'.lab.main = .returned (some l') ∧ Behaves cfg es beh ∧ Behaves cfg' es' beh ∧
    rustLines s.lab.sh.out.caughtTxt = [ProgramSample.first] ∧
    rustLines s'.lab.sh.out.missedTxt = [ProgramSample.second, third] := by
  obtain ⟨⟨ms, s, l, f'⟩, hr, h1⟩ := option_any twice
  rw [Bool.and_eq_true, Bool.and_eq_true, Bool.and_eq_true] at h1
  obtain ⟨⟨⟨h1, h2⟩, h3⟩, h4⟩ := h1
  obtain ⟨⟨ms', s', l', f''⟩, hr', h4⟩ := option_any h4
  obtain ⟨cfg, f, e1, e2, e3, e4, e5, e6, e7⟩ := alikeIn_tests (a := args) (by intro h; cases h) rfl rfl hr
  obtain ⟨cfg', _, g1, g2, g3, g4, g5, g6, _⟩ := alikeIn_tests (a := args) (by intro h; cases h) rfl rfl hr'
  have g2' : Program.Tests (World.withOutput (world nothing) (Program.leaves f s.lab.sh.out)) ProgramSample.machine
      { args with iterate := true } cfg' := by
    rw [world_again, args_again, ← e7]; exact g2
  have hno : ∀ n, ListedAsDone (world nothing).output n → OneLine n := by rintro n ⟨d, _, _, h, _⟩; cases h
  exact ⟨world nothing, _, args, cfg, cfg', ms, f, _, _, s, s', l, l', _, rfl, e2, e1, allOneLine_iff h1, distinct_iff h2, hno, e3, e4, e5,
    g2', g4, g5, e6, g6, eq_of_beq h3, eq_of_beq h4⟩

end CampaignSample

end CM.Props
