import Verif.Props.Again
import Verif.Props.ListFiles
/-! C103: leaving mutants out does not change the results of the others. -/
namespace CM.Props
open CM CM.Spec

theorem sublist_rest {α} {l l' : List α} (h : l.Sublist l') : ∃ rest, l'.Perm (l ++ rest) := by
  induction h with
  | slnil => exact ⟨[], .refl _⟩
  | cons a _ ih =>
    obtain ⟨rest, ih⟩ := ih
    exact ⟨a :: rest, (ih.cons a).trans List.perm_middle.symm⟩
  | cons_cons a _ ih =>
    obtain ⟨rest, ih⟩ := ih
    exact ⟨rest, ih.cons a⟩

theorem lines_sublist {check baseline : Bool} {beh : Scenario → Phase → Exit} {f : ListFile} {part ms : List Mutant}
    (h : part.Sublist ms) : (expectedLines check baseline beh part f).Sublist (expectedLines check baseline beh ms f) := by
  unfold expectedLines
  by_cases hst : Stopped check baseline beh
  · rw [if_pos hst, if_pos hst]; exact .slnil
  · rw [if_neg hst, if_neg hst]
    exact (h.filter _).filterMap _

theorem mem_expectedLines {check baseline : Bool} {beh : Scenario → Phase → Exit} {f : ListFile} {ms : List Mutant} {m : Mutant} {n : Text}
    (hm : m ∈ ms) (hn : m.name true = some n) (hu : ∀ m' ∈ ms, m'.name true = some n → m' = m) :
    n ∈ expectedLines check baseline beh ms f ↔ ¬ Stopped check baseline beh ∧ fateFrom check beh m = some f := by
  unfold expectedLines
  by_cases hst : Stopped check baseline beh
  · rw [if_pos hst]; simp [hst]
  · rw [if_neg hst, List.mem_filterMap]
    constructor
    · rintro ⟨m', hm', hn'⟩
      obtain ⟨h1, h2⟩ := List.mem_filter.1 hm'
      cases hu m' h1 hn'
      exact ⟨hst, by simpa using h2⟩
    · rintro ⟨_, hf⟩
      exact ⟨m, List.mem_filter.2 ⟨hm, by simpa using hf⟩, hn⟩

/-- **C103**: two runs, of any trees, arguments and machines, that both select a mutant: if the commands end alike, then the mutant is
in the same lists after both, whatever else they test. -/
theorem C103_same_fate (w w' : World) (x x' : Program.Machine) (a a' : MainArgs) (cfg cfg' : Run.Config)
    (h : Program.Tests w x a cfg) (h' : Program.Tests w' x' a' cfg') (ms ms' : List Mutant) (hs : Selects w a ms)
    (hs' : Selects w' a' ms') (hcheck : a.options.check = a'.options.check) (hbase : a.options.baseline = a'.options.baseline)
    (hl : ∀ m ∈ ms ++ ms', ∀ n, m.name true = some n → OneLine n) (es es' : List Run.Event) (s s' : Run.State)
    (he : Run.exec cfg (Run.init cfg) es = some s) (he' : Run.exec cfg' (Run.init cfg') es' = some s') (l l' : LabOutcome)
    (hr : s.lab.main = .returned (some l)) (hr' : s'.lab.main = .returned (some l')) (beh : Scenario → Phase → Exit)
    (hb : Behaves cfg es beh) (hb' : Behaves cfg' es' beh) (m : Mutant) (hm : m ∈ ms) (hm' : m ∈ ms') (n : Text)
    (hn : m.name true = some n) (hu : ∀ k ∈ ms ++ ms', k.name true = some n → k = m) (f : ListFile) :
    n ∈ rustLines (s.lab.sh.out.get f) ↔ n ∈ rustLines (s'.lab.sh.out.get f) := by
  rw [(C98_lines w x a cfg h ms hs (fun m hm => hl m (by simp [hm])) es s he l hr beh hb f).mem_iff,
    (C98_lines w' x' a' cfg' h' ms' hs' (fun m hm => hl m (by simp [hm])) es' s' he' l' hr' beh hb' f).mem_iff,
    mem_expectedLines hm hn fun k hk => hu k (by simp [hk]), mem_expectedLines hm' hn fun k hk => hu k (by simp [hk]), hcheck, hbase]

/-- **C103**: if the mutants of one run are among those of another, in the same order, then its lists have only lines that those of the
other have, none more often, and its exit code is not greater. -/
theorem C103_part (w w' : World) (x x' : Program.Machine) (a a' : MainArgs) (cfg cfg' : Run.Config)
    (h : Program.Tests w x a cfg) (h' : Program.Tests w' x' a' cfg') (ms part : List Mutant) (hs : Selects w a ms)
    (hs' : Selects w' a' part) (hsub : part.Sublist ms) (hcheck : a.options.check = a'.options.check)
    (hbase : a.options.baseline = a'.options.baseline) (hl : ∀ m ∈ ms, ∀ n, m.name true = some n → OneLine n)
    (es es' : List Run.Event) (s s' : Run.State)
    (he : Run.exec cfg (Run.init cfg) es = some s) (he' : Run.exec cfg' (Run.init cfg') es' = some s') (l l' : LabOutcome)
    (hr : s.lab.main = .returned (some l)) (hr' : s'.lab.main = .returned (some l')) (beh : Scenario → Phase → Exit)
    (hb : Behaves cfg es beh) (hb' : Behaves cfg' es' beh) :
    (∀ f, ∃ rest, (rustLines (s.lab.sh.out.get f)).Perm (rustLines (s'.lab.sh.out.get f) ++ rest)) ∧
    ∃ c c', l.exitCode = some c ∧ l'.exitCode = some c' ∧ c' ≤ c := by
  constructor
  · intro f
    have h1 := C98_lines w x a cfg h ms hs hl es s he l hr beh hb f
    have h2 := C98_lines w' x' a' cfg' h' part hs' (fun m hm => hl m (hsub.subset hm)) es' s' he' l' hr' beh hb' f
    rw [← hcheck, ← hbase] at h2
    obtain ⟨rest, h3⟩ := sublist_rest (lines_sublist (check := a.options.check) (baseline := decide (a.options.baseline = .run))
      (beh := beh) (f := f) hsub)
    exact ⟨rest, h1.trans (h3.trans (h2.symm.append_right rest))⟩
  · refine ⟨_, _, C98_code w x a cfg h ms hs es s he l hr beh hb, C98_code w' x' a' cfg' h' part hs' es' s' he' l' hr' beh hb', ?_⟩
    rw [← hcheck, ← hbase]
    exact code_le fun m hm => hsub.subset hm

/-- **C103**: what is selected with filters, in the arguments and in the configuration file, with `--iterate`, `--in-diff` and
`--shard`, is a part of what is selected without any of these, in the same order. -/
theorem C103_filters_leave_out (w : World) (a : MainArgs) (all ms : List Mutant)
    (h0 : Selects { w with config := { w.config with examineGlobs := [], excludeGlobs := [], examineRe := [], excludeRe := [] } }
      { a with
        options := { a.options with file := [], exclude := [], examineRe := [], excludeRe := [] },
        iterate := false, inDiff := none, shard := none } all)
    (h : Selects w a ms) : ms.Sublist all := by
  obtain ⟨found, fs, ⟨o, pkgs, exprs, hn, hp, he, hw⟩, hsub⟩ := selects_sublist h
  obtain ⟨all', F0, l0, c0, ⟨o0, pkgs0, exprs0, hn0, hp0, he0, hw0⟩, e0, e0', e0''⟩ := h0
  cases e0; cases e0'; cases e0''
  obtain ⟨k0, _, _⟩ := new_eq hn
  cases (hp : _).symm.trans hp0
  cases hn0.symm.trans k0
  have he' : parsedErrorExprs w.parseExpr o.errorValues = some exprs0 := he0
  cases (he : _).symm.trans he'
  have hall : WalksTree (unfilteredEnv (w.walkEnv o exprs)) pkgs all F0 := hw0
  cases (walksTree_unique hw (walksTree_filter hall)).1
  exact hsub.trans List.filter_sublist

/-- **C103**: a run with filters finds nothing else than the run without: its lists have only lines that those of that run have, and its
exit code is not greater. -/
theorem C103_filtered_run (w : World) (x x' : Program.Machine) (a : MainArgs) (cfg cfg' : Run.Config) (w0 : World) (a0 : MainArgs)
    (hw0 : w0 = { w with config := { w.config with examineGlobs := [], excludeGlobs := [], examineRe := [], excludeRe := [] } })
    (ha0 : a0 = { a with
      options := { a.options with file := [], exclude := [], examineRe := [], excludeRe := [] },
      iterate := false, inDiff := none, shard := none })
    (h : Program.Tests w0 x a0 cfg) (h' : Program.Tests w x' a cfg') (ms part : List Mutant) (hs : Selects w0 a0 ms)
    (hs' : Selects w a part) (hl : ∀ m ∈ ms, ∀ n, m.name true = some n → OneLine n) (es es' : List Run.Event) (s s' : Run.State)
    (he : Run.exec cfg (Run.init cfg) es = some s) (he' : Run.exec cfg' (Run.init cfg') es' = some s') (l l' : LabOutcome)
    (hr : s.lab.main = .returned (some l)) (hr' : s'.lab.main = .returned (some l')) (beh : Scenario → Phase → Exit)
    (hb : Behaves cfg es beh) (hb' : Behaves cfg' es' beh) :
    (∀ f, ∃ rest, (rustLines (s.lab.sh.out.get f)).Perm (rustLines (s'.lab.sh.out.get f) ++ rest)) ∧
    ∃ c c', l.exitCode = some c ∧ l'.exitCode = some c' ∧ c' ≤ c := by
  subst hw0 ha0
  exact C103_part _ w x x' _ a cfg cfg' h h' ms part hs hs' (C103_filters_leave_out w a ms part hs hs') rfl rfl hl es es' s s' he he'
    l l' hr hr' beh hb hb'

namespace CampaignSample

theorem whole_and_part : (alikeIn { args with iterate := false } nothing (threeMutants ProgramSample.exit101 RunSample.exit0 RunSample.exit0)).any (fun r =>
    allOneLine r.1 && distinct r.1 &&
    (alikeIn { args with iterate := false, shard := some ⟨0, 2⟩ } nothing (twoMutants ProgramSample.exit101 RunSample.exit0)).any fun r' =>
      r'.1.isSublist r.1 && rustLines r'.2.1.lab.sh.out.caughtTxt == [ProgramSample.first]) = true := by decide +kernel

/-- For C103: two runs that meet the hypotheses. -/
example : ∃ w x a a' cfg cfg' ms part es es' s s' l l' beh, Program.Tests w x a cfg ∧ Program.Tests w x a' cfg' ∧ Selects w a ms ∧
    Selects w a' part ∧ part.Sublist ms ∧ a.options = a'.options ∧ (∀ m ∈ ms, ∀ n, m.name true = some n → OneLine n) ∧
    (∀ m ∈ ms, ∀ m' ∈ ms, m.name true = m'.name true → m = m') ∧
    Run.exec cfg (Run.init cfg) es = some s ∧ Run.exec cfg' (Run.init cfg') es' = some s' ∧ s.lab.main = .returned (some l) ∧
    s'.lab.main = .returned (some l') ∧ Behaves cfg es beh ∧ Behaves cfg' es' beh ∧
    rustLines s'.lab.sh.out.caughtTxt = [ProgramSample.first] := by
  obtain ⟨⟨ms, s, l, f'⟩, hr, h1⟩ := option_any whole_and_part
  rw [Bool.and_eq_true, Bool.and_eq_true] at h1
  obtain ⟨⟨h1, h2⟩, h4⟩ := h1
  obtain ⟨⟨part, s', l', f''⟩, hr', h4⟩ := option_any h4
  rw [Bool.and_eq_true] at h4
  obtain ⟨cfg, f, e1, e2, e3, e4, e5, e6, _⟩ := alikeIn_tests (a := { args with iterate := false }) (by intro h; cases h) rfl rfl hr
  obtain ⟨cfg', _, g1, g2, g3, g4, g5, g6, _⟩ := alikeIn_tests (a := { args with iterate := false, shard := some ⟨0, 2⟩ })
    (by intro h; cases h) rfl rfl hr'
  exact ⟨world nothing, _, { args with iterate := false }, { args with iterate := false, shard := some ⟨0, 2⟩ }, cfg, cfg', ms, part, _, _, s,
    s', l, l', _, e2, g2, e1, g1, List.isSublist_iff_sublist.1 h4.1, rfl, allOneLine_iff h1, distinct_iff h2, e4, g4, e5, g5, e6, g6,
    eq_of_beq h4.2⟩

/-- With the filters of the configuration file three mutants are selected, without any six. -/
example : (trySelect (world nothing) { args with iterate := false } 3).map List.length = some 3 ∧
    (trySelect { world nothing with config := { (world nothing).config with examineGlobs := [], excludeGlobs := [], examineRe := [], excludeRe := [] } }
      { args with
        options := { args.options with file := [], exclude := [], examineRe := [], excludeRe := [] },
        iterate := false, inDiff := none, shard := none } 3).map List.length = some 6 := by decide +kernel

end CampaignSample

end CM.Props
