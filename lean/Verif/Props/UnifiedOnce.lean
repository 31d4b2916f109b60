import Verif.Props.Unified
import Verif.Proofs.Shard
import Verif.Props.Logs
import Verif.Props.Json
/-! C106: a diff is read in one way only, and the diff that is recorded for a mutant says what was tested. -/
namespace CM.Props
open CM CM.Spec CM.Similar CM.UnifiedProofs

theorem digits_from_unique {a t v w} (h : DigitsFrom a t v) (h' : DigitsFrom a t w) : v = w := by
  induction h with
  | nil => cases h'; rfl
  | @cons a c d t v hd _ ih =>
    cases h' with
    | @cons _ _ d' _ _ hd' h' =>
      have : ∀ x ∈ digits, ∀ y ∈ digits, x.1 = y.1 → x.2 = y.2 := by decide
      have := this _ hd _ hd' rfl
      simp only at this
      subst this
      exact ih h'

theorem numeral_unique {t v w} (h : Decimal t v) (h' : Decimal t w) : v = w :=
  digits_from_unique (.of_decimal h) (.of_decimal h')

theorem numeral_plain {t v} (h : Decimal t v) : ',' ∉ t ∧ ' ' ∉ t := by
  have : ∀ x ∈ digits, x.1 ≠ ',' ∧ x.1 ≠ ' ' := by decide
  induction h with
  | one h => have := this _ h; simp only at this; simp [Ne.symm this.1, Ne.symm this.2]
  | more _ hd ih => have := this _ hd; simp only at this; simp [ih.1, ih.2, Ne.symm this.1, Ne.symm this.2]

theorem parts_unique {c : Char} {a b u v : Text} (ha : c ∉ a) (hb : c ∉ b) (h : a ++ c :: u = b ++ c :: v) : a = b ∧ u = v := by
  induction a generalizing b with
  | nil =>
    cases b with
    | nil => simpa using h
    | cons x b => simp at h hb; exact absurd h.1 hb.1
  | cons x a ih =>
    cases b with
    | nil => simp at h ha; exact absurd h.1.symm ha.1
    | cons y b =>
      simp only [List.cons_append, List.cons.injEq, List.mem_cons, not_or] at h ha hb
      obtain ⟨e1, e2⟩ := ih ha.2 hb.2 h.2
      exact ⟨by rw [h.1, e1], e2⟩

theorem range_plain {t b c} (h : HunkRange t b c) : ' ' ∉ t := by
  cases h with
  | single h => exact (numeral_plain h).2
  | several h h' => simp only [List.mem_append, not_or]; exact ⟨⟨(numeral_plain h).2, by decide⟩, (numeral_plain h').2⟩
  | none h h' => simp only [List.mem_append, not_or]; exact ⟨⟨(numeral_plain h).2, by decide⟩, (numeral_plain h').2⟩

/-- A range as a number, or two. -/
theorem range_cases {t b c} (h : HunkRange t b c) :
    (',' ∉ t ∧ Decimal t (b + 1) ∧ c = 1) ∨
    ∃ u v, t = u ++ ',' :: v ∧ ',' ∉ u ∧ Decimal v c ∧ (c ≠ 0 ∧ Decimal u (b + 1) ∨ c = 0 ∧ Decimal u b) := by
  cases h with
  | single h => exact .inl ⟨(numeral_plain h).1, h, rfl⟩
  | several h h' hne => exact .inr ⟨_, _, by simp, (numeral_plain h).1, h', .inl ⟨hne, h⟩⟩
  | none h h' => exact .inr ⟨_, _, by simp, (numeral_plain h).1, h', .inr ⟨rfl, h⟩⟩

theorem range_unique {t b c b' c'} (h : HunkRange t b c) (h' : HunkRange t b' c') : b = b' ∧ c = c' := by
  rcases range_cases h with ⟨h1, h2, rfl⟩ | ⟨u, v, rfl, h1, h2, h3⟩ <;>
    rcases range_cases h' with ⟨k1, k2, rfl⟩ | ⟨u', v', e, k1, k2, k3⟩
  · have := numeral_unique h2 k2; exact ⟨by omega, rfl⟩
  · rw [e] at h1; simp at h1
  · simp at k1
  · obtain ⟨rfl, rfl⟩ := parts_unique h1 k1 e
    have hc := numeral_unique h2 k2
    subst hc
    refine ⟨?_, rfl⟩
    rcases h3 with ⟨a1, a2⟩ | ⟨a1, a2⟩ <;> rcases k3 with ⟨b1, b2⟩ | ⟨b1, b2⟩
    · have := numeral_unique a2 b2; omega
    · exact absurd b1 a1
    · exact absurd a1 b1
    · exact numeral_unique a2 b2

theorem body_unique {o n ls body after body' after'} (h : ReadsBody o n ls body after) (h' : ReadsBody o n ls body' after') :
    body = body' ∧ after = after' := by
  have feed : "\n".toList = ['\n'] := rfl
  induction h generalizing body' with
  | done => cases h'; exact ⟨rfl, rfl⟩
  | both hne hb ih | old hne hb ih | new hne hb ih =>
    generalize hls : (_ :: _ : List Text) = ls at h'
    cases h' with
    | both hne' hb' | old hne' hb' | new hne' hb' =>
      first
      | (injection hls with e1 e2
         injection e1 with e3 e4
         first
         | (subst e4; subst e2
            obtain ⟨rfl, rfl⟩ := ih hb'
            exact ⟨rfl, rfl⟩)
         | exact absurd e3 (by decide))
    | bothLast hb' | oldLast hb' | newLast hb' =>
      injection hls with e1 e2
      rw [e2] at hne
      exact absurd rfl hne
  | bothLast hb ih | oldLast hb ih | newLast hb ih =>
    generalize hls : (_ :: _ : List Text) = ls at h'
    cases h' with
    | both hne' hb' | old hne' hb' | new hne' hb' =>
      injection hls with e1 e2
      rw [← e2] at hne'
      exact absurd rfl hne'
    | bothLast hb' | oldLast hb' | newLast hb' =>
      injection hls with e1 e2
      injection e2 with e5 e6
      injection e1 with e3 e4
      first
      | (subst e6
         obtain ⟨rfl, rfl⟩ := ih hb'
         rw [feed] at e4
         rw [List.append_cancel_right e4]
         exact ⟨rfl, rfl⟩)
      | exact absurd e3 (by decide)

theorem hunks_unique {ls hs hs'} (h : ReadsHunks ls hs) (h' : ReadsHunks ls hs') : hs = hs' := by
  induction h generalizing hs' with
  | none => cases h'; rfl
  | @one a b oc nc rest after k ks ra rb hb _ ih =>
    generalize hls : (_ :: _ : List Text) = ls at h'
    cases h' with
    | none => cases hls
    | @one a' b' oc' nc' rest' after' k' ks' ra' rb' hb' hr' =>
      injection hls with e1 e2
      subst e2
      have e1 : a ++ ' ' :: ('+' :: b ++ " @@\n".toList) = a' ++ ' ' :: ('+' :: b' ++ " @@\n".toList) := by
        simpa using e1
      obtain ⟨rfl, e3⟩ := parts_unique (range_plain ra) (range_plain ra') e1
      have e3 : b ++ " @@\n".toList = b' ++ " @@\n".toList := by simpa using e3
      have e4 := List.append_cancel_right e3
      subst e4
      obtain ⟨f1, f2⟩ := range_unique ra ra'
      obtain ⟨f3, f4⟩ := range_unique rb rb'
      subst f2; subst f4
      obtain ⟨f5, f6⟩ := body_unique hb hb'
      subst f6
      rw [ih hr']
      congr 1
      cases k; cases k'
      simp only at f1 f3 f5
      rw [f1, f3, f5]

theorem patched_unique {i j old hs new new'} (h : Patched i j old hs new) (h' : Patched i j old hs new') : new = new' := by
  induction h generalizing new' with
  | rest => cases h'; rfl
  | @hunk i j between ls new h hs ho hn _ ih =>
    generalize hold : between ++ h.olds ++ ls = old at h'
    cases h' with
    | @hunk _ _ between' ls' new' _ _ ho' hn' hp' =>
      have hlen : between.length = between'.length := by omega
      rw [List.append_assoc, List.append_assoc] at hold
      obtain ⟨rfl, e⟩ := List.append_inj hold hlen
      have e := List.append_cancel_left e
      subst e
      rw [ih hp']

/-- **C106**: a text can be read as a diff in one way only, and then makes one thing of a file. So what `C106_diff` says is
all that the diff of a mutant says. -/
theorem C106_read_in_one_way {text a b a' b' : Text} {hs hs' : List UnifiedHunk} {file new new' : List Text}
    (h : ReadsDiff text a b hs) (hp : Patched 0 0 file hs new) (h' : ReadsDiff text a' b' hs') (hp' : Patched 0 0 file hs' new') :
    a = a' ∧ b = b' ∧ hs = hs' ∧ new = new' := by
  obtain ⟨rest, e, hr, _⟩ := h
  obtain ⟨rest', e', hr', _⟩ := h'
  rw [e] at e'
  injection e' with e1 e2
  injection e2 with e2 e3
  subst e3
  have e4 := List.append_cancel_left (List.append_cancel_right e1)
  have e5 := List.append_cancel_left (List.append_cancel_right e2)
  have e6 := hunks_unique hr hr'
  subst e6
  exact ⟨e4, e5, rfl, patched_unique hp hp'⟩

/-- **C106**: in every state that a run can reach, the diff file of each recorded mutant exists, and anyone who reads it as a
diff from the path of its file gets the mutated file from the source file, which is what the mutant's commands were run on
(C29, C80); the log has the same diff (C79). -/
theorem C106_recorded (cfg : Run.Config) (find : List Text → List Text → List DiffOp) (hfind : FindsScripts find)
    (s : Logs.State) (h : Logs.Reachable cfg (fun m => (mutantDiff find m).getD []) s) (o : ScenarioOutcome) (b : Text)
    (ho : (o, b) ∈ s.files.recorded) (m : Mutant) (hm : o.scenario = .mutant m) (hd : m.describe.isSome)
    (hpath : '\n' ∉ toSlashPath m.sourceFile.path) (hr : '\r' ∉ m.sourceFile.code) (hr' : '\r' ∉ m.mutated)
    (hchanged : m.mutated ≠ m.sourceFile.code) :
    ∃ text, s.files.diffs b = some text ∧
      (∃ change hs, ReadsDiff text (toSlashPath m.sourceFile.path) change hs) ∧
      ∀ name change hs, ReadsDiff text name change hs → name = toSlashPath m.sourceFile.path ∧
        Patched 0 0 (feedLines m.sourceFile.code) hs (feedLines m.mutated) ∧
        ∀ new, Patched 0 0 (feedLines m.sourceFile.code) hs new → new.flatten = m.mutated := by
  obtain ⟨_, _, h3⟩ := C79_log_tells_outcome cfg _ s h
  have h4 := (h3 o b ho).2
  obtain ⟨d, hd⟩ := Option.isSome_iff_exists.1 hd
  obtain ⟨text, ht, hcase⟩ := C106_diff find hfind m d hd hpath hr hr'
  rw [hm] at h4
  simp only [diffFile, ht, Option.getD_some] at h4
  rcases hcase with ⟨e, _⟩ | ⟨hs, h5, h6⟩
  · exact absurd e hchanged
  refine ⟨text, h4, ⟨_, hs, h5⟩, ?_⟩
  intro name change hs' h7
  obtain ⟨rest, e, hr, _⟩ := h5
  obtain ⟨rest', e', hr', _⟩ := h7
  rw [e] at e'
  injection e' with e1 e2
  injection e2 with e2 e3
  subst e3
  have e4 := List.append_cancel_left (List.append_cancel_right e1)
  have e6 := hunks_unique hr hr'
  subst e6
  refine ⟨e4.symm, h6, ?_⟩
  intro new hnew
  rw [← patched_unique h6 hnew, feedLines_flatten]

/-- **C106**: whenever a command for a mutant is running, the thread's diff file is already there, and what anyone makes of
the source file with it is, to the character, what the file in the command's directory holds. -/
theorem C106_tested (cfg : Run.Config) (find : List Text → List Text → List DiffOp) (hfind : FindsScripts find)
    (hj : cfg.lab.JobsOk) (hc : cfg.lab.Consistent)
    (s : Logs.State) (h : Logs.Reachable cfg (fun m => (mutantDiff find m).getD []) s) (i d : Nat) (m : Mutant)
    (p : Phase) (todo : List Phase) (rs : List PhaseResult)
    (hpc : s.run.lab.workers[i]? = some (.command d (.mutant m) p todo rs)) (hd : m.describe.isSome)
    (hpath : '\n' ∉ toSlashPath m.sourceFile.path) (hr : '\r' ∉ m.sourceFile.code) (hr' : '\r' ∉ m.mutated)
    (hchanged : m.mutated ≠ m.sourceFile.code) :
    ∃ b text, s.files.current i = some b ∧ s.files.diffs b = some text ∧
      (∃ change hs, ReadsDiff text (toSlashPath m.sourceFile.path) change hs ∧
        ∃ new, Patched 0 0 (feedLines m.sourceFile.code) hs new) ∧
      ∀ name change hs new, ReadsDiff text name change hs → Patched 0 0 (feedLines m.sourceFile.code) hs new →
        s.run.lab.sh.dirs d m.sourceFile.path = some new.flatten := by
  have hi := Logs.reachable_inv h
  obtain ⟨b, h1, ⟨body, _, _, _, h4, _⟩, _⟩ := hi.active i _ _ hpc rfl
  simp only [Logs.diffNow_isMutant] at h4
  obtain ⟨d', hd⟩ := Option.isSome_iff_exists.1 hd
  obtain ⟨text, ht, ⟨e, _⟩ | ⟨hs, h5, h6⟩⟩ := C106_diff find hfind m d' hd hpath hr hr'
  · exact absurd e hchanged
  simp only [diffFile, ht, Option.getD_some] at h4
  refine ⟨b, text, h1, h4, ⟨_, hs, h5, _, h6⟩, ?_⟩
  intro name change hs' new h7 h8
  obtain ⟨_, _, _, e⟩ := C106_read_in_one_way h5 h6 h7 h8
  obtain ⟨_, t, _, _, h9⟩ := C29_one_mutation_up_to_crlf_partial cfg.lab hj hc s.run.lab (Run.reachable_inv hi.run).lab i d m p todo rs hpc
  rw [h9, ← e, feedLines_flatten]
  simp [CM.Lab.withFile]

/-- **C106**: anyone who reads the list that `--list --json --diff` prints finds such a diff with each mutant. -/
theorem C106_listed (w : World) (find : List Text → List Text → List DiffOp) (hfind : FindsScripts find)
    (hw : ∀ m, w.unifiedDiff m = (mutantDiff find m).getD []) (ms : List Mutant) :
    ∃ es, readMutants (listJsonText w true ms) = some es ∧ es.length = ms.length ∧
      ∀ (i : Nat) (m : Mutant) e, ms[i]? = some m → es[i]? = some e → m.describe.isSome →
        '\n' ∉ toSlashPath m.sourceFile.path → '\r' ∉ m.sourceFile.code → '\r' ∉ m.mutated → m.mutated ≠ m.sourceFile.code →
        ∃ text change hs, e.diff = some text ∧ ReadsDiff text (toSlashPath m.sourceFile.path) change hs ∧
          Patched 0 0 (feedLines m.sourceFile.code) hs (feedLines m.mutated) := by
  refine ⟨_, C74_list_json w true ms, by simp, ?_⟩
  intro i m e hm he hd hpath hr hr' hchanged
  rw [List.getElem?_map, hm] at he
  simp only [Option.map_some, if_true, Option.some.injEq] at he
  obtain ⟨d, hd⟩ := Option.isSome_iff_exists.1 hd
  obtain ⟨text, ht, ⟨e', _⟩ | ⟨hs, h5, h6⟩⟩ := C106_diff find hfind m d hd hpath hr hr'
  · exact absurd e' hchanged
  refine ⟨text, _, hs, ?_, h5, h6⟩
  subst he
  simp [entryOf, hw, ht]

/-- A way to find operations that meets the hypothesis: everything is replaced. -/
def replaceAll (old new : List Text) : List DiffOp :=
  if old.length + new.length = 0 then [] else [.replace 0 old.length 0 new.length]

theorem replaceAll_finds : FindsScripts replaceAll := by
  intro old new
  simp only [replaceAll]
  split
  · rw [show old.length = 0 from by omega, show new.length = 0 from by omega]; exact .nil
  · have := Script.cons (old := old) (new := new) (i := 0) (j := 0) (op := .replace 0 old.length 0 new.length) rfl rfl
      (by simp only [DiffOp.oldLen, DiffOp.newLen]; omega) (by simp [DiffOp.oldLen]) (by simp [DiffOp.newLen])
      (fun _ _ _ e => by cases e) .nil
    simpa [DiffOp.oldLen, DiffOp.newLen] using this

/-- A mutant of a file in which a line ends with a carriage return alone. -/
def loneReturnMutant : Mutant := { sampleMutant with
  sourceFile := { sampleMutant.sourceFile with code := "fn f() -> bool { a() }\r//\n".toList } }

theorem body_stuck {t u : Text} {body after} : ¬ ReadsBody 2 2 ['-' :: t, '+' :: u] body after := by
  have h1 : ∀ {body after}, ¬ ReadsBody 1 1 [] body after := by intro _ _ h; cases h
  have h2 : ∀ {body after}, ¬ ReadsBody 1 2 ['+' :: u] body after := by
    intro body after h
    generalize hls : ['+' :: u] = ls at h
    cases h with
    | both | old => injection hls with e; injection e with e _; exact absurd e (by decide)
    | new _ h => injection hls with _ e; subst e; exact h1 h
    | bothLast | oldLast | newLast => injection hls with _ e; cases e
  intro h
  generalize hls : ['-' :: t, '+' :: u] = ls at h
  cases h with
  | both | new => injection hls with e; injection e with e _; exact absurd e (by decide)
  | old _ h => injection hls with _ e; subst e; exact h2 h
  | bothLast | oldLast | newLast =>
    injection hls with _ e; injection e with e _; unfold noFeed at e; simp at e

/-- **C106**, why files with carriage returns are left out: the library takes a carriage return alone for the end of a line, so
it counts more lines than there are in the diff that it prints, which then cannot be read. -/
theorem C106_lone_carriage_return : ∃ text, mutantDiff replaceAll loneReturnMutant = some text ∧
    ∀ a b hs, ¬ ReadsDiff text a b hs := by
  refine ⟨_, rfl, ?_⟩
  have hf : feedLines ((mutantDiff replaceAll loneReturnMutant).getD []) =
      ["--- src/lib.rs\n".toList, "+++ replace f -> bool with true\n".toList, "@@ -1,2 +1,2 @@\n".toList,
        '-' :: "fn f() -> bool { a() }\r-//\n".toList,
        '+' :: "fn f() -> bool { true /* ~ changed by cargo-mutants ~ */ }\r+//\n".toList] := by decide +kernel
  rintro a b hs ⟨rest, e, hr, _⟩
  have e : feedLines ((mutantDiff replaceAll loneReturnMutant).getD []) = _ := e
  rw [hf] at e
  injection e with _ e
  injection e with _ e
  subst e
  generalize hls : (_ :: _ : List Text) = ls at hr
  cases hr with
  | none => cases hls
  | @one a' b' oc' nc' rest' after' k' ks' ra' rb' hb' hr' =>
    injection hls with e1 e2
    subst e2
    have d : Decimal ['1'] (0 + 1) := .one (by decide)
    have d2 : Decimal ['2'] 2 := .one (by decide)
    have r : HunkRange ['1', ',', '2'] 0 2 := .several d d2 (by decide)
    have e1 : ['1', ',', '2'] ++ ' ' :: ('+' :: ['1', ',', '2'] ++ " @@\n".toList) =
        a' ++ ' ' :: ('+' :: b' ++ " @@\n".toList) := by
      have h : ("@@ -1,2 +1,2 @@\n".toList : Text) =
        "@@ -".toList ++ (['1', ',', '2'] ++ ' ' :: ('+' :: ['1', ',', '2'] ++ " @@\n".toList)) := by decide +kernel
      rw [h] at e1
      simpa using e1
    obtain ⟨rfl, e3⟩ := parts_unique (range_plain r) (range_plain ra') e1
    have e3 : ['1', ',', '2'] ++ " @@\n".toList = b' ++ " @@\n".toList := by simpa using e3
    have e4 := List.append_cancel_right e3
    subst e4
    obtain ⟨_, f2⟩ := range_unique r ra'
    obtain ⟨_, f4⟩ := range_unique r rb'
    subst f2; subst f4
    exact body_stuck hb'

/-- The diff of the sample mutant. -/
example : mutantDiff replaceAll sampleMutant = some
    ("--- src/lib.rs\n+++ replace f -> bool with true\n@@ -1 +1 @@\n-fn f() -> bool { a() }\n" ++
      "+fn f() -> bool { true /* ~ changed by cargo-mutants ~ */ }\n").toList := by decide +kernel

/-- The hypotheses of the theorems are met by it. -/
example : ∃ text hs, mutantDiff replaceAll sampleMutant = some text ∧ text ≠ [] ∧
    ReadsDiff text "src/lib.rs".toList "replace f -> bool with true".toList hs ∧
    Patched 0 0 ["fn f() -> bool { a() }\n".toList] hs
      ["fn f() -> bool { true /* ~ changed by cargo-mutants ~ */ }\n".toList] := by
  obtain ⟨text, h1, h2⟩ := C106_diff replaceAll replaceAll_finds sampleMutant "replace f -> bool with true".toList
    (by decide +kernel) (by decide +kernel) (by decide +kernel) (by decide +kernel)
  have hchanged : sampleMutant.mutated ≠ sampleMutant.sourceFile.code := by decide +kernel
  rcases h2 with ⟨e, _⟩ | ⟨hs, h3, h4⟩
  · exact absurd e hchanged
  have hd : ("replace f -> bool with true".toList.map fun c => if c = '\n' then ' ' else c) =
      "replace f -> bool with true".toList := by decide +kernel
  have hp : toSlashPath sampleMutant.sourceFile.path = "src/lib.rs".toList := by decide +kernel
  have ho : feedLines sampleMutant.sourceFile.code = ["fn f() -> bool { a() }\n".toList] := by decide +kernel
  have hn : feedLines sampleMutant.mutated = ["fn f() -> bool { true /* ~ changed by cargo-mutants ~ */ }\n".toList] := by
    decide +kernel
  rw [hd, hp] at h3
  rw [ho, hn] at h4
  refine ⟨text, hs, h1, ?_, h3, h4⟩
  rintro rfl
  obtain ⟨rest, e, _⟩ := h3
  cases e

/-- The sample run, while the first command for the mutant is running. -/
example : (Logs.exec RunSample.cfg (fun m => (mutantDiff replaceAll m).getD []) (Logs.init RunSample.cfg)
    ((RunSample.run.take 45).map .run)).map (fun s => (s.run.lab.workers.map Lab.Pc.inCommand, s.files.current 0,
      s.files.diffs "src__lib.rs_line_1_col_18".toList == mutantDiff replaceAll sampleMutant,
      s.run.lab.sh.dirs 1 sampleMutant.sourceFile.path == some sampleMutant.mutated)) =
    some ([true], some "src__lib.rs_line_1_col_18".toList, true, true) := by decide +kernel

end CM.Props
