import Verif.Model.Output
import Verif.Proofs.Outcome
/-! Helper lemmas about log names, lines and list files. -/
namespace CM

/-! ### decimal numbers -/

theorem decimal_injective {a b : Nat} (h : decimal a = decimal b) : a = b := by
  have := congrArg (fun l => Nat.ofDigitChars 10 l 0) h
  simpa [decimal, Nat.ofDigitChars_ten_toDigits] using this

theorem pad3_injective {a b : Nat} (h : pad3 a = pad3 b) : a = b := by
  have := congrArg (fun l => Nat.ofDigitChars 10 l 0) h
  simpa [pad3, decimal, Nat.ofDigitChars_append, Nat.ofDigitChars_replicate_zero,
    Nat.ofDigitChars_ten_toDigits] using this

theorem isDigit_of_mem_decimal {n : Nat} {c : Char} (h : c ∈ decimal n) : c.isDigit = true :=
  Nat.isDigit_of_mem_toDigits (by omega) (by omega) h

theorem isDigit_of_mem_pad3 {n : Nat} {c : Char} (h : c ∈ pad3 n) : c.isDigit = true := by
  unfold pad3 at h
  rcases List.mem_append.1 h with h | h
  · rw [List.mem_replicate] at h; rw [h.2]; decide
  · exact isDigit_of_mem_decimal h

theorem not_mem_decimal {n : Nat} {c : Char} (h : c.isDigit = false) : c ∉ decimal n := by
  intro hm; rw [isDigit_of_mem_decimal hm] at h; cases h

theorem not_mem_pad3 {n : Nat} {c : Char} (h : c.isDigit = false) : c ∉ pad3 n := by
  intro hm; rw [isDigit_of_mem_pad3 hm] at h; cases h

theorem decimal_ne_nil' (n : Nat) : decimal n ≠ [] := Nat.toDigits_ne_nil

/-- Splitting at the last separator is unambiguous. -/
theorem split_last_unique {α} {s : α} {a b a' b' : List α} (h : a ++ s :: b = a' ++ s :: b')
    (hb : s ∉ b) (hb' : s ∉ b') : a = a' ∧ b = b' := by
  induction a generalizing a' with
  | nil =>
    cases a' with
    | nil => simpa using h
    | cons x a' =>
      simp only [List.nil_append, List.cons_append, List.cons.injEq] at h
      rw [h.2] at hb
      simp at hb
  | cons x a ih =>
    cases a' with
    | nil =>
      simp only [List.nil_append, List.cons_append, List.cons.injEq] at h
      rw [← h.2] at hb'
      simp at hb'
    | cons y a' =>
      simp only [List.cons_append, List.cons.injEq] at h
      obtain ⟨h1, h2⟩ := ih h.2
      exact ⟨by rw [h.1, h1], h2⟩

/-! ### log names -/

/-- A base name and the number of its use. -/
def renderLogName (b : Text) : Nat → Text
  | 0 => b
  | i + 1 => b ++ "_".toList ++ pad3 (i + 1)

theorem baseline_no_underscore : '_' ∉ scenarioLogName .baseline := by decide

theorem mutant_base_shape (m : Mutant) : ∃ x c, scenarioLogName (.mutant m) =
    (x ++ "_col".toList) ++ '_' :: decimal c := by
  refine ⟨cleanFilename (toSlashPath m.sourceFile.path) ++ "_line_".toList ++
    decimal m.span.start.line, m.span.start.column, ?_⟩
  show Mutant.logFileNameBase m = _
  unfold Mutant.logFileNameBase
  rw [show "_col_".toList = "_col".toList ++ ['_'] by decide]
  simp only [List.append_assoc, List.cons_append, List.nil_append]

theorem base_last_char (sc : Scenario) : ∃ c, (scenarioLogName sc).getLast? = some c ∧ c ≠ 'l' := by
  cases sc with
  | baseline => exact ⟨'e', by decide, by decide⟩
  | mutant m =>
    obtain ⟨x, c, h⟩ := mutant_base_shape m
    rw [h]
    cases hl : (decimal c).getLast? with
    | none => rw [List.getLast?_eq_none_iff] at hl; exact absurd hl (decimal_ne_nil' c)
    | some d =>
      refine ⟨d, by simp [List.getLast?_append, List.getLast?_cons, hl], ?_⟩
      rintro rfl
      have := isDigit_of_mem_decimal (List.mem_of_getLast? hl)
      revert this; decide

theorem base_ne_render (sc sc' : Scenario) (i : Nat) :
    scenarioLogName sc ≠ scenarioLogName sc' ++ "_".toList ++ pad3 i := by
  intro h
  have h' : scenarioLogName sc = scenarioLogName sc' ++ '_' :: pad3 i := by simpa using h
  cases sc with
  | baseline =>
    apply baseline_no_underscore
    rw [h']; simp
  | mutant m =>
    obtain ⟨x, c, hx⟩ := mutant_base_shape m
    rw [hx] at h'
    obtain ⟨h1, _⟩ := split_last_unique h' (not_mem_decimal (by decide)) (not_mem_pad3 (by decide))
    obtain ⟨d, hd, hne⟩ := base_last_char sc'
    rw [← h1] at hd
    apply hne
    have : (x ++ "_col".toList).getLast? = some 'l' := by simp [List.getLast?_append]
    rw [this] at hd
    exact (Option.some.inj hd).symm

theorem render_injective {sc sc' : Scenario} {i j : Nat}
    (h : renderLogName (scenarioLogName sc) i = renderLogName (scenarioLogName sc') j) :
    scenarioLogName sc = scenarioLogName sc' ∧ i = j := by
  cases i with
  | zero =>
    cases j with
    | zero => exact ⟨h, rfl⟩
    | succ j => exact absurd h (base_ne_render _ _ _)
  | succ i =>
    cases j with
    | zero => exact absurd h.symm (base_ne_render _ _ _)
    | succ j =>
      simp only [renderLogName] at h
      have h' : scenarioLogName sc ++ '_' :: pad3 (i + 1) =
        scenarioLogName sc' ++ '_' :: pad3 (j + 1) := by simpa using h
      obtain ⟨h1, h2⟩ := split_last_unique h' (not_mem_pad3 (by decide)) (not_mem_pad3 (by decide))
      exact ⟨h1, pad3_injective h2⟩

/-- Every existing log is recorded in the map of used names. -/
def LogsCovered (used : UsedNames) (logs : List Text) : Prop :=
  ∀ path ∈ logs, ∃ sc i k, path = "log/".toList ++ renderLogName (scenarioLogName sc) i ++ ".log".toList ∧
    used (scenarioLogName sc) = some k ∧ i ≤ k

theorem log_path_injective {a b : Text}
    (h : "log/".toList ++ a ++ ".log".toList = "log/".toList ++ b ++ ".log".toList) : a = b := by
  rw [List.append_assoc, List.append_assoc] at h
  exact List.append_cancel_right (List.append_cancel_left h)

theorem startScenario_ok {used logs} (hc : LogsCovered used logs) (sc : Scenario) :
    ∃ used' path, startScenario used logs sc = some (used', path :: logs) ∧ path ∉ logs ∧
      LogsCovered used' (path :: logs) := by
  have key : ∃ k, chooseLogName used sc =
      ((fun t => if t = scenarioLogName sc then some k else used t),
        renderLogName (scenarioLogName sc) k) ∧ (∀ k', used (scenarioLogName sc) = some k' → k' < k) := by
    unfold chooseLogName
    cases hu : used (scenarioLogName sc) with
    | none => exact ⟨0, by simp [hu, renderLogName], by simp⟩
    | some k => exact ⟨k + 1, by simp [hu, renderLogName], by intro k' h; cases h; omega⟩
  obtain ⟨k, hk, hlt⟩ := key
  have hfresh : "log/".toList ++ renderLogName (scenarioLogName sc) k ++ ".log".toList ∉ logs := by
    intro hm
    obtain ⟨sc', i, k', h1, h2, h3⟩ := hc _ hm
    obtain ⟨h4, h5⟩ := render_injective (log_path_injective h1)
    rw [← h4] at h2
    have := hlt _ h2
    omega
  refine ⟨fun t => if t = scenarioLogName sc then some k else used t, _, ?_, hfresh, ?_⟩
  · unfold startScenario
    rw [hk]
    simp only
    rw [if_neg hfresh]
  · intro path hp
    rcases List.mem_cons.1 hp with rfl | hp
    · exact ⟨sc, k, k, rfl, by simp, Nat.le_refl _⟩
    · obtain ⟨sc', i, k', h1, h2, h3⟩ := hc _ hp
      by_cases he : scenarioLogName sc' = scenarioLogName sc
      · refine ⟨sc', i, k, h1, by simp [he], ?_⟩
        have := hlt k' (by rw [← he]; exact h2)
        omega
      · exact ⟨sc', i, k', h1, by simp [he, h2], h3⟩

theorem startAll_ok {used logs} (hc : LogsCovered used logs) (hn : logs.Nodup) (scs : List Scenario) :
    ∃ used' logs', startAll used logs scs = some (used', logs' ++ logs) ∧ (logs' ++ logs).Nodup ∧
      logs'.length = scs.length := by
  induction scs generalizing used logs with
  | nil => exact ⟨used, [], rfl, by simpa using hn, rfl⟩
  | cons sc scs ih =>
    obtain ⟨used1, path, h1, h2, h3⟩ := startScenario_ok hc sc
    obtain ⟨used2, logs2, h4, h5, h6⟩ := ih h3 (List.nodup_cons.2 ⟨h2, hn⟩)
    refine ⟨used2, logs2 ++ [path], ?_, ?_, ?_⟩
    · simp [startAll, h1, h4]
    · simpa using h5
    · simp [h6]

theorem startAll_logs {used logs} (scs : List Scenario) {used' logs'}
    (h : startAll used logs scs = some (used', logs')) :
    logs' = ((chosenNames used scs).map fun b => "log/".toList ++ b ++ ".log".toList).reverse ++ logs := by
  induction scs generalizing used logs with
  | nil => simp only [startAll, Option.some.injEq, Prod.mk.injEq] at h; simp [chosenNames, h.2]
  | cons sc scs ih =>
    simp only [startAll] at h
    split at h
    · cases h
    · rename_i u1 l1 h1
      unfold startScenario at h1
      simp only at h1
      split at h1
      · cases h1
      · simp only [Option.some.injEq, Prod.mk.injEq] at h1
        obtain ⟨rfl, rfl⟩ := h1
        have := ih h
        simp [chosenNames, this]

theorem chosenNames_nodup (scs : List Scenario) : (chosenNames (fun _ => none) scs).Nodup := by
  obtain ⟨u, logs, h1, h2, _⟩ := startAll_ok (used := fun _ => none) (logs := [])
    (by intro p hp; cases hp) List.nodup_nil scs
  have := startAll_logs scs h1
  rw [this, List.append_nil] at h2
  have h3 := (List.reverse_perm _).nodup_iff.1 h2
  unfold List.Nodup at h3 ⊢
  rw [List.pairwise_map] at h3
  exact h3.imp fun h e => h (by rw [e])

theorem diffPaths_sublist (used) (scs : List Scenario) :
    (diffPaths used scs).Sublist
      ((chosenNames used scs).map fun b => "diff/".toList ++ b ++ ".diff".toList) := by
  induction scs generalizing used with
  | nil => exact List.Sublist.refl _
  | cons sc scs ih =>
    simp only [diffPaths, chosenNames, List.map_cons]
    split
    · exact (ih _).cons₂ _
    · exact (ih _).cons _

/-- A base name consists of the scenario's base and possibly an underscore and digits. -/
theorem chosenNames_render (used) (scs : List Scenario) :
    ∀ n ∈ chosenNames used scs, ∃ sc ∈ scs, ∃ i, n = renderLogName (scenarioLogName sc) i := by
  induction scs generalizing used with
  | nil => intro n hn; cases hn
  | cons sc scs ih =>
    intro n hn
    simp only [chosenNames, List.mem_cons] at hn
    rcases hn with rfl | hn
    · refine ⟨sc, by simp, ?_⟩
      unfold chooseLogName
      simp only
      split
      · rename_i i _; exact ⟨i + 1, rfl⟩
      · exact ⟨0, rfl⟩
    · obtain ⟨sc', h1, i, h2⟩ := ih _ _ hn
      exact ⟨sc', by simp [h1], i, h2⟩

/-- The characters that `clean_filename` removes. -/
def badFileChars : List Char := ['/', '\\', ' ', ':', '<', '>', '?', '*', '|', '"']

theorem cleanFilename_safe (s : Text) : ∀ c ∈ cleanFilename s, c ∉ badFileChars := by
  intro c hc
  unfold cleanFilename at hc
  rw [List.mem_map] at hc
  obtain ⟨d, hd, rfl⟩ := hc
  rw [List.mem_flatMap] at hd
  obtain ⟨e, _, he⟩ := hd
  by_cases h1 : e = '/'
  · rw [if_pos h1] at he
    have : d = '_' := by
      rw [show "__".toList = ['_', '_'] by decide] at he; simpa using he
    subst this; decide
  · rw [if_neg h1] at he
    have : d = e := by simpa using he
    subst this
    split
    · decide
    · rename_i h2
      intro h3
      unfold badFileChars at h3
      rcases List.mem_cons.1 h3 with h3 | h3
      · exact h1 h3
      · exact h2 h3

theorem digit_safe {c : Char} (h : c.isDigit = true) : c ∉ badFileChars := by
  intro hm
  have : ∀ d ∈ badFileChars, d.isDigit = false := by decide
  rw [this c hm] at h; cases h

theorem base_safe (sc : Scenario) : ∀ c ∈ scenarioLogName sc, c ∉ badFileChars := by
  cases sc with
  | baseline => decide
  | mutant m =>
    intro c hc
    change c ∈ Mutant.logFileNameBase m at hc
    unfold Mutant.logFileNameBase at hc
    simp only [List.mem_append] at hc
    rcases hc with (((hc | hc) | hc) | hc) | hc
    · exact cleanFilename_safe _ c hc
    · revert c; decide
    · exact digit_safe (isDigit_of_mem_decimal hc)
    · revert c; decide
    · exact digit_safe (isDigit_of_mem_decimal hc)

theorem render_safe (sc : Scenario) (i : Nat) :
    ∀ c ∈ renderLogName (scenarioLogName sc) i, c ∉ badFileChars := by
  cases i with
  | zero => exact base_safe sc
  | succ i =>
    intro c hc
    simp only [renderLogName, List.mem_append] at hc
    rcases hc with (hc | hc) | hc
    · exact base_safe sc c hc
    · revert c; decide
    · exact digit_safe (isDigit_of_mem_pad3 hc)

/-! ### lines -/

theorem linesFrom_line (cur l rest : Text) (hl : '\n' ∉ l) :
    linesFrom cur (l ++ '\n' :: rest) =
      (stripCrRev (l.reverse ++ cur)).reverse :: linesFrom [] rest := by
  induction l generalizing cur with
  | nil =>
    simp only [List.nil_append, linesFrom, if_true, List.reverse_nil]
  | cons c l ih =>
    simp only [List.mem_cons, not_or] at hl
    have hc : c ≠ '\n' := fun h => hl.1 h.symm
    rw [List.cons_append, linesFrom, if_neg hc, ih _ hl.2]
    simp

theorem linesFrom_clean (l rest : Text) (hl : '\n' ∉ l) (hr : l.getLast? ≠ some '\r') :
    linesFrom [] (l ++ '\n' :: rest) = l :: linesFrom [] rest := by
  rw [linesFrom_line _ _ _ hl]
  congr 1
  simp only [List.append_nil]
  rw [List.getLast?_eq_head?_reverse] at hr
  have : stripCrRev l.reverse = l.reverse := by
    cases h : l.reverse with
    | nil => rfl
    | cons c r =>
      rw [h] at hr
      have hc : c ≠ '\r' := fun e => hr (by rw [e]; rfl)
      simp [stripCrRev, hc]
  rw [this, List.reverse_reverse]

theorem rustLines_flatMap (ls : List Text) (h : ∀ l ∈ ls, '\n' ∉ l ∧ l.getLast? ≠ some '\r') :
    rustLines (ls.flatMap fun l => l ++ "\n".toList) = ls := by
  unfold rustLines
  induction ls with
  | nil => rfl
  | cons l ls ih =>
    have h1 := h l (by simp)
    have ih := ih fun x hx => h x (by simp [hx])
    rw [List.flatMap_cons]
    have : l ++ "\n".toList ++ ls.flatMap (fun l => l ++ "\n".toList) =
      l ++ '\n' :: ls.flatMap (fun l => l ++ "\n".toList) := by simp
    rw [this, linesFrom_clean _ _ h1.1 h1.2, ih]

/-! ### list files -/

/-- The lines that an outcome contributes to a list file. -/
def lineFor (l : ListFile) (o : ScenarioOutcome) : Text :=
  match o.scenario with
  | .baseline => []
  | .mutant m =>
    if (o.summary.bind listFileFor) = some l then
      match m.name true with
      | some n => n ++ "\n".toList
      | none => []
    else []

theorem writeAll_append (f : OutputFiles) (a b : List OutputWrite) :
    f.writeAll (a ++ b) = (f.writeAll a).bind fun f => f.writeAll b := by
  induction a generalizing f with
  | nil => rfl
  | cons w a ih =>
    simp only [List.cons_append, OutputFiles.writeAll]
    cases f.write w with
    | none => rfl
    | some g => simp [ih]

theorem append_get (f : OutputFiles) (l l' : ListFile) (t : Text) :
    (f.append l t).get l' = f.get l' ++ (if l = l' then t else []) := by
  cases l <;> cases l' <;> simp [OutputFiles.append, OutputFiles.get]

theorem append_lab (f : OutputFiles) (l : ListFile) (t : Text) : (f.append l t).lab = f.lab := by
  cases l <;> rfl

theorem append_json (f : OutputFiles) (l : ListFile) (t : Text) :
    (f.append l t).outcomesJson = f.outcomesJson := by
  cases l <;> rfl

theorem addOutcome_spec {f g : OutputFiles} {o : ScenarioOutcome} (h : f.addOutcome o = some g) :
    f.lab.add o = some g.lab ∧ g.outcomesJson = some g.lab ∧
    ∀ l, g.get l = f.get l ++ lineFor l o := by
  unfold OutputFiles.addOutcome at h
  cases hw : addOutcomeWrites o with
  | none => rw [hw] at h; simp at h
  | some ws =>
    rw [hw] at h
    simp only [Option.bind_some] at h
    unfold addOutcomeWrites at hw
    cases hadd : f.lab.add o with
    | none =>
      exfalso
      have : f.writeAll ws = none := by
        have : ∃ rest, ws = .remember o :: rest := by
          cases hsc : o.scenario with
          | baseline => rw [hsc] at hw; simp at hw; exact ⟨_, hw.symm⟩
          | mutant m =>
            rw [hsc] at hw
            simp only [Option.bind_eq_bind, Option.bind_eq_some_iff] at hw
            obtain ⟨s, _, hw⟩ := hw
            split at hw
            · simp at hw; exact ⟨_, hw.symm⟩
            · simp only [Option.bind_eq_some_iff] at hw
              obtain ⟨n, _, hw⟩ := hw
              simp at hw; exact ⟨_, hw.symm⟩
        obtain ⟨rest, rfl⟩ := this
        simp [OutputFiles.writeAll, OutputFiles.write, hadd]
      rw [this] at h; cases h
    | some lab =>
      have hstart : ∀ rest, f.writeAll ([.remember o, .truncateJson, .writeJson] ++ rest) =
          ({ f with lab := lab, outcomesJson := some lab } : OutputFiles).writeAll rest := by
        intro rest; simp [OutputFiles.writeAll, OutputFiles.write, hadd]
      cases hsc : o.scenario with
      | baseline =>
        rw [hsc] at hw; simp only [Option.some.injEq] at hw; subst hw
        have := hstart []
        rw [List.append_nil] at this
        rw [this] at h
        simp only [OutputFiles.writeAll, Option.some.injEq] at h
        subst h
        refine ⟨rfl, rfl, ?_⟩
        intro l; cases l <;> simp [lineFor, hsc, OutputFiles.get]
      | mutant m =>
        rw [hsc] at hw
        simp only [Option.bind_eq_bind, Option.bind_eq_some_iff] at hw
        obtain ⟨s, hs, hw⟩ := hw
        split at hw
        · rename_i hn
          simp only [Option.pure_def, Option.some.injEq] at hw; subst hw
          have := hstart []
          rw [List.append_nil] at this
          rw [this] at h
          simp only [OutputFiles.writeAll, Option.some.injEq] at h
          subst h
          refine ⟨rfl, rfl, ?_⟩
          intro l; cases l <;> simp [lineFor, hsc, hs, hn, OutputFiles.get]
        · rename_i lf hlf
          simp only [Option.bind_eq_some_iff] at hw
          obtain ⟨n, hn, hw⟩ := hw
          simp only [Option.pure_def, Option.some.injEq] at hw; subst hw
          rw [hstart] at h
          simp only [OutputFiles.writeAll, OutputFiles.write, Option.bind_some,
            Option.some.injEq] at h
          subst h
          refine ⟨by simp [append_lab], by simp [append_json, append_lab], ?_⟩
          intro l
          rw [append_get, append_get]
          have e : OutputFiles.get { f with lab := lab, outcomesJson := some lab } l = f.get l := by
            cases l <;> rfl
          rw [e]
          by_cases hl : lf = l
          · simp [lineFor, hsc, hs, hlf, hn, hl]
          · simp [lineFor, hsc, hs, hlf, hl]

/-- Recording a sequence of outcomes. -/
def OutputFiles.addOutcomes (f : OutputFiles) : List ScenarioOutcome → Option OutputFiles
  | [] => some f
  | o :: os => (f.addOutcome o).bind fun f => f.addOutcomes os

theorem addOutcomes_spec {os : List ScenarioOutcome} {f g : OutputFiles}
    (h : f.addOutcomes os = some g) :
    f.lab.addAll os = some g.lab ∧ (∀ l, g.get l = f.get l ++ os.flatMap (lineFor l)) ∧
    (g.outcomesJson = some g.lab ∨ (os = [] ∧ g = f)) := by
  induction os generalizing f with
  | nil =>
    simp only [OutputFiles.addOutcomes, Option.some.injEq] at h
    subst h
    simp [LabOutcome.addAll]
  | cons o os ih =>
    simp only [OutputFiles.addOutcomes] at h
    cases h1 : f.addOutcome o with
    | none => rw [h1] at h; simp at h
    | some f1 =>
      rw [h1] at h
      obtain ⟨a1, a2, a3⟩ := addOutcome_spec h1
      obtain ⟨b1, b2, b3⟩ := ih h
      refine ⟨by simp [LabOutcome.addAll, a1, b1], ?_, ?_⟩
      · intro l; rw [b2, a3]; simp
      · rcases b3 with b3 | ⟨rfl, rfl⟩
        · exact .inl b3
        · exact .inl a2

theorem addOutcomes_eq_writeAll (f : OutputFiles) (os : List ScenarioOutcome) {ws}
    (h : allWrites os = some ws) : f.addOutcomes os = f.writeAll ws := by
  induction os generalizing f ws with
  | nil => simp only [allWrites, Option.some.injEq] at h; subst h; rfl
  | cons o os ih =>
    simp only [allWrites, Option.bind_eq_bind, Option.bind_eq_some_iff, Option.pure_def,
      Option.some.injEq] at h
    obtain ⟨a, ha, b, hb, rfl⟩ := h
    simp only [OutputFiles.addOutcomes, OutputFiles.addOutcome, ha, Option.bind_some]
    rw [writeAll_append]
    congr 1
    funext g
    exact ih g hb

end CM
