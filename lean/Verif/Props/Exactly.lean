import Verif.Props.OutputDir
import Verif.Props.Workspace
/-! C13 and C55, exactly: which lists read back as they were written, and how often a package is selected. -/
namespace CM.Props
open CM CM.Spec

theorem count_le_lines (cur t : Text) : t.count '\n' ≤ (linesFrom cur t).length := by
  induction t generalizing cur with
  | nil => simp
  | cons c t ih =>
    rw [linesFrom]
    split
    · rename_i h; subst h
      have := ih []
      simp only [List.count_cons_self, List.length_cons]; omega
    · rename_i h
      rw [List.count_cons_of_ne h]
      exact ih _

theorem count_lines (ns : List Text) :
    (ns.flatMap fun n => n ++ "\n".toList).count '\n' = ns.length + (ns.map (·.count '\n')).sum := by
  induction ns with
  | nil => rfl
  | cons n ns ih =>
    rw [List.flatMap_cons, List.count_append, List.count_append, ih]
    simp
    omega

/-- Texts that are written one after the other, each with a line feed, are read back as they were exactly if each fits on a line. -/
theorem read_back_iff (ns : List Text) : rustLines (ns.flatMap fun n => n ++ "\n".toList) = ns ↔ ∀ n ∈ ns, OneLine n := by
  refine ⟨fun h => ?_, rustLines_flatMap ns⟩
  have hlf : ∀ n ∈ ns, '\n' ∉ n := by
    have h1 := count_le_lines [] (ns.flatMap fun n => n ++ "\n".toList)
    rw [count_lines] at h1
    have h2 : (linesFrom [] (ns.flatMap fun n => n ++ "\n".toList)).length = ns.length := congrArg List.length h
    rw [h2] at h1
    have h3 : (ns.map (·.count '\n')).sum = 0 := by omega
    intro n hn hc
    have := List.count_pos_iff.2 hc
    have h4 : n.count '\n' ≤ (ns.map (·.count '\n')).sum := by
      clear h h1 h2 h3
      induction ns with
      | nil => cases hn
      | cons a ns ih =>
        rw [List.map_cons, List.sum_cons]
        rcases List.mem_cons.1 hn with rfl | hn
        · omega
        · have := ih hn; omega
    omega
  unfold rustLines at h
  induction ns with
  | nil => intro n hn; cases hn
  | cons a ns ih =>
    rw [List.flatMap_cons] at h
    have e : a ++ "\n".toList ++ ns.flatMap (fun l => l ++ "\n".toList) =
      a ++ '\n' :: ns.flatMap (fun l => l ++ "\n".toList) := by simp
    rw [e, linesFrom_line _ _ _ (hlf a (by simp)), List.append_nil, List.cons.injEq] at h
    have ih := ih h.2 fun n hn => hlf n (by simp [hn])
    intro n hn
    rcases List.mem_cons.1 hn with rfl | hn
    · refine ⟨hlf n (by simp), ?_⟩
      rcases (strip_eq n n).1 h.1 with h | h
      · have := congrArg List.length h
        simp at this
      · exact h.2
    · exact ih n hn

/-- **C13**, exactly: the lists read line by line give the recorded names if and only if each of these names fits on a line. -/
theorem C13_read_back_exactly (os : List ScenarioOutcome) (g : OutputFiles) (h : OutputFiles.addOutcomes {} os = some g) :
    (rustLines g.missedTxt = namesWith .missedMutant os ↔ ∀ n ∈ namesWith .missedMutant os, OneLine n) ∧
    (rustLines g.caughtTxt = namesWith .caughtMutant os ↔ ∀ n ∈ namesWith .caughtMutant os, OneLine n) ∧
    (rustLines g.timeoutTxt = namesWith .timeout os ↔ ∀ n ∈ namesWith .timeout os, OneLine n) ∧
    (rustLines g.unviableTxt = namesWith .unviable os ↔ ∀ n ∈ namesWith .unviable os, OneLine n) := by
  obtain ⟨h1, h2, h3, h4, _⟩ := C13_lists_agree os g h
  rw [h1, h2, h3, h4]
  exact ⟨read_back_iff _, read_back_iff _, read_back_iff _, read_back_iff _⟩

example : ∃ g, OutputFiles.addOutcomes {} [twoLineOutcome] = some g ∧ rustLines g.caughtTxt ≠ namesWith .caughtMutant [twoLineOutcome] :=
  ⟨_, rfl, by decide⟩

theorem count_filterMap {α β} [DecidableEq α] [BEq α] [LawfulBEq α] [BEq β] [LawfulBEq β] (f : α → Option β) (a : α) (b : β) (hab : ∀ x, f x = some b ↔ x = a) (l : List α) :
    (l.filterMap f).count b = l.count a := by
  induction l with
  | nil => rfl
  | cons x l ih =>
    by_cases hx : x = a
    · rw [List.filterMap_cons_some ((hab x).2 hx), hx, List.count_cons_self, List.count_cons_self, ih]
    · rw [List.count_cons_of_ne hx, ← ih]
      cases hf : f x with
      | none => rw [List.filterMap_cons_none hf]
      | some c =>
        rw [List.filterMap_cons_some hf, List.count_cons_of_ne]
        rintro rfl
        exact hx ((hab x).1 hf)

/-- **C55**, exactly: a package is selected as often as it is named. -/
theorem C55_how_often (m : Metadata) (hn : NamesOk (Workspace.open m).packages) (names : List Text)
    (hne : names ≠ []) (ws : Bool) (located : Option Path) (ps : List Package)
    (h : selectedPackages (Workspace.open m) names ws located = some ps) (p : Package) (hp : p ∈ ps) :
    ps.count p = names.count p.name := by
  have e : selectedPackages (Workspace.open m) names ws located =
      some ((Workspace.open m).packagesByName names) := by
    unfold selectedPackages choosePackageFilter
    cases names with
    | nil => exact absurd rfl hne
    | cons n ns => rfl
  rw [e] at h
  cases h
  unfold Workspace.packagesByName at hp ⊢
  obtain ⟨n, _, hf⟩ := List.mem_filterMap.1 hp
  have hmem := List.mem_of_find?_eq_some hf
  rw [count_filterMap _ p.name p, (sortBy_perm textLe names).count_eq]
  intro x
  constructor
  · intro hx
    have := List.find?_some hx
    exact (by simpa using this : p.name = x).symm
  · rintro rfl
    cases hg : (Workspace.open m).packages.find? (·.name == p.name) with
    | none => exact absurd (List.find?_eq_none.1 hg p hmem) (by simp)
    | some q =>
      have hq := List.find?_some hg
      rw [hn.1 q (List.mem_of_find?_eq_some hg) p hmem (by simpa using hq)]

example : selectedPackages (Workspace.open sampleMetadata) ["util".toList, "x".toList, "util".toList] false none =
    some (List.replicate 2 ⟨"util".toList, "0.1.0".toList, ["util".toList], [["util".toList, "src".toList, "lib.rs".toList]]⟩) := by decide

end CM.Props
