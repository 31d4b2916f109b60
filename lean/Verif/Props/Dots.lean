import Verif.Props.InDiff
/-! C22: dots and repeated slashes in the paths of diffs. -/
namespace CM.Props
open CM CM.Spec

/-- The names among what is between the slashes of a path. -/
def namesIn (segs : List Text) : Path := segs.filter fun c => decide (c ≠ []) && decide (c ≠ ".".toList)

theorem components_between (c : Text) (segs : List Text) (h1 : c ≠ []) (h2 : c ≠ ".".toList) (h3 : ∀ x ∈ c :: segs, '/' ∉ x) :
    components (joinWith "/".toList (c :: segs)) = c :: namesIn segs := by
  have hs : splitOn '/' (joinWith "/".toList (c :: segs)) = c :: segs := splitOn_joinWith '/' _ (by simp) h3
  unfold components
  rw [hs]
  have hh : (joinWith "/".toList (c :: segs)).head? ≠ some '/' := by
    obtain ⟨x, xs, rfl⟩ := List.exists_cons_of_ne_nil h1
    have hx : x ≠ '/' := fun e => h3 (x :: xs) (by simp) (by simp [e])
    cases segs <;> simp [joinWith, hx]
  rw [if_neg hh, if_neg (by simpa using h2), List.nil_append]
  exact List.filter_cons_of_pos (by rw [decide_eq_true h1, decide_eq_true h2]; rfl)

/-- **C22.** A section whose new path is `b/` and then names, with `.` and nothing between slashes anywhere among
them, is about the file of these names and about no other. -/
theorem C22_dots_ignored (p : Patch) (segs : List Text) (q : Path) (hne : segs ≠ []) (hs : ∀ x ∈ segs, '/' ∉ x)
    (h : p.newPath = "b/".toList ++ joinWith "/".toList segs) :
    DescribesFile p q ↔ q = segs.filter fun c => c ≠ [] ∧ c ≠ ".".toList := by
  have e : (segs.filter fun c => c ≠ [] ∧ c ≠ ".".toList) = namesIn segs := by
    unfold namesIn
    congr 1
    funext c
    simp
  have hb : components ("b/".toList ++ joinWith "/".toList segs) = "b".toList :: namesIn segs := by
    have := components_between "b".toList segs (by decide) (by decide) (by
      intro x hx
      rcases List.mem_cons.1 hx with rfl | hx
      · decide
      · exact hs x hx)
    obtain ⟨c, rest, rfl⟩ := List.exists_cons_of_ne_nil hne
    exact this
  rw [e]
  unfold DescribesFile
  rw [h, hb]
  constructor
  · rintro (h | ⟨h, h'⟩)
    · exact (List.cons.inj h).2.symm
    · rw [← h] at h'; exact absurd rfl h'
  · rintro rfl; exact .inl rfl

example : DescribesFile ⟨"b/./src//./lib.rs".toList, []⟩ ["src".toList, "lib.rs".toList] :=
  (C22_dots_ignored _ [".".toList, "src".toList, [], ".".toList, "lib.rs".toList] _ (by decide) (by decide) (by decide)).2 (by decide)

end CM.Props
