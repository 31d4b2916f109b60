import Verif.Props.InDiff
import Verif.Props.Link
/-! C58: the text of the source directory that relative paths are resolved against. -/
namespace CM.Props
open CM CM.Spec

/-- **C58.** The text that paths in the copied manifests are resolved against is an absolute path, as `C58_paths_partial` asks
for, and it is the one of the source directory. -/
theorem C58_source_is_absolute (env : Link.Env) (h : ∀ c ∈ env.source, c ≠ [] ∧ c ≠ ".".toList ∧ '/' ∉ c) :
    env.sourceText.head? = some '/' ∧ components env.sourceText = "/".toList :: env.source := by
  have e : env.sourceText = '/' :: joinWith "/".toList env.source := rfl
  refine ⟨by rw [e]; rfl, ?_⟩
  rw [e]
  unfold components
  rw [if_pos (show ('/' :: joinWith "/".toList env.source).head? = some '/' from rfl), show splitOn '/' ('/' :: joinWith "/".toList env.source) = [] :: splitOn '/' (joinWith "/".toList env.source) by
    rw [splitOn, if_pos rfl]]
  have hf : (splitOn '/' (joinWith "/".toList env.source)).filter (fun c => c ≠ [] && c ≠ ".".toList) = env.source := by
    by_cases hs : env.source = []
    · rw [hs]; decide
    · have hj : splitOn '/' (joinWith "/".toList env.source) = env.source := splitOn_joinWith '/' env.source hs fun c hc => (h c hc).2.2
      rw [hj, List.filter_eq_self]
      intro c hc
      have := h c hc
      rw [decide_eq_true this.1, decide_eq_true this.2.1]; rfl
  rw [List.filter_cons_of_neg (by simp), hf]
  rfl

example : (⟨["home".toList, "src".toList], [], {}, fun _ _ => false, fun _ => none, fun _ => []⟩ : Link.Env).sourceText =
    "/home/src".toList := by decide +kernel

end CM.Props
