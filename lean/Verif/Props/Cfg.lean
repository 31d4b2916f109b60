import Verif.Props.Visit
import Verif.Spec.Cfg
/-! C91: conditional compilation. -/
namespace CM.Props
open CM CM.Spec

/-- Of all predicates, only `test` itself is recognised. -/
theorem marks_cfgAttr (p : CfgPred) : Marks (cfgAttr p) ↔ p = .name "test".toList := by
  constructor
  · rintro (h | h | ⟨items, hi, hs, h⟩)
    · exact absurd (congrArg AttrPath.idents h) (by dsimp only [cfgAttr]; decide)
    · exact absurd h (by dsimp only [cfgAttr]; decide)
    · cases hi
      have hs : p.item.simple = true := hs _ (List.mem_cons_self ..)
      cases h with
      | inl h =>
        obtain ⟨_, i, hi, he⟩ := h
        cases List.mem_singleton.1 hi
        cases p with
        | name n =>
          have : [n] = ["test".toList] := congrArg AttrPath.idents he
          rw [List.cons.inj this |>.1]
        | _ => cases hs
      | inr h => exact absurd h.1 (by dsimp only [cfgAttr]; decide)
  · rintro rfl
    exact .inr (.inr ⟨_, rfl, by intro i hi; cases List.mem_singleton.1 hi; rfl,
      .inl ⟨rfl, _, List.mem_cons_self .., rfl⟩⟩)

theorem mem_cfgs {attrs : List Attr} {a : Attr} : a ∈ cfgs attrs ↔ a ∈ attrs ∧ a.path.idents = ["cfg".toList] := by
  simp [cfgs]

theorem mem_notCfgs {attrs : List Attr} {a : Attr} : a ∈ notCfgs attrs ↔ a ∈ attrs ∧ a.path.idents ≠ ["cfg".toList] := by
  simp [notCfgs]

/-- If nothing says `cfg(test)`, the `cfg` attributes have no effect on what is marked. -/
theorem marks_notCfgs {attrs : List Attr} {ps : List CfgPred} (hr : cfgs attrs = ps.map cfgAttr)
    (ht : .name "test".toList ∉ ps) : (∃ a ∈ attrs, Marks a) ↔ ∃ a ∈ notCfgs attrs, Marks a := by
  constructor
  · rintro ⟨a, ha, hm⟩
    refine ⟨a, mem_notCfgs.2 ⟨ha, fun hc => ?_⟩, hm⟩
    have : a ∈ cfgs attrs := mem_cfgs.2 ⟨ha, hc⟩
    rw [hr] at this
    obtain ⟨p, hp, rfl⟩ := List.mem_map.1 this
    exact ht ((marks_cfgAttr p).1 hm ▸ hp)
  · rintro ⟨a, ha, hm⟩
    exact ⟨a, (mem_notCfgs.1 ha).1, hm⟩

theorem pathValue_notCfgs (attrs : List Attr) : pathValue (notCfgs attrs) = pathValue attrs := by
  unfold pathValue
  congr 1
  induction attrs with
  | nil => rfl
  | cons a as ih =>
    by_cases hc : a.path.idents = ["cfg".toList]
    · have h1 : notCfgs (a :: as) = notCfgs as := by simp [notCfgs, hc]
      have h2 : ¬ a.path = ⟨false, ["path".toList]⟩ := fun h =>
        absurd ((congrArg AttrPath.idents h).symm.trans hc) (by decide)
      rw [h1, ih, List.filterMap_cons, if_neg h2]
    · have h1 : notCfgs (a :: as) = a :: notCfgs as := List.filter_cons_of_pos (bne_iff_ne.2 hc)
      rw [h1, List.filterMap_cons, List.filterMap_cons, ih]

/-- Nor have they on what is skipped. -/
theorem skipped_withoutCfgs {skipCalls : List Text} {n : Node} {ps : List CfgPred} (hr : cfgs n.attrs = ps.map cfgAttr)
    (ht : .name "test".toList ∉ ps) : Skipped skipCalls n ↔ Skipped skipCalls (withoutCfgs n) := by
  obtain ⟨k, attrs, cs⟩ := n
  have hm := marks_notCfgs hr ht
  have hv := pathValue_notCfgs attrs
  unfold Skipped withoutCfgs
  dsimp only [Node.kind, Node.attrs] at hm ⊢
  cases k <;> simp only [hm, hv]

/-- **C91**: what is compiled without `test` being set, whatever else is set, is mutated completely, unless it is
skipped for another reason. -/
theorem C91_compiled_is_mutated (c : VConfig) (f : SynFile) (path : List Node) (n : Node)
    (hp : Position f.items (path ++ [n])) (cs : Conditions f (path ++ [n])) (env : CfgEnv)
    (hcomp : cs.Compiled env) (hnot : env.names "test".toList = false)
    (hf : ∀ a ∈ notCfgs f.attrs, ¬ Marks a) (hl : ∀ m ∈ path ++ [n], ¬ Skipped c.skipCalls (withoutCfgs m))
    (span : Span) (replacement : Text) (genre : Genre) (hc : (span, replacement, genre) ∈ changes c.errorExprs n) :
    ∃ ms ext, walkFile c f = some (ms, ext) ∧ ∃ m ∈ ms, m.sourceFile = c.sourceFile ∧ m.span = span ∧
      m.replacement = replacement ∧ m.genre = genre := by
  have no : ∀ ps : List CfgPred, (∀ p ∈ ps, p.holds env) → .name "test".toList ∉ ps := by
    intro ps h ht
    have : env.names "test".toList = true := h _ ht
    rw [hnot] at this
    cases this
  apply C48_complete c f _ path n hp _ span replacement genre hc
  · intro a ha hm
    obtain ⟨b, hb, hbm⟩ := (marks_notCfgs cs.file_reads (no _ hcomp.1)).1 ⟨a, ha, hm⟩
    exact hf b hb hbm
  · intro m hm
    obtain ⟨i, hi⟩ := List.getElem?_of_mem hm
    have hr := congrArg (·[i]?) cs.nodes_read
    simp only [List.getElem?_map, hi, Option.map_some] at hr
    cases hps : cs.nodes[i]? with
    | none => rw [hps] at hr; cases hr
    | some ps =>
      rw [hps] at hr
      have hr := Option.some.inj hr
      rw [skipped_withoutCfgs hr (no ps (hcomp.2 ps (List.mem_of_getElem? hps)))]
      exact hl m hm

/-- **C91**: and what is compiled for tests only is not mutated. -/
def C91_full : Prop :=
  ∀ (c : VConfig) (f : SynFile) (ms : List Mutant) (ext : List (List ModNamespace)), walkFile c f = some (ms, ext) →
    ∃ ps, MadeAt c f ms ps ∧ ∀ p ∈ ps, ∀ cs : Conditions f p, ¬ cs.TestOnly

/-- **C91**: nothing is made where `cfg(test)` stands, on the file or on a node whose attributes are looked at. -/
theorem C91_test_partial (c : VConfig) (f : SynFile) (ms : List Mutant) (ext : List (List ModNamespace))
    (h : walkFile c f = some (ms, ext)) :
    ∃ ps, MadeAt c f ms ps ∧ ∀ p ∈ ps, cfgAttr (.name "test".toList) ∉ f.attrs ∧
      ∀ n ∈ p, n.kind ≠ .other → cfgAttr (.name "test".toList) ∉ n.attrs := by
  obtain ⟨ps, hm, hps⟩ := C47_skipped_partial c f ms ext h
  exact ⟨ps, hm, fun p hp => ⟨fun ha => (hps p hp).1 _ ha ((marks_cfgAttr _).2 rfl),
    fun n hn hk ha => ((hps p hp).2 n hn).1 hk _ ha ((marks_cfgAttr _).2 rfl)⟩⟩

/-- **C91**: at the start of a file, `#![cfg(test)]` leaves out all of it, and any other condition nothing. -/
theorem C91_file (c : VConfig) (f : SynFile) (p : CfgPred) :
    (p = .name "test".toList → walkFile c { f with attrs := cfgAttr p :: f.attrs } = some ([], [])) ∧
    (p ≠ .name "test".toList → walkFile c { f with attrs := cfgAttr p :: f.attrs } = walkFile c f) := by
  constructor
  · intro hp
    rw [walkFile_spec, if_pos ⟨_, List.mem_cons_self .., (marks_cfgAttr p).2 hp⟩]
  · intro hp
    rw [walkFile_spec, walkFile_spec]
    have : (∃ a ∈ cfgAttr p :: f.attrs, Marks a) ↔ ∃ a ∈ f.attrs, Marks a := by
      constructor
      · rintro ⟨a, ha, hm⟩
        cases List.mem_cons.1 ha with
        | inl he => cases he; exact absurd ((marks_cfgAttr p).1 hm) hp
        | inr ha => exact ⟨a, ha, hm⟩
      · rintro ⟨a, ha, hm⟩
        exact ⟨a, List.mem_cons_of_mem _ ha, hm⟩
    by_cases h : ∃ a ∈ f.attrs, Marks a
    · rw [if_pos h, if_pos (this.2 h)]
    · rw [if_neg h, if_neg fun hm => h (this.1 hm)]

/-- `all(test, unix)` -/
def testAndUnix : CfgPred := .all [.name "test".toList, .name "unix".toList]

/-- `fn f() { a + b }` with a condition. -/
def conditionalFn (p : CfgPred) : Node :=
  .mk (.fn .item ⟨false, "f".toList, none, [], sampleSpan 1 1 9⟩
      (some ⟨[sampleSpan 2 5 10], [qi "a", .punct '+', qi "b"]⟩)) [cfgAttr p] []

/-- **C91** does not hold in full: code with `#[cfg(all(test, unix))]` is mutated, though it is for tests only. -/
theorem C91_all_false : ¬ C91_full := by
  intro hf
  obtain ⟨ps, ⟨hsub, hms⟩, hps⟩ := hf sampleVisit { items := [conditionalFn testAndUnix] }
    [⟨sampleFile, some ⟨"f".toList, [], sampleSpan 1 1 9⟩, sampleSpan 2 5 10, "()".toList, .fnValue⟩] [] (by decide +kernel)
  cases ps with
  | nil => cases hms
  | cons p rest =>
    have hpos := hsub.subset (List.mem_cons_self ..)
    have hp : p = [conditionalFn testAndUnix] := by
      have : positionsAll [] [conditionalFn testAndUnix] = [[conditionalFn testAndUnix]] := rfl
      rw [this] at hpos
      exact List.mem_singleton.1 hpos
    subst hp
    refine hps _ (List.mem_cons_self ..) ⟨[], [[testAndUnix]], rfl, rfl⟩ ⟨⟨⟨fun _ => true, fun _ _ => true⟩, ?_⟩, ?_⟩
    · exact ⟨fun _ h => (by cases h), fun ps h p hp => by
        cases List.mem_singleton.1 h; cases List.mem_singleton.1 hp; rfl⟩
    · intro env h
      have : testAndUnix.holds env := h.2 _ (List.mem_cons_self ..) _ (List.mem_cons_self ..)
      simp only [testAndUnix, CfgPred.holds, allHold, Bool.and_true, Bool.and_eq_true] at this
      exact this.1

/-- a function that is compiled on Unix and for tests; there is an environment without `test` where it is -/
example : ∃ m ∈ ((walkFile sampleVisit { items := [conditionalFn (.any [.name "test".toList, .name "unix".toList])] }).map
    Prod.fst).getD [], m.replacement = "()".toList := by
  obtain ⟨ms, ext, hw, m, hm, _, _, hr, _⟩ := C91_compiled_is_mutated sampleVisit
    { items := [conditionalFn (.any [.name "test".toList, .name "unix".toList])] } []
    (conditionalFn (.any [.name "test".toList, .name "unix".toList])) (.root (List.mem_cons_self ..))
    ⟨[], [[.any [.name "test".toList, .name "unix".toList]]], rfl, rfl⟩ ⟨fun n => n == "unix".toList, fun _ _ => false⟩
    ⟨fun _ h => (by cases h), fun ps h p hp => by cases List.mem_singleton.1 h; cases List.mem_singleton.1 hp; decide⟩
    (by decide) (fun _ h => (by cases h))
    (by
      intro m hm
      cases List.mem_singleton.1 hm
      unfold Skipped
      rintro (⟨a, ha, _⟩ | h | ⟨h, _⟩ | h)
      · exact List.not_mem_nil (show a ∈ ([] : List Attr) from ha)
      · cases h
      · exact h rfl
      · exact absurd (h _ rfl) (by decide))
    (sampleSpan 2 5 10) "()".toList .fnValue (by decide +kernel)
  rw [hw]
  exact ⟨m, hm, hr⟩

/-- and one that is for tests -/
example : walkFile sampleVisit { items := [conditionalFn (.name "test".toList)] } = some ([], []) := by decide +kernel

end CM.Props
