import Verif.Model.PathSafe
import Verif.Spec.Path
/-! C44: source files outside of the tree are not read or written. -/
namespace CM.Props
open CM Spec

theorem ascentFrom_ge (mx cur : Int) (p : Path) : mx ≤ ascentFrom mx cur p := by
  induction p generalizing mx cur with
  | nil => exact Int.le_refl _
  | cons c rest ih =>
    unfold ascentFrom
    split
    · exact Int.le_trans (by omega) (ih _ _)
    · split
      · exact ih _ _
      · exact ih _ _

theorem follow_append (s : List Text) (p q : Path) : follow s (p ++ q) = follow (follow s p) q := by
  induction p generalizing s with
  | nil => rfl
  | cons c rest ih => simp only [List.cons_append, follow]; exact ih _

/-- Starting some levels below the base. -/
def StaysFrom (stack base : List Text) (rel : Path) : Prop :=
  ∀ pre, pre <+: rel → ∃ below, follow stack pre = below ++ base

theorem staysFrom_cons (stack base : List Text) (c : Text) (rest : Path) :
    StaysFrom stack base (c :: rest) ↔
      (∃ below, stack = below ++ base) ∧ StaysFrom (follow stack [c]) base rest := by
  constructor
  · intro h
    refine ⟨h [] List.nil_prefix, fun pre hp => ?_⟩
    have := h (c :: pre) (List.cons_prefix_cons.2 ⟨rfl, hp⟩)
    simpa only [follow] using this
  · intro ⟨h0, h1⟩ pre hp
    cases pre with
    | nil => exact h0
    | cons d pre =>
      obtain ⟨rfl, hp'⟩ := List.cons_prefix_cons.1 hp
      have := h1 pre hp'
      simpa only [follow] using this

theorem staysFrom_nil (stack base : List Text) :
    StaysFrom stack base [] ↔ ∃ below, stack = below ++ base := by
  constructor
  · intro h; exact h [] (List.prefix_refl _)
  · intro h pre hp
    rw [List.prefix_nil.1 hp]; exact h

theorem ascent_iff (base : List Text) (hb : base ≠ []) (rel : Path) (below : List Text) (mx : Int)
    (hm : mx ≤ 0) :
    ascentFrom mx (-(below.length : Int)) rel ≤ 0 ↔ StaysFrom (below ++ base) base rel := by
  induction rel generalizing below mx with
  | nil =>
    rw [staysFrom_nil]
    exact ⟨fun _ => ⟨below, rfl⟩, fun _ => hm⟩
  | cons c rest ih =>
    rw [staysFrom_cons]
    unfold ascentFrom
    by_cases h1 : c = dotdot
    · rw [if_pos h1]
      have hf : follow (below ++ base) [c] = (below ++ base).tail := by
        simp only [follow]; exact if_pos h1
      rw [hf]
      cases below with
      | nil =>
        simp only [List.length_nil, List.nil_append]
        constructor
        · intro h
          exfalso
          have := ascentFrom_ge (max (-((0 : Nat) : Int) + 1) mx) (-((0 : Nat) : Int) + 1) rest
          omega
        · intro ⟨_, h⟩
          exfalso
          obtain ⟨b, hb'⟩ := h [] List.nil_prefix
          simp only [follow] at hb'
          have hl := congrArg List.length hb'
          cases base with
          | nil => exact hb rfl
          | cons x base => simp only [List.tail_cons, List.length_append, List.length_cons] at hl; omega
      | cons x below =>
        have e : -((x :: below).length : Int) + 1 = -(below.length : Int) := by
          simp only [List.length_cons]; omega
        rw [e, ih below _ (by omega)]
        simp only [List.cons_append, List.tail_cons]
        exact ⟨fun h => ⟨⟨x :: below, rfl⟩, h⟩, fun h => h.2⟩
    · rw [if_neg h1]
      by_cases h2 : c = dot
      · rw [if_pos h2]
        have hf : follow (below ++ base) [c] = below ++ base := by
          simp only [follow]; exact (if_neg h1).trans (if_pos h2)
        rw [hf, ih below _ hm]
        exact ⟨fun h => ⟨⟨below, rfl⟩, h⟩, fun h => h.2⟩
      · rw [if_neg h2]
        have hf : follow (below ++ base) [c] = (c :: below) ++ base := by
          simp only [follow]; exact (if_neg h1).trans (if_neg h2)
        have e : -(below.length : Int) - 1 = -((c :: below).length : Int) := by
          simp only [List.length_cons]; omega
        rw [hf, e, ih (c :: below) _ hm]
        exact ⟨fun h => ⟨⟨below, rfl⟩, h⟩, fun h => h.2⟩

/-- **C44.** The check that a path is not above the tree says exactly that, followed step by step from
any directory other than the root of the file system, it never leaves that directory. -/
theorem C44_check_is_exact (rel : Path) (base : List Text) (hb : base ≠ []) :
    ascent rel ≤ 0 ↔ StaysInside base rel :=
  ascent_iff base hb rel [] 0 (by omega)

/-- **C44.** A source file is read only from a path that does not leave the tree: if loading gives a
file, for a path that is not absolute, the text is that of the path below the tree, which stays inside
the tree; and the same path stays inside any build directory, where the mutated text is written. -/
theorem C44_load_stays_inside (read : Path → Option Text) (tree rel : Path) (pkg : Package) (top : Bool)
    (f : SourceFile) (hrel : Relative rel)
    (h : loadSource read tree rel pkg top = some (some f)) :
    (∃ text, read (tree ++ rel) = some text ∧ f.code = normalizeNewlines text) ∧ f.path = rel ∧
    ∀ base : List Text, base ≠ [] → StaysInside base f.path := by
  unfold loadSource at h
  by_cases ha : ascent rel > 0
  · rw [if_pos ha] at h; cases h
  · rw [if_neg ha] at h
    obtain ⟨text, ht, hf⟩ := Option.bind_eq_some_iff.1 h
    cases hf
    rw [joinPath, if_neg hrel] at ht
    exact ⟨⟨text, ht, rfl⟩, rfl, fun base hb => (C44_check_is_exact rel base hb).1 (by omega)⟩

/-- **C44.** A path that leaves the tree is skipped without being read, whatever the files are. -/
theorem C44_outside_is_skipped (read : Path → Option Text) (tree rel : Path) (pkg : Package)
    (top : Bool) (base : List Text) (hb : base ≠ []) (hout : ¬ StaysInside base rel) :
    loadSource read tree rel pkg top = some none := by
  unfold loadSource
  rw [if_pos]
  by_cases ha : ascent rel > 0
  · exact ha
  · exact absurd ((C44_check_is_exact rel base hb).1 (by omega)) hout

/-- `a/../../tree/b.rs` leaves the tree and returns: it is skipped. -/
example : ¬ StaysInside ["tree".toList]
    ["a".toList, "..".toList, "..".toList, "tree".toList, "b.rs".toList] := by
  rw [← C44_check_is_exact _ _ (by simp)]; decide
/-- `a/../b.rs` stays inside. -/
example : StaysInside ["tree".toList] ["a".toList, "..".toList, "b.rs".toList] := by
  rw [← C44_check_is_exact _ _ (by simp)]; decide
example : Relative ["a".toList, "..".toList, "b.rs".toList] := by unfold Relative; decide

end CM.Props
