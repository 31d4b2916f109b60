import Verif.Spec.Name
import Verif.Proofs.Output
import Verif.Proofs.Text
import Verif.Props.Visit
/-! C54: the name of a mutant says what it is. -/
namespace CM.Props
open CM CM.Spec

theorem upToColon_append (a b : Text) (h : ':' ∉ a) : upToColon (a ++ ':' :: b) = some (a, b) := by
  induction a with
  | nil => simp [upToColon]
  | cons c a ih =>
    have hc : c ≠ ':' := fun e => h (by simp [e])
    have ha : ':' ∉ a := fun e => h (by simp [e])
    simp [upToColon, hc, ih ha]

theorem slash_eq {p : Path} (h : OrdinaryPath p) : toSlashPath p = joinWith "/".toList p := by
  unfold toSlashPath
  have h1 : p.filter (· ≠ []) = p := List.filter_eq_self.2 fun c hc => by simpa using (h.2 c hc).1
  rw [h1]
  have h2 : p.map (fun c => if c = "/".toList ∨ c = "\\".toList then [] else c) = p := by
    refine (List.map_congr_left (g := id) fun c hc => ?_).trans (List.map_id _)
    rw [if_neg]
    · rfl
    · rintro (e | e)
      · exact (h.2 c hc).2.1 (by rw [e]; simp)
      · exact (h.2 c hc).2.2.1 e
  rw [h2]

theorem mem_joinWith {sep : Text} {l : List Text} {c : Char} (h : c ∈ joinWith sep l) : c ∈ sep ∨ ∃ t ∈ l, c ∈ t := by
  induction l with
  | nil => cases h
  | cons a l ih =>
    cases l with
    | nil => exact .inr ⟨a, by simp, h⟩
    | cons b l =>
      rw [joinWith, List.mem_append, List.mem_append] at h
      rcases h with (h | h) | h
      · exact .inr ⟨a, by simp, h⟩
      · exact .inl h
      · rcases ih h with h | ⟨t, ht, h⟩
        · exact .inl h
        · exact .inr ⟨t, List.mem_cons_of_mem _ ht, h⟩

theorem slash_no_colon {p : Path} (h : OrdinaryPath p) : ':' ∉ toSlashPath p := by
  rw [slash_eq h]
  intro hc
  rcases mem_joinWith hc with h' | ⟨t, ht, h'⟩
  · simp at h'
  · exact (h.2 t ht).2.2.2 h'

/-- Different ordinary paths are written differently. -/
theorem slash_injective {p q : Path} (hp : OrdinaryPath p) (hq : OrdinaryPath q) (h : toSlashPath p = toSlashPath q) : p = q := by
  rw [slash_eq hp, slash_eq hq] at h
  have e1 := splitOn_joinWith '/' p hp.1 fun t ht => (hp.2 t ht).2.1
  have e2 := splitOn_joinWith '/' q hq.1 fun t ht => (hq.2 t ht).2.1
  have h' : joinWith ['/'] p = joinWith ['/'] q := h
  rw [← e1, ← e2, h']

/-- **C54**: the name is the path, line, column and description, and these can be read from it. -/
theorem C54_reads_back (m : Mutant) (n : Text) (h : m.name true = some n) (hp : OrdinaryPath m.sourceFile.path) :
    ∃ d, m.describe = some d ∧
      readName n = some (toSlashPath m.sourceFile.path, decimal m.span.start.line, decimal m.span.start.column, d) := by
  unfold Mutant.name at h
  obtain ⟨d, hd, h⟩ := Option.map_eq_some_iff.1 h
  refine ⟨d, hd, ?_⟩
  subst h
  have e : toSlashPath m.sourceFile.path ++ (if true = true then ":".toList ++ decimal m.span.start.line ++ ":".toList ++
      decimal m.span.start.column ++ ": ".toList else ": ".toList) ++ d =
      toSlashPath m.sourceFile.path ++ ':' :: (decimal m.span.start.line ++ ':' :: (decimal m.span.start.column ++ ':' :: ' ' :: d)) := by
    simp
  rw [e]
  unfold readName
  have nd : ∀ k, ':' ∉ decimal k := fun k => not_mem_decimal (by decide)
  rw [upToColon_append _ _ (slash_no_colon hp)]
  simp only [Option.bind_eq_bind, Option.bind_some]
  rw [upToColon_append _ _ (nd _)]
  simp only [Option.bind_some]
  rw [upToColon_append _ _ (nd _)]
  rfl

/-- **C54**: mutants with the same name have the same file, line, column and description. -/
theorem C54_identifies (m m' : Mutant) (n : Text) (h : m.name true = some n) (h' : m'.name true = some n)
    (hp : OrdinaryPath m.sourceFile.path) (hp' : OrdinaryPath m'.sourceFile.path) :
    m.sourceFile.path = m'.sourceFile.path ∧ m.span.start = m'.span.start ∧ m.describe = m'.describe := by
  obtain ⟨d, hd, hr⟩ := C54_reads_back m n h hp
  obtain ⟨d', hd', hr'⟩ := C54_reads_back m' n h' hp'
  rw [hr] at hr'
  simp only [Option.some.injEq, Prod.mk.injEq] at hr'
  obtain ⟨h1, h2, h3, h4⟩ := hr'
  refine ⟨slash_injective hp hp' h1, ?_, by rw [hd, hd', h4]⟩
  have e2 := decimal_injective h2
  have e3 := decimal_injective h3
  cases hs : m.span.start
  cases hs' : m'.span.start
  rw [hs, hs'] at e2 e3
  dsimp only at e2 e3
  subst e2; subst e3
  rfl

/-- **C54**: every mutant that is found has a name. -/
theorem C54_has_name (c : VConfig) (f : SynFile) (ms : List Mutant) (ext : List (List ModNamespace)) (h : walkFile c f = some (ms, ext))
    (m : Mutant) (hm : m ∈ ms) (showLineCol : Bool) : ∃ n, m.name showLineCol = some n := by
  obtain ⟨d, hd⟩ := Option.isSome_iff_exists.1 (C53_described c f ms ext h m hm)
  exact ⟨_, by unfold Mutant.name; rw [hd]; rfl⟩

/-- **C54**: among the mutants of one genre at one place of one function, the name says what replaces it. -/
theorem C54_change (m m' : Mutant) (n : Text) (h : m.name true = some n) (h' : m'.name true = some n)
    (hp : OrdinaryPath m.sourceFile.path) (hp' : OrdinaryPath m'.sourceFile.path)
    (hc : m.sourceFile.code = m'.sourceFile.code) (hs : m.span = m'.span) (hf : m.function = m'.function) (hg : m.genre = m'.genre)
    (ha : m.genre = .matchArm → m.replacement = m'.replacement) : m.replacement = m'.replacement := by
  have hd := (C54_identifies m m' n h h' hp hp').2.2
  obtain ⟨d, hd1, _⟩ := C54_reads_back m n h hp
  unfold Mutant.describe at hd hd1
  rw [← hg, ← hf, ← hs, ← hc] at hd
  have key : ∀ r r' orig tail : Text,
      (if r = [] then "delete ".toList else "replace ".toList) ++ orig ++ (if r = [] then [] else " with ".toList ++ r) ++ tail =
      (if r' = [] then "delete ".toList else "replace ".toList) ++ orig ++ (if r' = [] then [] else " with ".toList ++ r') ++ tail → r = r' := by
    intro r r' orig tail e
    by_cases h1 : r = []
    · by_cases h2 : r' = []
      · rw [h1, h2]
      · rw [if_pos h1, if_neg h2, List.append_assoc, List.append_assoc, List.append_assoc, List.append_assoc] at e
        have e' : some 'd' = some 'r' := congrArg List.head? e
        exact absurd e' (by decide)
    · by_cases h2 : r' = []
      · rw [if_neg h1, if_pos h2, List.append_assoc, List.append_assoc, List.append_assoc, List.append_assoc] at e
        have e' : some 'r' = some 'd' := congrArg List.head? e
        exact absurd e' (by decide)
      · rw [if_neg h1, if_neg h2, if_neg h1, if_neg h2] at e
        exact List.append_cancel_left (List.append_cancel_left (List.append_cancel_right e))
  cases hgen : m.genre with
  | fnValue =>
    rw [hgen] at hd hd1
    cases hfn : m.function with
    | none => rw [hfn] at hd1; cases hd1
    | some g =>
      rw [hfn] at hd
      exact List.append_cancel_left (Option.some.inj hd)
  | matchArm => exact ha hgen
  | matchArmGuard =>
    rw [hgen] at hd
    exact List.append_cancel_left (Option.some.inj hd)
  | binaryOperator => rw [hgen] at hd; exact key _ _ _ _ (Option.some.inj hd)
  | unaryOperator => rw [hgen] at hd; exact key _ _ _ _ (Option.some.inj hd)

/-- **C54**: the description is the documented words with one space between them, and the name is the place
followed by the description; without line and column if these are not asked for. -/
theorem C54_wording (m : Mutant) :
    m.describe = (wording m).map (joinWith " ".toList) ∧
    m.name true = (wording m).map (fun ws => toSlashPath m.sourceFile.path ++ ":".toList ++ decimal m.span.start.line ++
      ":".toList ++ decimal m.span.start.column ++ ": ".toList ++ joinWith " ".toList ws) ∧
    m.name false = (wording m).map (fun ws => toSlashPath m.sourceFile.path ++ ": ".toList ++ joinWith " ".toList ws) := by
  have h : m.describe = (wording m).map (joinWith " ".toList) := by
    unfold Mutant.describe wording
    cases m.genre <;> cases hf : m.function with
    | none => cases hr : m.replacement <;> simp [joinWith]
    | some f => cases hr : m.replacement <;> by_cases ht : f.returnType = [] <;> simp [joinWith, ht]
  refine ⟨h, ?_, ?_⟩
  · rw [Mutant.name, h]; cases wording m <;> simp
  · rw [Mutant.name, h]; cases wording m <;> simp

/-- A mutant for examples. -/
def sampleNamed (path : String) (line : Nat) (genre : Genre) (replacement : String) : Mutant where
  sourceFile := ⟨⟨"p".toList, "1.0.0".toList, [], []⟩, components path.toList, [], true⟩
  function := none
  span := sampleSpan line 5 9
  replacement := replacement.toList
  genre := genre

example : (sampleNamed "src/a b.rs" 12 .matchArm "").name true = some "src/a b.rs:12:5: delete match arm".toList := by decide +kernel
example : OrdinaryPath (sampleNamed "src/a b.rs" 12 .matchArm "").sourceFile.path := by
  refine ⟨by decide, ?_⟩
  have : (sampleNamed "src/a b.rs" 12 .matchArm "").sourceFile.path = ["src".toList, "a b.rs".toList] := by decide +kernel
  rw [this]
  decide

/-- With colons in paths, names could be the same for different files. -/
example : (sampleNamed "a" 1 .matchArmGuard ":2:5: delete match arm").name true =
    (sampleNamed "a:1:5: replace match guard with " 2 .matchArm "").name true := by decide +kernel

end CM.Props
