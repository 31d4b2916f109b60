import Verif.Props.Span
import Verif.Props.Visit
import Verif.Props.Lab
import Verif.Spec.Edit
/-! C93: what of the text a mutant changes. -/
namespace CM.Props
open CM CM.Spec

theorem follow_whole {pre : Text} {ss : List Span} {rest : Text} (h : Follow pre ss rest) {span : Span} (hs : wholeSpan ss = some span) :
    ∃ gap t rest', rest = gap ++ t ++ rest' ∧ span = spanOf (pre ++ gap) t := by
  induction ss generalizing pre rest span with
  | nil => cases hs
  | cons s ss ih =>
    obtain ⟨gap, t, rest', hr, hsp, hf⟩ := h
    cases ss with
    | nil =>
      cases hs
      exact ⟨gap, t, rest', hr, by rw [hsp]; rfl⟩
    | cons s' ss' =>
      obtain ⟨gap', t', rest'', hr', hsp'⟩ := ih hf (span := _) rfl
      refine ⟨gap, t ++ gap' ++ t', rest'', by rw [hr, hr']; simp [List.append_assoc], ?_⟩
      cases hs
      have h1 : ((s' :: ss').getLast (by simp)).stop = posAfter (pre ++ gap ++ t ++ gap' ++ t') := by
        have := congrArg Span.stop hsp'
        exact this
      have h2 : (s :: s' :: ss').getLast (by simp) = (s' :: ss').getLast (by simp) := List.getLast_cons (by simp)
      unfold spanOf
      rw [h2, h1, hsp]
      simp [spanOf, List.append_assoc]

theorem change_at {code : Text} {errs : List Tokens} {n : Node} (h : InText code n) {span : Span} {repl : Text} {genre : Genre}
    (hc : (span, repl, genre) ∈ changes errs n) : ∃ orig, AtText code span orig ∧ MayReplace genre orig repl := by
  unfold changes at hc
  unfold InText at h
  cases hk : n.kind with
  | other => rw [hk] at hc; cases hc
  | call => rw [hk] at hc; cases hc
  | methodCall => rw [hk] at hc; cases hc
  | impl => rw [hk] at hc; cases hc
  | trait => rw [hk] at hc; cases hc
  | mod => rw [hk] at hc; cases hc
  | fn k sig block =>
    rw [hk] at hc h
    cases block with
    | none => cases hc
    | some block =>
      dsimp only at hc h
      split at hc
      · rename_i sp hw
        obtain ⟨r, _, hr⟩ := List.mem_map.1 hc
        cases hr
        obtain ⟨gap, t, rest', hr, hs⟩ := follow_whole h hw
        exact ⟨t, ⟨gap, rest', hr, hs⟩, trivial⟩
      · cases hc
  | binary op sp =>
    rw [hk] at hc h
    obtain ⟨r, hr, he⟩ := List.mem_map.1 hc
    cases he
    exact ⟨_, h, op, rfl, hr⟩
  | unary op sp =>
    rw [hk] at hc h
    cases op with
    | not => cases List.mem_singleton.1 hc; exact ⟨_, h, .inl rfl, rfl⟩
    | neg => cases List.mem_singleton.1 hc; exact ⟨_, h, .inr rfl, rfl⟩
    | deref => cases hc
  | «match» arms =>
    rw [hk] at hc h
    dsimp only at hc h
    cases List.mem_append.1 hc with
    | inl hc =>
      obtain ⟨a, ha, he⟩ := List.mem_map.1 hc
      cases he
      obtain ⟨t, ht⟩ := (h a (List.mem_filter.1 ha).1).1
      exact ⟨t, ht, rfl⟩
    | inr hc =>
      obtain ⟨a, ha, he⟩ := List.mem_flatMap.1 hc
      cases hg : a.guard with
      | none => rw [hg] at he; cases he
      | some g =>
        rw [hg] at he
        obtain ⟨t, ht⟩ := (h a ha).2 g hg
        cases List.mem_cons.1 he with
        | inl he => cases he; exact ⟨t, ht, .inl rfl⟩
        | inr he => cases List.mem_singleton.1 he; exact ⟨t, ht, .inr rfl⟩

theorem walk_source {c : VConfig} {f : SynFile} {ms : List Mutant} {ext : List (List ModNamespace)} (h : walkFile c f = some (ms, ext))
    (m : Mutant) (hm : m ∈ ms) : m.sourceFile = c.sourceFile := by
  obtain ⟨ps, ⟨_, rfl⟩, _⟩ := walk_made h
  obtain ⟨p, _, hmp⟩ := List.mem_flatMap.1 hm
  unfold mutantsAt at hmp
  split at hmp
  · obtain ⟨_, _, rfl⟩ := List.mem_map.1 hmp; rfl
  · cases hmp

/-- **C93**: the text for a mutant is that of the file with exactly one construct replaced; what is replaced is what the
mutant says. -/
theorem C93_text (c : VConfig) (f : SynFile) (ms : List Mutant) (ext : List (List ModNamespace)) (h : walkFile c f = some (ms, ext))
    (hcr : '\r' ∉ c.sourceFile.code) (ht : TreeOf c.sourceFile.code f) (m : Mutant) (hm : m ∈ ms) :
    ∃ pre orig post, c.sourceFile.code = pre ++ orig ++ post ∧ m.span = spanOf pre orig ∧ MayReplace m.genre orig m.replacement ∧
      originalText c.sourceFile.code m.span = orig ∧
      m.mutated = pre ++ m.replacement ++ " /* ~ changed by cargo-mutants ~ */".toList ++ post := by
  obtain ⟨ps, ⟨hsub, rfl⟩, _⟩ := walk_made h
  obtain ⟨p, hp, hmp⟩ := List.mem_flatMap.1 hm
  have hpos := position_of_mem (hsub.subset hp)
  unfold mutantsAt at hmp
  cases hl : p.getLast? with
  | none => rw [hl] at hmp; cases hmp
  | some n =>
    rw [hl] at hmp
    obtain ⟨path, rfl⟩ := List.getLast?_eq_some_iff.1 hl
    obtain ⟨⟨span, rep, genre⟩, hch, rfl⟩ := List.mem_map.1 hmp
    obtain ⟨orig, ⟨pre, post, hcode, hspan⟩, hmay⟩ := change_at (ht path n hpos) hch
    have hcr' : '\r' ∉ pre ++ orig ++ post := hcode ▸ hcr
    refine ⟨pre, orig, post, hcode, hspan, hmay, ?_, ?_⟩
    · dsimp only
      rw [hcode, hspan]
      have hn : ∀ t, '\r' ∉ t → CleanAt t := fun t ht => clean_of_noCR ht
      refine C02_original_is_region_partial pre orig post (hn _ fun hx => hcr' ?_) (hn _ fun hx => hcr' ?_)
      · exact List.mem_append_left _ (List.mem_append_left _ hx)
      · exact List.mem_append_left _ hx
    · unfold Mutant.mutated
      dsimp only
      rw [hcode, hspan, C01_edits_exactly_region_lf_partial pre orig post rep hcr']
      have : " /* ~ changed by cargo-mutants ~ */".toList = " ".toList ++ markerText := by decide
      rw [this]
      simp [List.append_assoc]

/-- **C93**: two mutants of a file with the same span and different replacements give different texts. -/
theorem C93_distinct (c : VConfig) (f : SynFile) (ms : List Mutant) (ext : List (List ModNamespace)) (h : walkFile c f = some (ms, ext))
    (hcr : '\r' ∉ c.sourceFile.code) (ht : TreeOf c.sourceFile.code f) (m m' : Mutant) (hm : m ∈ ms) (hm' : m' ∈ ms)
    (hs : m.span = m'.span) (hr : m.replacement ≠ m'.replacement) : m.mutated ≠ m'.mutated := by
  obtain ⟨pre, orig, post, h1, h2, _, _, h4⟩ := C93_text c f ms ext h hcr ht m hm
  have hc : m'.sourceFile = c.sourceFile := walk_source h m' hm'
  intro he
  have h5 : m'.mutated = pre ++ (m'.replacement ++ " ".toList ++ markerText) ++ post := by
    unfold Mutant.mutated
    rw [hc, ← hs, h2, h1]
    exact C01_edits_exactly_region_lf_partial pre orig post _ (h1 ▸ hcr)
  rw [he, h5] at h4
  have h6 : " /* ~ changed by cargo-mutants ~ */".toList = " ".toList ++ markerText := by decide
  rw [h6] at h4
  simp only [List.append_assoc] at h4
  have h7 := List.append_cancel_left h4
  rw [← List.append_assoc, ← List.append_assoc, ← List.append_assoc, ← List.append_assoc] at h7
  exact hr (List.append_cancel_right (List.append_cancel_right (List.append_cancel_right h7))).symm

/-- **C93**: that text is what the commands for the mutant find in its file. -/
theorem C93_tested (cfg : Lab.Config) (hj : cfg.JobsOk) (hc : cfg.Consistent) (s : Lab.State) (hreach : Lab.Reachable cfg s)
    (i d : Nat) (m : Mutant) (p : Phase) (todo : List Phase) (rs : List PhaseResult)
    (hpc : s.workers[i]? = some (.command d (.mutant m) p todo rs))
    (c : VConfig) (f : SynFile) (ms : List Mutant) (ext : List (List ModNamespace)) (h : walkFile c f = some (ms, ext))
    (hcr : '\r' ∉ c.sourceFile.code) (ht : TreeOf c.sourceFile.code f) (hm : m ∈ ms) :
    ∃ pre orig post, c.sourceFile.code = pre ++ orig ++ post ∧ MayReplace m.genre orig m.replacement ∧
      s.sh.dirs d c.sourceFile.path = some (pre ++ m.replacement ++ " /* ~ changed by cargo-mutants ~ */".toList ++ post) := by
  obtain ⟨pre, orig, post, h1, _, h3, _, h4⟩ := C93_text c f ms ext h hcr ht m hm
  obtain ⟨_, t, _, hsome, hd⟩ := C29_one_mutation_up_to_crlf_partial cfg hj hc s hreach i d m p todo rs hpc
  refine ⟨pre, orig, post, h1, h3, ?_⟩
  rw [← h4, ← walk_source h m hm, hd]
  unfold Lab.withFile
  simp

/-- A function, as text. The guard has no space before it. -/
def editText : Text := "fn f(n: u8) -> bool {\n    match n {\n        m if(m > 0) => !g(),\n        _ => h() + 1,\n    }\n}\n".toList

/-- Its tree. -/
def editTree : SynFile :=
  { items := [.mk (.fn .item ⟨false, "f".toList, some (.path ⟨false, [⟨"bool".toList, .none⟩]⟩), [.punct '-', .punct '>', qi "bool"], ⟨⟨1, 1⟩, ⟨6, 2⟩⟩⟩
      (some ⟨[⟨⟨2, 5⟩, ⟨5, 6⟩⟩], [qi "match"]⟩)) []
      [.mk (.match [⟨false, some ⟨⟨3, 13⟩, ⟨3, 20⟩⟩, ⟨⟨3, 9⟩, ⟨3, 29⟩⟩⟩, ⟨true, none, ⟨⟨4, 9⟩, ⟨4, 22⟩⟩⟩]) []
        [.mk (.binary .gt ⟨⟨3, 16⟩, ⟨3, 17⟩⟩) [] [], .mk (.unary .not ⟨⟨3, 24⟩, ⟨3, 25⟩⟩) [] [], .mk (.binary .add ⟨⟨4, 18⟩, ⟨4, 19⟩⟩) [] []]]] }

def editVisit : VConfig := { sourceFile := ⟨⟨"p".toList, "1.0.0".toList, [], []⟩, ["src".toList, "lib.rs".toList], editText, true⟩ }

theorem edit_text_cr : '\r' ∉ editText := by decide +kernel

theorem edit_tree : TreeOf editText editTree := by
  have h : ∀ p ∈ positionsAll [] editTree.items, ∀ n, p.getLast? = some n → InText editText n := by
    intro p hp n hn
    simp only [editTree, positionsAll, positions, List.append_nil, List.mem_append, List.mem_cons, List.not_mem_nil, or_false, List.nil_append] at hp
    rcases hp with hp | hp | hp | hp | hp <;> (subst hp; cases hn)
    · exact ⟨"fn f(n: u8) -> bool {\n    ".toList, "match n {\n        m if(m > 0) => !g(),\n        _ => h() + 1,\n    }".toList, "\n}\n".toList, by decide +kernel, by decide +kernel, trivial⟩
    · intro a ha
      simp only [List.mem_cons, List.not_mem_nil, or_false] at ha
      rcases ha with rfl | rfl
      · exact ⟨⟨"m if(m > 0) => !g(),".toList, ⟨"fn f(n: u8) -> bool {\n    match n {\n        ".toList, "\n        _ => h() + 1,\n    }\n}\n".toList, by decide +kernel, by decide +kernel⟩⟩, fun _ hg => by cases hg; exact ⟨"(m > 0)".toList, ⟨"fn f(n: u8) -> bool {\n    match n {\n        m if".toList, " => !g(),\n        _ => h() + 1,\n    }\n}\n".toList, by decide +kernel, by decide +kernel⟩⟩⟩
      · exact ⟨⟨"_ => h() + 1,".toList, ⟨"fn f(n: u8) -> bool {\n    match n {\n        m if(m > 0) => !g(),\n        ".toList, "\n    }\n}\n".toList, by decide +kernel, by decide +kernel⟩⟩, fun _ hg => by cases hg⟩
    · exact ⟨"fn f(n: u8) -> bool {\n    match n {\n        m if(m ".toList, " 0) => !g(),\n        _ => h() + 1,\n    }\n}\n".toList, by decide +kernel, by decide +kernel⟩
    · exact ⟨"fn f(n: u8) -> bool {\n    match n {\n        m if(m > 0) => ".toList, "g(),\n        _ => h() + 1,\n    }\n}\n".toList, by decide +kernel, by decide +kernel⟩
    · exact ⟨"fn f(n: u8) -> bool {\n    match n {\n        m if(m > 0) => !g(),\n        _ => h() ".toList, " 1,\n    }\n}\n".toList, by decide +kernel, by decide +kernel⟩
  intro path n hp
  exact h _ (mem_of_position hp) n (by simp)

/-- Its mutants: what is there, and what replaces it. -/
theorem edit_mutants : (walkFile editVisit editTree).map (fun r => r.1.map fun m => (m.span.start, (originalText editText m.span).take 7, m.replacement)) =
    some [(⟨2, 5⟩, "match n".toList, "true".toList), (⟨2, 5⟩, "match n".toList, "false".toList),
      (⟨3, 13⟩, "(m > 0)".toList, "true".toList), (⟨3, 13⟩, "(m > 0)".toList, "false".toList),
      (⟨3, 16⟩, ">".toList, "==".toList), (⟨3, 16⟩, ">".toList, "<".toList), (⟨3, 16⟩, ">".toList, ">=".toList),
      (⟨3, 24⟩, "!".toList, []), (⟨4, 18⟩, "+".toList, "-".toList), (⟨4, 18⟩, "+".toList, "*".toList)] := by
  decide +kernel

/-- The text for the last of them. -/
theorem edit_last : (walkFile editVisit editTree).bind (fun r => r.1.getLast?.map (·.mutated)) =
    some ("fn f(n: u8) -> bool {\n    match n {\n        m if(m > 0) => !g(),\n        _ => h() ".toList ++ "*".toList ++
      " /* ~ changed by cargo-mutants ~ */".toList ++ " 1,\n    }\n}\n".toList) := by
  decide +kernel

end CM.Props
