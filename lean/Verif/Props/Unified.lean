import Verif.Proofs.Unified
import Verif.Props.Texts
/-! C106: the diff of a mutant. -/
namespace CM.Props
open CM CM.Spec CM.Similar CM.UnifiedProofs

/-- How a line of a hunk is printed, as lines. -/
def printedLines : Char × Text → List Text
  | (mark, t) => if t.getLast? = some '\n' then [mark :: t] else [mark :: t ++ "\n".toList, noFeed]

theorem feed_change {c : Char × Text} (h : GoodChange c) (rest : Text) :
    feedLines (changeText c ++ rest) = printedLines c ++ feedLines rest := by
  obtain ⟨mark, t⟩ := c
  obtain ⟨hm, l, hl, ht⟩ := h
  have hmark : '\n' ∉ mark :: l := by
    rcases hm with hm | hm | hm <;> (simp only at hm; subst hm; simp [hl])
  rcases ht with ht | ⟨ht, hr, hne⟩ <;> simp only at ht <;> subst ht
  · simp only [changeText, printedLines, List.getLast?_append, List.getLast?_singleton, Option.some_or, true_or, if_true,
      List.append_nil]
    have := feedLines_line (rest := rest) hmark
    simpa using this
  · have h1 : ¬ t.getLast? = some '\n' := fun e => hl (List.mem_of_getLast? e)
    have h2 : ¬ t.getLast? = some '\r' := fun e => hr (List.mem_of_getLast? e)
    simp only [changeText, printedLines, h1, h2, or_self, if_false]
    have a := feedLines_line (rest := "\\ No newline at end of file".toList ++ '\n' :: rest) hmark
    have b := feedLines_line (l := "\\ No newline at end of file".toList) (rest := rest) (by decide)
    have e : mark :: t ++ "\n\\ No newline at end of file\n".toList ++ rest =
        (mark :: t) ++ '\n' :: ("\\ No newline at end of file".toList ++ '\n' :: rest) := by simp
    rw [e, a, b]
    rfl

theorem feed_changes {cs : List (Char × Text)} (h : ∀ c ∈ cs, GoodChange c) (rest : Text) :
    feedLines (cs.flatMap changeText ++ rest) = cs.flatMap printedLines ++ feedLines rest := by
  induction cs with
  | nil => rfl
  | cons c cs ih =>
    simp only [List.flatMap_cons, List.append_assoc]
    rw [feed_change (h c (by simp)), ih fun x hx => h x (List.mem_cons_of_mem _ hx)]

theorem printed_head {c : Char × Text} (h : GoodChange c) (rest : List Text) :
    (printedLines c ++ rest).head? ≠ some noFeed := by
  obtain ⟨mark, t⟩ := c
  have : mark ≠ '\\' := by rcases h.1 with hm | hm | hm <;> (simp only at hm; subst hm; decide)
  simp only [printedLines]
  split
  · simp only [List.cons_append, List.nil_append, List.head?_cons, ne_eq, Option.some.injEq]
    intro e; unfold noFeed at e; simp at e; exact this e.1
  · simp only [List.cons_append, List.head?_cons, ne_eq, Option.some.injEq]
    intro e; unfold noFeed at e; simp at e; exact this e.1

/-- The printed lines of a hunk are read as what they were made of. -/
theorem reads_body {cs : List (Char × Text)} (h : ∀ c ∈ cs, GoodChange c) {rest : List Text}
    (hrest : rest.head? ≠ some noFeed) :
    ReadsBody ((cs.filter fun l => l.1 ≠ '+').map (·.2)).length ((cs.filter fun l => l.1 ≠ '-').map (·.2)).length
      (cs.flatMap printedLines ++ rest) cs rest := by
  induction cs with
  | nil => exact .done
  | cons c cs ih =>
    have ih := ih fun x hx => h x (List.mem_cons_of_mem _ hx)
    have hnext : (cs.flatMap printedLines ++ rest).head? ≠ some noFeed := by
      cases cs with
      | nil => exact hrest
      | cons d cs =>
        rw [List.flatMap_cons, List.append_assoc]
        exact printed_head (h d (by simp)) _
    obtain ⟨mark, t⟩ := c
    have hm := (h (mark, t) (by simp)).1
    simp only [List.flatMap_cons, List.append_assoc, List.length_map] at ih ⊢
    simp only at hm
    by_cases hlast : t.getLast? = some '\n'
    · simp only [printedLines, hlast, if_true, List.cons_append, List.nil_append]
      rcases hm with rfl | rfl | rfl
      · simpa using ReadsBody.both hnext ih
      · simpa using ReadsBody.old hnext ih
      · simpa using ReadsBody.new hnext ih
    · simp only [printedLines, hlast, if_false, List.cons_append, List.nil_append]
      rcases hm with rfl | rfl | rfl
      · simpa using ReadsBody.bothLast (t := t) ih
      · simpa using ReadsBody.oldLast (t := t) ih
      · simpa using ReadsBody.newLast (t := t) ih

theorem reads_range (first count : Nat) : HunkRange (rangeText first (first + count)) first count := by
  have e : first + count - first = count := by omega
  simp only [rangeText, e]
  by_cases h1 : count = 1
  · subst h1
    rw [if_pos rfl]
    exact .single (C54_numbers _).1
  · rw [if_neg h1]
    by_cases h0 : count = 0
    · subst h0
      rw [if_pos rfl]
      exact .none (C54_numbers _).1 (C54_numbers _).1
    · rw [if_neg h0]
      exact .several (C54_numbers _).1 (C54_numbers _).1 h0

theorem range_no_feed (a b : Nat) : '\n' ∉ rangeText a b := by
  have d : ∀ n, '\n' ∉ decimal n := fun n => not_mem_decimal (by decide)
  simp only [rangeText]
  split
  · exact d _
  · simp only [List.mem_append, not_or]
    exact ⟨⟨d _, by decide⟩, d _⟩

theorem header_of {old new : List Text} {i j g i' j'} (h : Script old new i j g i' j') (hne : g ≠ []) :
    headerText g = "@@ -".toList ++ rangeText i i' ++ " +".toList ++ rangeText j j' ++ " @@".toList := by
  have head : ∀ {i j g i' j'}, Script old new i j g i' j' → ∀ a, g.head? = some a → a.oldStart = i ∧ a.newStart = j := by
    intro i j g i' j' h a ha
    cases h with
    | nil => cases ha
    | cons e1 e2 => cases ha; exact ⟨e1, e2⟩
  have last : ∀ {i j g i' j'}, Script old new i j g i' j' → ∀ z, g.getLast? = some z →
      z.oldStart + z.oldLen = i' ∧ z.newStart + z.newLen = j' := by
    intro i j g i' j' h
    induction h with
    | nil => intro z hz; cases hz
    | @cons i j op ops i' j' e1 e2 _ _ _ _ hrest ih =>
      intro z hz
      cases ops with
      | nil =>
        cases hrest
        simp only [List.getLast?_singleton, Option.some.injEq] at hz
        subst hz
        exact ⟨by omega, by omega⟩
      | cons a as => rw [List.getLast?_cons_cons] at hz; exact ih z hz
  obtain ⟨a, ha⟩ : ∃ a, g.head? = some a := by cases g with
    | nil => exact absurd rfl hne
    | cons a _ => exact ⟨a, rfl⟩
  obtain ⟨z, hz⟩ : ∃ z, g.getLast? = some z := by
    cases hg : g.getLast? with
    | none => exact absurd (List.getLast?_eq_none_iff.1 hg) hne
    | some z => exact ⟨z, rfl⟩
  simp only [headerText, ha, hz]
  rw [(head h a ha).1, (head h a ha).2, (last h z hz).1, (last h z hz).2]

/-- The printed hunks are read, and make the new lines from the old ones. -/
theorem hunks_work {old new : List Text} (ho : ∀ l ∈ old, GoodLine l) (hn : ∀ l ∈ new, GoodLine l) {i j gs}
    (h : Groups old new i j gs) :
    ∃ hs, hs.length = gs.length ∧ ReadsHunks (feedLines (gs.flatMap (hunkText old new))) hs ∧
      Patched i j (old.drop i) hs (new.drop j) ∧
      (feedLines (gs.flatMap (hunkText old new))).head? ≠ some noFeed := by
  induction h with
  | nil e => exact ⟨[], rfl, .none, by rw [e]; exact .rest, by simp [feedLines]⟩
  | @cons i j k g i' j' gs hs h1 h2 hne hscript _ ih =>
    obtain ⟨hunks, hlen, hreads, hpatched, hhead⟩ := ih
    obtain ⟨s1, s2⟩ := script_sides hscript
    obtain ⟨hb1, hb2, hb3, hb4⟩ := script_bounds hscript
    have hb3 := hb3 h1
    have hb4 := hb4 h2
    have hgood : ∀ c ∈ g.flatMap (DiffOp.changes old new), GoodChange c := by
      intro c hc
      obtain ⟨op, _, hc⟩ := List.mem_flatMap.1 hc
      exact changes_good ho hn op c hc
    have hl1 : (DiffOp.slice old (i + k) (i' - (i + k))).length = i' - (i + k) := slice_length (by omega)
    have hl2 : (DiffOp.slice new (j + k) (j' - (j + k))).length = j' - (j + k) := slice_length (by omega)
    have hnonempty : g.flatMap (DiffOp.changes old new) ≠ [] := by
      intro e
      rw [e] at s1 s2
      have z1 : i' - (i + k) = 0 := by rw [← hl1, ← s1]; rfl
      have z2 : j' - (j + k) = 0 := by rw [← hl2, ← s2]; rfl
      cases hscript with
      | nil => exact hne rfl
      | cons _ _ hpos _ _ _ hrest =>
        have := script_bounds hrest
        omega
    have htext : hunkText old new g = headerText g ++ "\n".toList ++ (g.flatMap (DiffOp.changes old new)).flatMap changeText := by
      simp only [hunkText]; rw [if_neg hnonempty]
    have hfeed : feedLines ((g :: gs).flatMap (hunkText old new)) =
        (headerText g ++ "\n".toList) ::
          ((g.flatMap (DiffOp.changes old new)).flatMap printedLines ++ feedLines (gs.flatMap (hunkText old new))) := by
      have hh : '\n' ∉ headerText g := by
        rw [header_of hscript hne]
        simp only [List.mem_append, not_or]
        exact ⟨⟨⟨⟨by decide, range_no_feed _ _⟩, by decide⟩, range_no_feed _ _⟩, by decide⟩
      have := feedLines_line (rest := (g.flatMap (DiffOp.changes old new)).flatMap changeText ++ gs.flatMap (hunkText old new)) hh
      rw [List.flatMap_cons, htext]
      rw [feed_changes hgood] at this
      simpa using this
    let hunk : UnifiedHunk := ⟨i + k, j + k, g.flatMap (DiffOp.changes old new)⟩
    have olds : hunk.olds = DiffOp.slice old (i + k) (i' - (i + k)) := s1
    have news : hunk.news = DiffOp.slice new (j + k) (j' - (j + k)) := s2
    refine ⟨hunk :: hunks, by simp [hlen], ?_, ?_, ?_⟩
    · rw [hfeed, header_of hscript hne]
      have body := reads_body hgood hhead
      rw [s1, s2, hl1, hl2] at body
      have r1 := reads_range (i + k) (i' - (i + k))
      have r2 := reads_range (j + k) (j' - (j + k))
      rw [show i + k + (i' - (i + k)) = i' from by omega] at r1
      rw [show j + k + (j' - (j + k)) = j' from by omega] at r2
      have := ReadsHunks.one (h := hunk) r1 r2 body hreads
      simpa using this
    · have kl : (DiffOp.slice old i k).length = k := slice_length h1
      have e1 : old.drop i = DiffOp.slice old i k ++ hunk.olds ++ old.drop i' := by
        rw [olds, drop_slice old i k, drop_slice old (i + k) (i' - (i + k)), List.append_assoc]
        rw [show i + k + (i' - (i + k)) = i' from by omega]
      have e2 : new.drop j = DiffOp.slice old i k ++ hunk.news ++ new.drop j' := by
        rw [news, drop_slice new j k, drop_slice new (j + k) (j' - (j + k)), List.append_assoc, hs]
        rw [show j + k + (j' - (j + k)) = j' from by omega]
      rw [e1, e2]
      refine .hunk (by rw [kl]) (by rw [kl]) ?_
      rw [kl, olds, news, hl1, hl2, show i + k + (i' - (i + k)) = i' from by omega,
        show j + k + (j' - (j + k)) = j' from by omega]
      exact hpatched
    · rw [hfeed, header_of hscript hne]
      intro e
      simp only [List.head?_cons, Option.some.injEq] at e
      have e := congrArg List.head? e
      rw [show "@@ -".toList = ['@', '@', ' ', '-'] from rfl] at e
      simp only [List.cons_append, List.head?_cons] at e
      exact absurd e (by decide)

/-- What the library finds, for two lists of lines. -/
def FindsScripts (find : List Text → List Text → List DiffOp) : Prop :=
  ∀ old new, Script old new 0 0 (find old new) old.length new.length

/-- **C106**: the diff of a mutant is a unified diff from the path of the file to the description of the change, and what it
makes of the lines of the source file are the lines of the mutated file. If the mutant does not change the file, because
the code already has the same text with the marker, it is empty. -/
theorem C106_diff (find : List Text → List Text → List DiffOp) (hfind : FindsScripts find) (m : Mutant) (d : Text)
    (hd : m.describe = some d) (hpath : '\n' ∉ toSlashPath m.sourceFile.path) (hr : '\r' ∉ m.sourceFile.code)
    (hr' : '\r' ∉ m.mutated) :
    ∃ text, mutantDiff find m = some text ∧
      (m.mutated = m.sourceFile.code ∧ text = [] ∨
       ∃ hs, ReadsDiff text (toSlashPath m.sourceFile.path) (d.map fun c => if c = '\n' then ' ' else c) hs ∧
        Patched 0 0 (feedLines m.sourceFile.code) hs (feedLines m.mutated)) := by
  have ho : lineTokens [] m.sourceFile.code = feedLines m.sourceFile.code := by simpa using lineTokens_eq hr [] (by simp)
  have hn : lineTokens [] m.mutated = feedLines m.mutated := by simpa using lineTokens_eq hr' [] (by simp)
  refine ⟨_, by simp only [mutantDiff, hd, Option.map_some]; rfl, ?_⟩
  rw [ho, hn]
  have groups := groupOps_groups (r := 8) (by omega) (hfind (feedLines m.sourceFile.code) (feedLines m.mutated))
  simp only [unifiedText]
  cases hg : groupOps 8 (find (feedLines m.sourceFile.code) (feedLines m.mutated)) with
  | nil =>
    left
    rw [hg] at groups
    cases groups with
    | nil e =>
      simp only [List.drop_zero] at e
      exact ⟨by rw [← feedLines_flatten m.mutated, ← e, feedLines_flatten], rfl⟩
  | cons g gs =>
    right
    rw [hg] at groups
    obtain ⟨hs, hlen, hreads, hpatched, _⟩ := hunks_work (feedLines_good hr) (feedLines_good hr') groups
    simp only [List.drop_zero] at hpatched
    refine ⟨hs, ⟨_, ?_, hreads, ?_⟩, hpatched⟩
    · have h1 : '\n' ∉ "--- ".toList ++ toSlashPath m.sourceFile.path := by
        simp only [List.mem_append, not_or]; exact ⟨by decide, hpath⟩
      have h2 : '\n' ∉ "+++ ".toList ++ d.map fun c => if c = '\n' then ' ' else c := by
        simp only [List.mem_append, not_or, List.mem_map, not_exists, not_and]
        refine ⟨by decide, fun c _ => ?_⟩
        split
        · decide
        · assumption
      have a := feedLines_line (rest := ("+++ ".toList ++ d.map fun c => if c = '\n' then ' ' else c) ++ '\n' ::
        (g :: gs).flatMap (hunkText (feedLines m.sourceFile.code) (feedLines m.mutated))) h1
      have b := feedLines_line (rest := (g :: gs).flatMap (hunkText (feedLines m.sourceFile.code) (feedLines m.mutated))) h2
      rw [b] at a
      simpa using a
    · intro e
      rw [e] at hlen
      cases hlen

end CM.Props
