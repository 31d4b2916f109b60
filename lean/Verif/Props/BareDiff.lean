import Verif.Props.InDiff
/-! C19 and C20 for diffs without context (`git diff -U0`): what the program does where the full statements are false. -/
namespace CM.Props
open CM CM.Spec

/-- The hunks are in order, and between any two there is a line of the file that neither has, as in every diff without context:
`git` makes one hunk of changes that touch. `from_` is the line after the hunk before. -/
def HunksApart : Nat → List Hunk → Prop
  | _, [] => True
  | from_, h :: hs => from_ < firstLine h ∧ HunksApart (firstLine h + newCount h.lines) hs

instance decHunksApart : (from_ : Nat) → (hs : List Hunk) → Decidable (HunksApart from_ hs)
  | _, [] => inferInstanceAs (Decidable True)
  | from_, h :: hs =>
    have := decHunksApart (firstLine h + newCount h.lines) hs
    inferInstanceAs (Decidable (from_ < firstLine h ∧ HunksApart (firstLine h + newCount h.lines) hs))

/-- The lines that are found for a hunk: added lines; the line before a deletion, or if the hunk has no line of the new file the
line before that; and the line after a deletion if the hunk has one. -/
def FoundBy (h : Hunk) (n : Nat) : Prop :=
  ∃ pre l post, h.lines = pre ++ l :: post ∧
    ((∃ t, l = .add t) ∧ n = firstLine h + newCount pre ∨
     (∃ t, l = .remove t) ∧ 1 ≤ n ∧ newCount h.lines ≠ 0 ∧ n + 1 = firstLine h + newCount pre ∨
     (∃ t, l = .remove t) ∧ 1 ≤ n ∧ newCount h.lines = 0 ∧ n + 2 = firstLine h ∨
     (∃ t, l = .remove t) ∧ newCount post ≠ 0 ∧ n = firstLine h + newCount pre)

theorem keptIn_iff (ls : List DiffLine) : keptIn ls ↔ newCount ls ≠ 0 := by
  unfold keptIn newCount
  rw [← Nat.pos_iff_ne_zero, List.countP_pos_iff]

theorem foundBy_iff (h : Hunk) (n : Nat) : affectedRel h.newStart false h.lines n ↔ FoundBy h n := by
  rw [affectedRel_iff]
  unfold FoundBy firstLine
  constructor
  · rintro (⟨h, _⟩ | ⟨pre, l, post, hl, hcase⟩)
    · cases h
    · have hcount : newCount h.lines = newCount pre + newCount (l :: post) := by rw [hl, newCount_append]
      rw [newCount_cons] at hcount
      refine ⟨pre, l, post, hl, ?_⟩
      by_cases hz : newCount h.lines = 0
      · rw [if_pos hz]
        rcases hcase with ⟨⟨t, rfl⟩, h3⟩ | ⟨h2, h3, h4⟩ | ⟨h2, h3, h4⟩
        · simp [isNew] at hcount; omega
        · exact .inr (.inr (.inl ⟨h2, h4, hz, by omega⟩))
        · rw [keptIn_iff] at h4; omega
      · rw [if_neg hz]
        rcases hcase with h2 | ⟨h2, h3, h4⟩ | ⟨h2, h3, h4⟩
        · exact .inl h2
        · exact .inr (.inl ⟨h2, h4, hz, h3⟩)
        · exact .inr (.inr (.inr ⟨h2, (keptIn_iff _).1 h4, h3⟩))
  · rintro ⟨pre, l, post, hl, hcase⟩
    have hcount : newCount h.lines = newCount pre + newCount (l :: post) := by rw [hl, newCount_append]
    rw [newCount_cons] at hcount
    refine .inr ⟨pre, l, post, hl, ?_⟩
    by_cases hz : newCount h.lines = 0
    · rw [if_pos hz] at hcase
      rcases hcase with ⟨⟨t, rfl⟩, h3⟩ | ⟨_, _, h3, _⟩ | ⟨h2, h3, h4, h5⟩ | ⟨h2, h3, h4⟩
      · simp [isNew] at hcount; omega
      · exact absurd hz h3
      · exact .inr (.inl ⟨h2, by omega, h3⟩)
      · omega
    · rw [if_neg hz] at hcase
      rcases hcase with h2 | ⟨h2, h3, _, h4⟩ | ⟨_, _, h3, _⟩ | ⟨h2, h3, h4⟩
      · exact .inl h2
      · exact .inr (.inl ⟨h2, h4, h3⟩)
      · exact absurd h3 hz
      · exact .inr (.inr ⟨h2, h4, (keptIn_iff _).2 h3⟩)

theorem affectedInHunk_top (acc : List Nat) (prev : Bool) (ls : List DiffLine) (h : newCount ls = 0) :
    affectedInHunk acc 0 prev ls = acc := by
  induction ls generalizing prev with
  | nil => rfl
  | cons l ls ih =>
    rw [newCount_cons] at h
    cases l with
    | remove t => simp only [affectedInHunk]; rw [if_neg (by omega)]; exact ih _ (by omega)
    | context t => simp [isNew] at h
    | add t => simp [isNew] at h

theorem found_foldl (hs : List Hunk) (acc : List Nat) (f : Nat) (hap : HunksApart f hs)
    (hsorted : acc.Pairwise (· < ·)) (hb : ∀ y ∈ acc, y < f) :
    (hs.foldl (fun acc h => affectedInHunk acc h.newStart false h.lines) acc).Pairwise (· < ·) ∧
    ∀ n, n ∈ hs.foldl (fun acc h => affectedInHunk acc h.newStart false h.lines) acc ↔ n ∈ acc ∨ ∃ h ∈ hs, FoundBy h n := by
  induction hs generalizing acc f with
  | nil => simp; exact hsorted
  | cons h hs ih =>
    obtain ⟨h1, h3⟩ := hap
    have key : (affectedInHunk acc h.newStart false h.lines).Pairwise (· < ·) ∧
        (∀ y ∈ affectedInHunk acc h.newStart false h.lines, y < firstLine h + newCount h.lines) ∧
        (∀ n, n ∈ affectedInHunk acc h.newStart false h.lines ↔ n ∈ acc ∨ FoundBy h n) := by
      have hf : f ≤ h.newStart := by unfold firstLine at h1; split at h1 <;> omega
      have hle : h.newStart ≤ firstLine h := by unfold firstLine; split <;> omega
      by_cases h0 : h.newStart = 0
      · have hz : newCount h.lines = 0 := by
          unfold firstLine at h1
          split at h1
          · assumption
          · omega
        have hnil : acc = [] := by
          cases acc with
          | nil => rfl
          | cons y ys => have := hb y (List.mem_cons_self ..); omega
        have e : affectedInHunk acc h.newStart false h.lines = acc := by rw [h0]; exact affectedInHunk_top _ _ _ hz
        rw [e, hnil]
        refine ⟨List.Pairwise.nil, by simp, fun n => ?_⟩
        simp only [List.not_mem_nil, false_or, false_iff]
        have hfl : firstLine h = 1 := by unfold firstLine; rw [if_pos hz, h0]
        rintro ⟨pre, l, post, hl, hcase⟩
        have hcount : newCount h.lines = newCount pre + newCount (l :: post) := by rw [hl, newCount_append]
        rw [newCount_cons] at hcount
        rcases hcase with ⟨⟨t, rfl⟩, _⟩ | ⟨_, _, h4, _⟩ | ⟨_, h4, _, h5⟩ | ⟨_, h4, _⟩
        · simp [isNew] at hcount; omega
        · exact h4 hz
        · omega
        · omega
      · obtain ⟨a, b, c⟩ := affectedInHunk_spec h.lines acc h.newStart false (by omega) hsorted
          (fun y hy => by have := hb y hy; omega)
        exact ⟨a, fun y hy => by have := b y hy; omega, fun n => by rw [c, foundBy_iff]⟩
    obtain ⟨a, b, c⟩ := key
    obtain ⟨d, e⟩ := ih (affectedInHunk acc h.newStart false h.lines) _ h3 a b
    refine ⟨d, fun n => ?_⟩
    simp only [List.foldl_cons]
    rw [e, c]
    simp only [List.mem_cons, exists_eq_or_imp, or_assoc]

/-- **C20** for diffs without context: in increasing order, the lines that are found are those that were added; those before a
deletion, except that of a hunk that only deletes the line one further up is taken; and those after a deletion that the hunk has. -/
theorem C20_found (p : Patch) (h : HunksApart 0 p.hunks) :
    (affectedLines p).Pairwise (· < ·) ∧ ∀ n, n ∈ affectedLines p ↔ ∃ h ∈ p.hunks, FoundBy h n := by
  have := found_foldl p.hunks [] 0 h List.Pairwise.nil (by simp)
  refine ⟨this.1, fun n => ?_⟩
  have := this.2 n
  simp only [List.not_mem_nil, false_or] at this
  exact this

/-- **C19** for diffs without context: what is kept are the mutants with one of these lines, in the same order and multiplicity. -/
theorem C19_found (patches : List Patch) (ms kept : List Mutant) (h : diffFilterPatches patches ms = some kept)
    (hap : ∀ p ∈ patches, HunksApart 0 p.hunks) (habs : ∀ m ∈ ms, m.sourceFile.path.head? ≠ some "/".toList) :
    ∃ sel : Mutant → Bool, (∀ m ∈ ms, sel m = true ↔ ∃ p ∈ patches, DescribesFile p m.sourceFile.path ∧
      ∃ n, m.span.start.line ≤ n ∧ n ≤ m.span.stop.line ∧ ∃ hk ∈ p.hunks, FoundBy hk n) ∧ kept = ms.filter sel := by
  obtain ⟨sel, h1, h2⟩ := kept_iff h
  refine ⟨sel, fun m hm => ?_, h1⟩
  rw [h2]
  constructor
  · rintro ⟨_, p, hp, hd, hs⟩
    obtain ⟨hsort, hmem⟩ := C20_found p (hap p hp)
    obtain ⟨n, h3, h4, h5⟩ := (probeLines_spec _ hsort _ _).1 hs
    exact ⟨p, hp, hd, n, h4, by omega, (hmem n).1 h3⟩
  · rintro ⟨p, hp, hd, n, h3, h4, h5⟩
    obtain ⟨hsort, hmem⟩ := C20_found p (hap p hp)
    exact ⟨fun e => habs m hm (by rw [e]; rfl), p, hp, hd, (probeLines_spec _ hsort _ _).2 ⟨n, (hmem n).2 h5, h3, by omega⟩⟩

/-- **C19** for diffs without context: no mutant with an added line is left out. -/
theorem C19_added_kept (patches : List Patch) (ms kept : List Mutant) (h : diffFilterPatches patches ms = some kept)
    (p : Patch) (hp : p ∈ patches) (hap : HunksApart 0 p.hunks) (hk : Hunk) (hhk : hk ∈ p.hunks)
    (pre : List DiffLine) (t : Text) (post : List DiffLine) (hl : hk.lines = pre ++ .add t :: post)
    (m : Mutant) (hm : m ∈ ms) (hd : DescribesFile p m.sourceFile.path) (habs : m.sourceFile.path.head? ≠ some "/".toList)
    (h1 : m.span.start.line ≤ firstLine hk + newCount pre) (h2 : firstLine hk + newCount pre ≤ m.span.stop.line) : m ∈ kept := by
  obtain ⟨sel, rfl, hsel⟩ := kept_iff h
  refine List.mem_filter.2 ⟨hm, (hsel m).2 ⟨fun e => habs (by rw [e]; rfl), p, hp, hd, ?_⟩⟩
  obtain ⟨hs, hmem⟩ := C20_found p hap
  exact (probeLines_spec _ hs _ _).2 ⟨_, (hmem _).2 ⟨hk, hhk, pre, _, post, hl, .inl ⟨⟨t, rfl⟩, rfl⟩⟩, h1, by omega⟩

/-- A diff without context: line 3 is replaced, line 7 is new, and after line 9 two lines were deleted. -/
def barePatch : Patch :=
  ⟨"b/src/lib.rs".toList,
   [⟨3, [.remove "x".toList, .add "y".toList]⟩, ⟨7, [.add "z".toList]⟩, ⟨9, [.remove "u".toList, .remove "v".toList]⟩]⟩

example : HunksApart 0 barePatch.hunks ∧ affectedLines barePatch = [2, 3, 7, 8] := by decide

/-- The mutant of line 1 is kept if its line is replaced. -/
example : diffFilterPatches [⟨"b/src/lib.rs".toList, [⟨1, [.remove "x".toList, .add "fn f() -> bool { a() }".toList]⟩]⟩] [sampleMutant] =
    some [sampleMutant] := by decide

end CM.Props
