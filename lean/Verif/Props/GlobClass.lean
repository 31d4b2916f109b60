import Verif.Props.GlobAlts
/-! C40: classes in globs. `[a-c_]` is as good as one glob for each of the characters. -/
namespace CM.Props
open CM Spec Glob

/-- How a range is written. -/
def rangeText (r : Char × Char) : Text := if r.1 = r.2 then [r.1] else [r.1, '-', r.2]

/-- A character is in one of the ranges. -/
def InRanges (rs : List (Char × Char)) (c : Char) : Prop := ∃ r ∈ rs, r.1.toNat ≤ c.toNat ∧ c.toNat ≤ r.2.toNat

/-- Ranges within ASCII, the right way round, and without `]` and `-` as ends. -/
def RangesOk (rs : List (Char × Char)) : Prop :=
  rs ≠ [] ∧ (∀ r ∈ rs, r.1.toNat ≤ r.2.toNat ∧ r.2.toNat < 128 ∧ r.1 ≠ ']' ∧ r.1 ≠ '-' ∧ r.2 ≠ ']' ∧ r.2 ≠ '-') ∧
    ∀ r, rs.head? = some r → r.1 ≠ '!' ∧ r.1 ≠ '^'

theorem parse_ranges (rs done : List (Char × Char)) (first : Bool) (hf : first = false ∨ rs ≠ [])
    (h : ∀ r ∈ rs, r.1.toNat ≤ r.2.toNat ∧ r.2.toNat < 128 ∧ r.1 ≠ ']' ∧ r.1 ≠ '-' ∧ r.2 ≠ ']' ∧ r.2 ≠ '-')
    (neg : Bool) (cur : List Part) (outer : List (List Part)) (prev : Option Char) (post : Text) :
    parseParts (.inClass neg done first false) cur outer prev (rs.flatMap rangeText ++ ']' :: post) =
      parseParts .plain (.one (.oneOf neg (done.reverse ++ rs)) :: cur) outer (some ']') post := by
  induction rs generalizing done first prev with
  | nil =>
    rcases hf with rfl | hf
    · rw [List.flatMap_nil, List.nil_append, List.append_nil, parseParts]
      simp
    · exact absurd rfl hf
  | cons r rs ih =>
    obtain ⟨a, b⟩ := r
    obtain ⟨h1, _, h2, h3, h4, h5⟩ := h (a, b) (by simp)
    have ih := ih ((a, b) :: done) false (Or.inl rfl) fun x hx => h x (by simp [hx])
    rw [List.reverse_cons, List.append_assoc, List.singleton_append] at ih
    rw [List.flatMap_cons, List.append_assoc, rangeText]
    simp only at h1 h2 h3 h4 h5 ⊢
    by_cases e : a = b
    · subst e
      rw [if_pos rfl, List.singleton_append, parseParts]
      simp only [h2, h3, false_and, if_false]
      exact ih _
    · have hab : ¬ b < a := by
        intro hlt
        have : b.toNat < a.toNat := hlt
        omega
      rw [if_neg e]
      show parseParts _ _ _ _ (a :: '-' :: b :: (rs.flatMap rangeText ++ ']' :: post)) = _
      rw [parseParts]
      simp only [h2, h3, false_and, if_false]
      rw [parseParts]
      simp only [show ¬ ('-' = ']') by decide, false_and, if_false, and_self, if_true]
      rw [parseParts]
      simp only [h4, h5, false_and, if_false, if_true, extendLast, hab]
      exact ih _

/-- The characters of a class, all of them in ASCII. -/
def charsIn (rs : List (Char × Char)) : List Char :=
  ((List.range 128).map Char.ofNat).filter fun c => rs.any fun r => r.1.toNat ≤ c.toNat && c.toNat ≤ r.2.toNat

theorem any_ranges (rs : List (Char × Char)) (c : Char) :
    (rs.any fun r => r.1.toNat ≤ c.toNat && c.toNat ≤ r.2.toNat) = true ↔ InRanges rs c := by
  simp [InRanges]

theorem mem_charsIn {rs : List (Char × Char)} (h : RangesOk rs) (c : Char) : c ∈ charsIn rs ↔ InRanges rs c := by
  unfold charsIn
  rw [List.mem_filter, any_ranges]
  constructor
  · exact fun h => h.2
  · intro hc
    refine ⟨?_, hc⟩
    obtain ⟨r, hr, _, h2⟩ := hc
    have := (h.2.1 r hr).2.1
    exact List.mem_map.2 ⟨c.toNat, List.mem_range.2 (by omega), Char.ofNat_toNat c⟩

theorem inRanges_ascii {rs : List (Char × Char)} (h : RangesOk rs) {c : Char} (hc : InRanges rs c) : c.toNat < 128 := by
  obtain ⟨r, hr, _, h2⟩ := hc
  have := (h.2.1 r hr).2.1
  omega

theorem match_class (T Q : List Token) (rs : List (Char × Char)) (h : RangesOk rs) (s : Text) :
    matchParts (up T ++ .one (.oneOf false rs) :: up Q) s = true ↔
      ∃ c ∈ charsIn rs, matchTokens (T ++ .literal c :: Q) s = true := by
  have e : ∀ x y : List Token, up (x ++ y) = up x ++ up y := fun x y => by unfold up; rw [List.map_append]
  have base : ∀ s, matchParts (.one (.oneOf false rs) :: up Q) s = true ↔
      ∃ c ∈ charsIn rs, matchParts (up (.literal c :: Q)) s = true := by
    intro s
    cases s with
    | nil => simp [up, matchParts, matchOne]
    | cons d ds =>
      show matchOne (matchParts (up Q)) (.oneOf false rs) (d :: ds) = true ↔
        ∃ c ∈ charsIn rs, matchOne (matchParts (up Q)) (.plain (.literal c)) (d :: ds) = true
      simp only [matchOne, Bool.bne_false, Bool.and_eq_true, any_ranges, beq_iff_eq, mem_charsIn h]
      constructor
      · rintro ⟨h1, h2⟩; exact ⟨d, h1, rfl, h2⟩
      · rintro ⟨c, h1, rfl, h2⟩; exact ⟨h1, h2⟩
  have : ∀ s, matchParts (up T ++ .one (.oneOf false rs) :: up Q) s = true ↔
      ∃ c ∈ charsIn rs, matchParts (up T ++ up (.literal c :: Q)) s = true := by
    induction T with
    | nil => exact base
    | cons t T ih => exact fun s => matchOne_additive (charsIn rs) _ _ ih (.plain t) s
  rw [this]
  simp only [← e, match_up]

theorem class_stands (rs : List (Char × Char)) (h : RangesOk rs) :
    Stands ('[' :: (rs.flatMap rangeText ++ [']'])) ((charsIn rs).map fun c => ['\\', c]) := by
  intro pre post h1 h2 h3 h4
  obtain ⟨toks, p, hrun⟩ := parse_run [] none pre h1 h2
  obtain ⟨Q, hQ1, hQ2⟩ := parse_post post h3 h4
  have hp : parseParts .plain [] [] none (pre ++ (('[' :: (rs.flatMap rangeText ++ [']'])) ++ post)) =
      some (up toks.reverse ++ .one (.oneOf false rs) :: up Q) := by
    have := (hrun (('[' :: (rs.flatMap rangeText ++ [']'])) ++ post)).2
    rw [show up ([] : List Token) = [] from rfl] at this
    rw [this]
    have e : ('[' :: (rs.flatMap rangeText ++ [']'])) ++ post = '[' :: (rs.flatMap rangeText ++ ']' :: post) := by simp
    rw [e]
    have hpr := parse_ranges rs [] true (Or.inr h.1) h.2.1 false (up toks) [] (some '[') post
    obtain ⟨r, rs', rfl⟩ := List.exists_cons_of_ne_nil h.1
    obtain ⟨n1, n2⟩ := h.2.2 r rfl
    have hx : ∃ y, (r :: rs').flatMap rangeText ++ ']' :: post = r.1 :: y := by
      rw [List.flatMap_cons, rangeText]
      split
      · exact ⟨_, rfl⟩
      · exact ⟨_, rfl⟩
    obtain ⟨y, hy⟩ := hx
    rw [hy] at hpr ⊢
    conv => lhs; unfold parseParts
    simp only [show ¬ ('[' = '*') by decide, show ¬ ('[' = '?') by decide, show ¬ ('[' = '\\') by decide, if_false, if_true, n1, n2,
      or_self]
    rw [hpr, hQ2]
    simp [up]
  have hk : ∀ c, parseFrom [] none (pre ++ (['\\', c] ++ post)) = some (toks.reverse ++ .literal c :: Q) := by
    intro c
    rw [(hrun _).1]
    show parseFrom toks p ('\\' :: c :: post) = _
    conv => lhs; unfold parseFrom
    simp [hQ1]
  refine ⟨_, hp, fun s => ?_⟩
  unfold isMatch
  rw [if_neg, match_class _ _ _ h]
  · constructor
    · rintro ⟨c, hc, hm⟩
      refine ⟨_, List.mem_map.2 ⟨c, hc, rfl⟩, _, hk c, ?_⟩
      unfold plainMatch
      rw [if_neg]
      · exact hm
      · intro e
        have : Token.literal c ∈ [Token.recursivePrefix] := by rw [← e]; simp
        simp at this
    · rintro ⟨a, ha, k, hk1, hk2⟩
      obtain ⟨c, hc, rfl⟩ := List.mem_map.1 ha
      rw [hk c] at hk1
      cases hk1
      refine ⟨c, hc, ?_⟩
      unfold plainMatch at hk2
      rw [if_neg] at hk2
      · exact hk2
      · intro e
        have : Token.literal c ∈ [Token.recursivePrefix] := by rw [← e]; simp
        simp at this
  · intro e
    have : Part.one (.oneOf false rs) ∈ [Part.one (.plain .recursivePrefix)] := by rw [← e]; simp
    simp at this

/-- **C40.** A glob with a class matches a path exactly if one of the globs does that have one of the characters of the
class in its place. -/
theorem C40_class (pre post : Text) (rs : List (Char × Char)) (h : RangesOk rs)
    (h1 : segOk pre = true) (h2 : ∀ x, pre ≠ x ++ ['*']) (h3 : segOk post = true) (h4 : post.head? ≠ some '*')
    (hs : '/' ∈ pre ++ post ∨ ¬ InRanges rs '/') (hok : ∀ c, InRanges rs c → GlobOk (pre ++ ('\\' :: c :: post))) :
    ∃ sets, buildGlobSet [pre ++ "[".toList ++ rs.flatMap rangeText ++ "]".toList ++ post] = some (some sets) ∧
      ∀ p, PathOk p → (setMatches sets (joinWith ['/'] p) = true ↔ ∃ c, InRanges rs c ∧ GlobMatches (pre ++ ('\\' :: c :: post)) p) := by
  have hr : ∀ c ∈ rs.flatMap rangeText, c = '-' ∨ InRanges rs c := by
    intro c hc
    obtain ⟨r, hr, hc⟩ := List.mem_flatMap.1 hc
    have h5 := h.2.1 r hr
    unfold rangeText at hc
    split at hc
    · rw [List.mem_singleton] at hc
      subst hc
      exact Or.inr ⟨r, hr, by omega, by omega⟩
    · simp only [List.mem_cons, List.not_mem_nil, or_false] at hc
      rcases hc with rfl | rfl | rfl
      · exact Or.inr ⟨r, hr, by omega, by omega⟩
      · exact Or.inl rfl
      · exact Or.inr ⟨r, hr, by omega, by omega⟩
  have ht : ∀ c ∈ '[' :: (rs.flatMap rangeText ++ [']']), c.toNat < 128 := by
    intro c hc
    simp only [List.mem_cons, List.mem_append, List.not_mem_nil, or_false] at hc
    rcases hc with rfl | hc | rfl
    · decide
    · rcases hr c hc with rfl | hc
      · decide
      · exact inRanges_ascii h hc
    · decide
  have ha : ((charsIn rs).map fun c => ['\\', c]).map utf8 = (charsIn rs).map fun c => ['\\', c] := by
    rw [List.map_map]
    apply List.map_congr_left
    intro c hc
    refine utf8_ascii ?_
    intro x hx
    simp only [List.mem_cons, List.not_mem_nil, or_false] at hx
    rcases hx with rfl | rfl
    · decide
    · exact inRanges_ascii h ((mem_charsIn h _).1 hc)
  obtain ⟨sets, g1, g2⟩ := glob_mid pre post ('[' :: (rs.flatMap rangeText ++ [']'])) ((charsIn rs).map fun c => ['\\', c])
    (by rw [utf8_ascii ht, ha]; exact class_stands rs h) h1 h2 h3 h4
    (by
      refine slash_same (hs.imp id fun hn => ⟨fun hc => ?_, fun a haa => ?_⟩)
      · simp only [List.mem_cons, List.mem_append, List.not_mem_nil, or_false] at hc
        rcases hc with hc | hc | hc
        · exact absurd hc (by decide)
        · rcases hr _ hc with hc | hc
          · exact absurd hc (by decide)
          · exact hn hc
        · exact absurd hc (by decide)
      · obtain ⟨c, hc, rfl⟩ := List.mem_map.1 haa
        intro hx
        simp only [List.mem_cons, List.not_mem_nil, or_false] at hx
        rcases hx with hx | hx
        · exact absurd hx (by decide)
        · subst hx; exact hn ((mem_charsIn h _).1 hc))
    (by
      intro a haa
      obtain ⟨c, hc, rfl⟩ := List.mem_map.1 haa
      exact hok c ((mem_charsIn h _).1 hc))
  refine ⟨sets, ?_, fun p hp => ?_⟩
  · rw [← g1]
    simp
  · rw [g2 p hp]
    constructor
    · rintro ⟨a, haa, hm⟩
      obtain ⟨c, hc, rfl⟩ := List.mem_map.1 haa
      exact ⟨c, (mem_charsIn h _).1 hc, hm⟩
    · rintro ⟨c, hc, hm⟩
      exact ⟨_, List.mem_map.2 ⟨c, (mem_charsIn h _).2 hc, rfl⟩, hm⟩

/-- The hypotheses are met by `src/[a-c_].rs`. -/
example : ∃ sets, buildGlobSet ["src/[a-c_].rs".toList] = some (some sets) ∧
    ∀ p, PathOk p → (setMatches sets (joinWith ['/'] p) = true ↔
      ∃ c, InRanges [('a', 'c'), ('_', '_')] c ∧ GlobMatches ("src/".toList ++ ('\\' :: c :: ".rs".toList)) p) := by
  have hr : RangesOk [('a', 'c'), ('_', '_')] := by
    refine ⟨by decide, by decide, ?_⟩
    intro r hr
    cases hr
    decide
  refine C40_class "src/".toList ".rs".toList [('a', 'c'), ('_', '_')] hr (by decide) ?_ (by decide) (by decide) (Or.inl (by decide)) ?_
  · intro x e
    exact absurd (List.append_inj' (show ("src".toList ++ ['/'] : Text) = x ++ ['*'] from e) rfl).2 (by decide)
  · intro c hc
    have : c ∈ charsIn [('a', 'c'), ('_', '_')] := (mem_charsIn hr c).2 hc
    rw [show charsIn [('a', 'c'), ('_', '_')] = ['_', 'a', 'b', 'c'] by decide +kernel] at this
    simp only [List.mem_cons, List.not_mem_nil, or_false] at this
    rcases this with rfl | rfl | rfl | rfl <;> (unfold GlobOk; decide +kernel)

end CM.Props
