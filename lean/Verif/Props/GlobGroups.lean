import Verif.Props.GlobClass
/-! C40: any number of groups of alternatives and classes in globs. -/
namespace CM.Props
open CM Spec Glob

/-- The tokens of a glob without groups and classes. -/
def plainTokens (x : Text) : List Token := (parseFrom [] none x).getD []

/-- The parts of a glob. -/
def partsOf (x : Text) : List Part := (parseParts .plain [] [] none x).getD []

/-- What is before in a glob does not matter for `post`, and it is as good as one of the others. -/
def Tail (post : Text) (ys : List Text) : Prop :=
  (∀ base prev, parseParts .plain base [] prev post = some (base.reverse ++ partsOf post)) ∧
  (∀ y ∈ ys, ∀ toks prev, parseFrom toks prev y = some (toks.reverse ++ plainTokens y)) ∧
  ∀ s, matchParts (partsOf post) s = true ↔ ∃ y ∈ ys, matchParts (up (plainTokens y)) s = true

/-- There is something in it other than `**` at the start. -/
def Solid (post : Text) (ys : List Text) : Prop :=
  (∃ x ∈ partsOf post, x ≠ .one (.plain .recursivePrefix)) ∧ ∀ y ∈ ys, ∃ t ∈ plainTokens y, t ≠ .recursivePrefix

theorem partsOf_of {post : Text} {P : List Part}
    (h : ∀ base prev, parseParts .plain base [] prev post = some (base.reverse ++ P)) : partsOf post = P := by
  unfold partsOf; rw [h]; rfl

theorem plainTokens_of {y : Text} {Q : List Token}
    (h : ∀ toks prev, parseFrom toks prev y = some (toks.reverse ++ Q)) : plainTokens y = Q := by
  unfold plainTokens; rw [h]; rfl

theorem up_append (x y : List Token) : up (x ++ y) = up x ++ up y := by unfold up; rw [List.map_append]

theorem up_additive (ys : List Text) (P : List Part) (h : ∀ s, matchParts P s = true ↔ ∃ y ∈ ys, matchParts (up (plainTokens y)) s = true)
    (T : List Token) : ∀ s, matchParts (up T ++ P) s = true ↔ ∃ y ∈ ys, matchParts (up T ++ up (plainTokens y)) s = true := by
  induction T with
  | nil => exact h
  | cons t T ih => exact fun s => matchOne_additive ys _ _ ih (.plain t) s

theorem tail_plain (post : Text) (h : segOk post = true) (hh : post.head? ≠ some '*') : Tail post [post] := by
  obtain ⟨Q, h1, h2⟩ := parse_post post h hh
  have e1 := partsOf_of h2
  have e2 := plainTokens_of h1
  refine ⟨fun b p => by rw [e1]; exact h2 b p, fun y hy => ?_, fun s => ?_⟩
  · rw [List.mem_singleton] at hy
    subst hy
    rw [e2]; exact h1
  · simp [e1, e2]

/-- A group or class that is as good as one of the texts. -/
def MidOk (mid : Text) (as : List Text) : Prop :=
  ∃ (p : Part) (z : Char) (f : Text → List Token),
    (∀ base prev rest, parseParts .plain base [] prev (mid ++ rest) = parseParts .plain (p :: base) [] (some z) rest) ∧
    (∀ a ∈ as, ∀ toks prev rest, rest.head? ≠ some '*' →
      ∃ prev', parseFrom toks prev (a ++ rest) = parseFrom ((f a).reverse ++ toks) prev' rest) ∧
    (∀ P s, matchParts (p :: P) s = true ↔ ∃ a ∈ as, matchParts (up (f a) ++ P) s = true) ∧
    (∀ a ∈ as, ∃ t ∈ f a, t ≠ .recursivePrefix) ∧ p ≠ .one (.plain .recursivePrefix)

theorem tail_mid (mid post : Text) (as ys : List Text) (hm : MidOk mid as) (ht : Tail post ys) (hy : ∀ y ∈ ys, y.head? ≠ some '*') :
    Tail (mid ++ post) (as.flatMap fun a => ys.map fun y => a ++ y) ∧
    Solid (mid ++ post) (as.flatMap fun a => ys.map fun y => a ++ y) := by
  obtain ⟨p, z, f, h1, h2, h3, h4, h5⟩ := hm
  obtain ⟨t1, t2, t3⟩ := ht
  have a1 : ∀ base prev, parseParts .plain base [] prev (mid ++ post) = some (base.reverse ++ (p :: partsOf post)) := by
    intro base prev
    rw [h1, t1]; simp
  have a2 : ∀ a ∈ as, ∀ y ∈ ys, ∀ toks prev, parseFrom toks prev (a ++ y) = some (toks.reverse ++ (f a ++ plainTokens y)) := by
    intro a ha y hyy toks prev
    obtain ⟨prev', h⟩ := h2 a ha toks prev y (hy y hyy)
    rw [h, t2 y hyy]; simp
  have e1 := partsOf_of a1
  have e2 : ∀ a ∈ as, ∀ y ∈ ys, plainTokens (a ++ y) = f a ++ plainTokens y := fun a ha y hyy => plainTokens_of (a2 a ha y hyy)
  refine ⟨⟨fun b q => by rw [e1]; exact a1 b q, fun x hx => ?_, fun s => ?_⟩, ⟨p, by rw [e1]; simp, h5⟩, fun x hx => ?_⟩
  · obtain ⟨a, ha, hx⟩ := List.mem_flatMap.1 hx
    obtain ⟨y, hyy, rfl⟩ := List.mem_map.1 hx
    rw [e2 a ha y hyy]
    exact a2 a ha y hyy
  · rw [e1, h3]
    constructor
    · rintro ⟨a, ha, hs⟩
      obtain ⟨y, hyy, hs⟩ := (up_additive ys _ t3 (f a) s).1 hs
      exact ⟨a ++ y, List.mem_flatMap.2 ⟨a, ha, List.mem_map.2 ⟨y, hyy, rfl⟩⟩, by rw [e2 a ha y hyy, up_append]; exact hs⟩
    · rintro ⟨x, hx, hs⟩
      obtain ⟨a, ha, hx⟩ := List.mem_flatMap.1 hx
      obtain ⟨y, hyy, rfl⟩ := List.mem_map.1 hx
      rw [e2 a ha y hyy, up_append] at hs
      exact ⟨a, ha, (up_additive ys _ t3 (f a) s).2 ⟨y, hyy, hs⟩⟩
  · obtain ⟨a, ha, hx⟩ := List.mem_flatMap.1 hx
    obtain ⟨y, hyy, rfl⟩ := List.mem_map.1 hx
    obtain ⟨t, ht, hne⟩ := h4 a ha
    exact ⟨t, by rw [e2 a ha y hyy]; exact List.mem_append_left _ ht, hne⟩

/-- As `parse_run`, whatever is below on the stack. -/
theorem run_frame (stk : List Token) (prev : Option Char) (pre : Text) (hs : stk ≠ []) (h : segOk pre = true) (hl : ∀ x, pre ≠ x ++ ['*']) :
    ∃ stk' prev', ∀ toks base rest, parseFrom (stk ++ toks) prev (pre ++ rest) = parseFrom (stk' ++ toks) prev' rest ∧
      parseParts .plain (up stk ++ base) [] prev (pre ++ rest) = parseParts .plain (up stk' ++ base) [] prev' rest := by
  induction stk, prev, pre using parseFrom.induct
  case case1 => exact ⟨_, _, fun _ _ _ => ⟨rfl, rfl⟩⟩
  case case2 => exact absurd rfl (hl [])
  case case3 => exact absurd rfl hs
  case case4 => exact absurd rfl hs
  case case5 => exact absurd rfl hs
  case case6 => exact absurd rfl (hl ['*'])
  case case7 => exact absurd rfl (hl ['*'])
  case case8 => exact absurd rfl (hl ['*'])
  case case16 => simp_all [segOk_backslash]
  case case18 => simp_all [segOk_cons]; try omega
  all_goals
    rename_i ih
    have ih := ih (by simp) (by simp_all [segOk_escape, segOk_cons])
      (by first
          | exact notEnd hl
          | exact notEnd (notEnd hl)
          | exact notEnd (notEnd (notEnd hl)))
    obtain ⟨s', p', ih⟩ := ih
    refine ⟨s', p', fun toks base rest => ⟨?_, ?_⟩⟩
    · rw [← (ih toks base rest).1]
      conv => lhs; unfold parseFrom
      simp_all
    · rw [← (ih toks base rest).2]
      conv => lhs; unfold parseParts
      simp_all [up, lastStar_up]

theorem seg_run (seg : Text) (hne : seg ≠ []) (h : segOk seg = true) (hh : seg.head? ≠ some '*') (hl : ∀ x, seg ≠ x ++ ['*']) :
    ∃ T prev', ∀ toks base prev rest, parseFrom toks prev (seg ++ rest) = parseFrom (T ++ toks) prev' rest ∧
      parseParts .plain base [] prev (seg ++ rest) = parseParts .plain (up T ++ base) [] prev' rest := by
  have fin : ∀ (t : Token) (c : Char) (cs : Text), segOk cs = true → (∀ x, cs ≠ x ++ ['*']) →
      (∀ toks prev rest, parseFrom toks prev (seg ++ rest) = parseFrom (t :: toks) (some c) (cs ++ rest)) →
      (∀ base prev rest, parseParts .plain base [] prev (seg ++ rest) = parseParts .plain (.one (.plain t) :: base) [] (some c) (cs ++ rest)) →
      ∃ T prev', ∀ toks base prev rest, parseFrom toks prev (seg ++ rest) = parseFrom (T ++ toks) prev' rest ∧
        parseParts .plain base [] prev (seg ++ rest) = parseParts .plain (up T ++ base) [] prev' rest := by
    intro t c cs h1 h2 h3 h4
    obtain ⟨T, p, hr⟩ := run_frame [t] (some c) cs (by simp) h1 h2
    exact ⟨T, p, fun toks base prev rest => ⟨(h3 toks prev rest).trans (hr toks base rest).1,
      (h4 base prev rest).trans (hr toks base rest).2⟩⟩
  cases seg with
  | nil => exact absurd rfl hne
  | cons c cs =>
    have h1 : c ≠ '*' := fun e => hh (by rw [e]; rfl)
    by_cases h2 : c = '?'
    · subst h2
      refine fin .any '?' cs (by simpa [segOk_cons] using h) (notEnd hl) (fun toks prev rest => ?_) fun base prev rest => ?_
      · rw [List.cons_append]
        conv => lhs; unfold parseFrom
        simp
      · rw [List.cons_append]
        conv => lhs; unfold parseParts
        simp
    · by_cases h3 : c = '\\'
      · subst h3
        cases cs with
        | nil => simp [segOk_backslash] at h
        | cons d ds =>
          rw [segOk_escape] at h
          refine fin (.literal d) d ds h (notEnd (notEnd hl)) (fun toks prev rest => ?_) fun base prev rest => ?_
          · rw [List.cons_append, List.cons_append]
            conv => lhs; unfold parseFrom
            simp
          · rw [List.cons_append, List.cons_append]
            conv => lhs; unfold parseParts
            simp
      · rw [segOk_cons h3] at h
        simp only [Bool.and_eq_true, bne_iff_ne] at h
        refine fin (.literal c) c cs h.2 (notEnd hl) (fun toks prev rest => ?_) fun base prev rest => ?_
        · rw [List.cons_append]
          conv => lhs; unfold parseFrom
          simp [h1, h2, h3, h.1.1.1, h.1.1.2, h.1.2]
        · rw [List.cons_append]
          conv => lhs; unfold parseParts
          simp [h1, h2, h3, h.1.1.1, h.1.1.2, h.1.2]

theorem tail_seg (seg post : Text) (ys : List Text) (hne : seg ≠ []) (h : segOk seg = true) (hh : seg.head? ≠ some '*')
    (hl : ∀ x, seg ≠ x ++ ['*']) (ht : Tail post ys) :
    Tail (seg ++ post) (ys.map fun y => seg ++ y) ∧ (Solid post ys → Solid (seg ++ post) (ys.map fun y => seg ++ y)) := by
  obtain ⟨T, p, hr⟩ := seg_run seg hne h hh hl
  obtain ⟨t1, t2, t3⟩ := ht
  have a1 : ∀ base prev, parseParts .plain base [] prev (seg ++ post) = some (base.reverse ++ (up T.reverse ++ partsOf post)) := by
    intro base prev
    rw [(hr [] base prev post).2, t1]
    simp [up]
  have a2 : ∀ y ∈ ys, ∀ toks prev, parseFrom toks prev (seg ++ y) = some (toks.reverse ++ (T.reverse ++ plainTokens y)) := by
    intro y hy toks prev
    rw [(hr toks [] prev y).1, t2 y hy]; simp
  have e1 := partsOf_of a1
  have e2 : ∀ y ∈ ys, plainTokens (seg ++ y) = T.reverse ++ plainTokens y := fun y hy => plainTokens_of (a2 y hy)
  refine ⟨⟨fun b q => by rw [e1]; exact a1 b q, fun x hx => ?_, fun s => ?_⟩, fun ⟨⟨x, hx, hn⟩, hs⟩ => ⟨⟨x, by rw [e1]; simp [hx], hn⟩, fun x hx => ?_⟩⟩
  · obtain ⟨y, hy, rfl⟩ := List.mem_map.1 hx
    rw [e2 y hy]; exact a2 y hy
  · rw [e1, up_additive ys _ t3 T.reverse s]
    constructor
    · rintro ⟨y, hy, hs⟩
      exact ⟨_, List.mem_map.2 ⟨y, hy, rfl⟩, by rw [e2 y hy, up_append]; exact hs⟩
    · rintro ⟨x, hx, hs⟩
      obtain ⟨y, hy, rfl⟩ := List.mem_map.1 hx
      rw [e2 y hy, up_append] at hs
      exact ⟨y, hy, hs⟩
  · obtain ⟨y, hy, rfl⟩ := List.mem_map.1 hx
    obtain ⟨t, ht, hn⟩ := hs y hy
    exact ⟨t, by rw [e2 y hy]; exact List.mem_append_right _ ht, hn⟩

theorem stands_of_tail (mid : Text) (as : List Text)
    (h : ∀ post, segOk post = true → post.head? ≠ some '*' →
      Tail (mid ++ post) (as.map fun a => a ++ post) ∧ Solid (mid ++ post) (as.map fun a => a ++ post)) : Stands mid as := by
  intro pre post h1 h2 h3 h4
  obtain ⟨⟨t1, t2, t3⟩, ⟨x, hx, hn⟩, hs⟩ := h post h3 h4
  obtain ⟨toks, p, hrun⟩ := parse_run [] none pre h1 h2
  have hp : parseParts .plain [] [] none (pre ++ (mid ++ post)) = some (up toks.reverse ++ partsOf (mid ++ post)) := by
    have := (hrun (mid ++ post)).2
    rw [show up ([] : List Token) = [] from rfl] at this
    rw [this, t1]
    simp [up]
  have hk : ∀ a ∈ as, parseFrom [] none (pre ++ (a ++ post)) = some (toks.reverse ++ plainTokens (a ++ post)) := by
    intro a ha
    rw [(hrun _).1, t2 _ (List.mem_map.2 ⟨a, ha, rfl⟩)]
  have hm : ∀ a ∈ as, ∀ s, plainMatch (toks.reverse ++ plainTokens (a ++ post)) s =
      matchParts (up toks.reverse ++ up (plainTokens (a ++ post))) s := by
    intro a ha s
    unfold plainMatch
    rw [if_neg, ← up_append, match_up]
    intro e
    obtain ⟨t, ht, hne⟩ := hs _ (List.mem_map.2 ⟨a, ha, rfl⟩)
    have : t ∈ [Token.recursivePrefix] := by rw [← e]; exact List.mem_append_right _ ht
    exact hne (List.mem_singleton.1 this)
  refine ⟨_, hp, fun s => ?_⟩
  unfold isMatch
  rw [if_neg, up_additive _ _ t3]
  · constructor
    · rintro ⟨y, hy, hs⟩
      obtain ⟨a, ha, rfl⟩ := List.mem_map.1 hy
      exact ⟨a, ha, _, hk a ha, by rw [hm a ha]; exact hs⟩
    · rintro ⟨a, ha, k, hk1, hk2⟩
      rw [hk a ha] at hk1
      cases hk1
      exact ⟨_, List.mem_map.2 ⟨a, ha, rfl⟩, by rw [← hm a ha]; exact hk2⟩
  · intro e
    have : x ∈ [Part.one (.plain .recursivePrefix)] := by rw [← e]; exact List.mem_append_right _ hx
    exact hn (List.mem_singleton.1 this)

theorem alts_mid (as : List Text) (hne : as ≠ []) (ha : ∀ a ∈ as, a ≠ [] ∧ AltOk a) : MidOk ('{' :: (joinWith [','] as ++ ['}'])) as := by
  refine ⟨.alts (as.reverse.map itemsOf), '}', fun a => a.map tokenOf, fun base prev rest => ?_, fun a haa toks prev rest hr => ?_,
    fun P s => ?_, fun a haa => ?_, by simp⟩
  · have e : '{' :: (joinWith [','] as ++ ['}']) ++ rest = '{' :: (joinWith [','] as ++ '}' :: rest) := by simp
    rw [e]
    conv => lhs; unfold parseParts
    simp only [show ¬ ('{' = '*') by decide, show ¬ ('{' = '?') by decide, show ¬ ('{' = '\\') by decide, show ¬ ('{' = '[') by decide,
      if_false, if_true]
    have := parse_joined as hne (fun a h => (ha a h).2) [] base (some '{') rest
    rw [List.nil_append] at this
    rw [this]
    simp
  · obtain ⟨p, h1, _⟩ := parse_alt a rest (ha a haa).2 hr prev
    exact ⟨p, h1 toks⟩
  · have hz : ((as.reverse.map itemsOf).all (·.isEmpty)) = false := by
      obtain ⟨a, haa⟩ := List.exists_mem_of_ne_nil as hne
      rw [List.all_eq_false]
      refine ⟨itemsOf a, List.mem_map.2 ⟨a, List.mem_reverse.2 haa, rfl⟩, ?_⟩
      have := (ha a haa).1
      cases a with
      | nil => exact absurd rfl this
      | cons _ _ => simp [itemsOf]
    rw [matchParts, hz, if_neg (by simp)]
    simp only [List.any_eq_true, List.mem_map, List.mem_reverse, Bool.and_eq_true, Bool.not_eq_true']
    constructor
    · rintro ⟨_, ⟨a, haa, rfl⟩, _, h⟩
      rw [itemsOf, matchSeq_plain] at h
      exact ⟨a, haa, h⟩
    · rintro ⟨a, haa, h⟩
      refine ⟨_, ⟨a, haa, rfl⟩, ?_, ?_⟩
      · have := (ha a haa).1
        cases a with
        | nil => exact absurd rfl this
        | cons _ _ => simp [itemsOf]
      · rw [itemsOf, matchSeq_plain]; exact h
  · have := (ha a haa).1
    cases a with
    | nil => exact absurd rfl this
    | cons c a =>
      refine ⟨tokenOf c, by simp, ?_⟩
      unfold tokenOf
      split
      · simp
      · split <;> simp

theorem class_mid (rs : List (Char × Char)) (h : RangesOk rs) :
    MidOk ('[' :: (rs.flatMap rangeText ++ [']'])) ((charsIn rs).map fun c => ['\\', c]) := by
  refine ⟨.one (.oneOf false rs), ']', fun a => [.literal (a.getLast?.getD ' ')], fun base prev rest => ?_,
    fun a haa toks prev rest _ => ?_, fun P s => ?_, fun a haa => ⟨_, List.mem_singleton.2 rfl, by simp⟩, by simp⟩
  · have e : ('[' :: (rs.flatMap rangeText ++ [']'])) ++ rest = '[' :: (rs.flatMap rangeText ++ ']' :: rest) := by simp
    rw [e]
    have hpr := parse_ranges rs [] true (Or.inr h.1) h.2.1 false base [] (some '[') rest
    obtain ⟨r, rs', rfl⟩ := List.exists_cons_of_ne_nil h.1
    obtain ⟨n1, n2⟩ := h.2.2 r rfl
    have hx : ∃ y, (r :: rs').flatMap rangeText ++ ']' :: rest = r.1 :: y := by
      rw [List.flatMap_cons, rangeText]
      split
      · exact ⟨_, rfl⟩
      · exact ⟨_, rfl⟩
    obtain ⟨y, hy⟩ := hx
    rw [hy] at hpr ⊢
    conv => lhs; unfold parseParts
    simp only [show ¬ ('[' = '*') by decide, show ¬ ('[' = '?') by decide, show ¬ ('[' = '\\') by decide, if_false, if_true, n1, n2,
      or_self]
    rw [hpr]
    simp
  · obtain ⟨c, hc, rfl⟩ := List.mem_map.1 haa
    refine ⟨some c, ?_⟩
    show parseFrom toks prev ('\\' :: c :: rest) = _
    conv => lhs; unfold parseFrom
    simp
  · cases s with
    | nil =>
      show matchOne (matchParts P) (.oneOf false rs) [] = true ↔ _
      simp [up, matchParts, matchOne]
    | cons d ds =>
      show matchOne (matchParts P) (.oneOf false rs) (d :: ds) = true ↔ _
      simp only [matchOne, Bool.bne_false, Bool.and_eq_true, any_ranges]
      constructor
      · rintro ⟨h1, h2⟩
        refine ⟨_, List.mem_map.2 ⟨d, (mem_charsIn h d).2 h1, rfl⟩, ?_⟩
        show matchOne (matchParts P) (.plain (.literal d)) (d :: ds) = true
        simp [matchOne, h2]
      · rintro ⟨a, ha, hm⟩
        obtain ⟨c, hc, rfl⟩ := List.mem_map.1 ha
        have hm : matchOne (matchParts P) (.plain (.literal c)) (d :: ds) = true := hm
        simp only [matchOne, Bool.and_eq_true, beq_iff_eq] at hm
        obtain ⟨rfl, h2⟩ := hm
        exact ⟨(mem_charsIn h _).1 hc, h2⟩

/-- A group of alternatives or a class. -/
inductive Piece
  | alternatives (as : List Text)
  | ranges (rs : List (Char × Char))

/-- How it is written. -/
def Piece.text : Piece → Text
  | .alternatives as => "{".toList ++ (joinWith ",".toList as ++ "}".toList)
  | .ranges rs => "[".toList ++ (rs.flatMap rangeText ++ "]".toList)

/-- What may stand in its place. -/
def Piece.choices : Piece → List Text
  | .alternatives as => as
  | .ranges rs => (charsIn rs).map fun c => ['\\', c]

def Piece.Ok : Piece → Prop
  | .alternatives as => as ≠ [] ∧ ∀ a ∈ as, a ≠ [] ∧ AltOk a
  | .ranges rs => RangesOk rs

/-- Groups and classes, each with the text before it. -/
def groupsText (gs : List (Text × Piece)) : Text := gs.flatMap fun g => g.1 ++ g.2.text

/-- The texts with one choice in the place of each. -/
def groupsChoices : List (Text × Piece) → List Text
  | [] => [[]]
  | g :: gs => (g.2.choices.flatMap fun a => (groupsChoices gs).map fun y => a ++ y).map fun y => g.1 ++ y

/-- Text between is as before, has no stars at its ends, and no choice begins with a star right after a group. -/
def GroupsOk : List (Text × Piece) → Prop
  | [] => True
  | g :: gs => g.2.Ok ∧ (g.1 = [] ∨ (segOk g.1 = true ∧ g.1.head? ≠ some '*' ∧ ∀ x, g.1 ≠ x ++ ['*'])) ∧
      (∀ y ∈ groupsChoices gs, y.head? ≠ some '*') ∧ GroupsOk gs

def Piece.bytes : Piece → Piece
  | .alternatives as => .alternatives (as.map utf8)
  | .ranges rs => .ranges rs

def groupBytes (gs : List (Text × Piece)) : List (Text × Piece) := gs.map fun g => (utf8 g.1, g.2.bytes)

theorem piece_mid {m : Piece} (h : m.Ok) : MidOk m.text m.choices := by
  cases m with
  | alternatives as => exact alts_mid as h.1 h.2
  | ranges rs => exact class_mid rs h

theorem groups_tail (gs : List (Text × Piece)) (h : GroupsOk gs) (post : Text) (h3 : segOk post = true) (h4 : post.head? ≠ some '*') :
    Tail (groupsText gs ++ post) ((groupsChoices gs).map fun a => a ++ post) ∧
    (gs ≠ [] → Solid (groupsText gs ++ post) ((groupsChoices gs).map fun a => a ++ post)) := by
  induction gs with
  | nil => exact ⟨tail_plain post h3 h4, fun h => absurd rfl h⟩
  | cons g gs ih =>
    obtain ⟨hm, hseg, hy, hgs⟩ := h
    have hy' : ∀ y ∈ (groupsChoices gs).map fun a => a ++ post, y.head? ≠ some '*' := by
      intro y hyy
      obtain ⟨a, ha, rfl⟩ := List.mem_map.1 hyy
      cases a with
      | nil => exact h4
      | cons c a => exact hy (c :: a) ha
    obtain ⟨k1, k2⟩ := tail_mid g.2.text (groupsText gs ++ post) g.2.choices _ (piece_mid hm) (ih hgs).1 hy'
    have e1 : groupsText (g :: gs) ++ post = g.1 ++ (g.2.text ++ (groupsText gs ++ post)) := by
      simp [groupsText]
    have e2 : ((groupsChoices (g :: gs)).map fun a => a ++ post) =
        (g.2.choices.flatMap fun a => ((groupsChoices gs).map fun a => a ++ post).map fun y => a ++ y).map fun y => g.1 ++ y := by
      simp [groupsChoices, List.map_flatMap, List.map_map, Function.comp_def]
    rw [e1, e2]
    by_cases he : g.1 = []
    · rw [he]
      simp only [List.nil_append, List.map_id']
      exact ⟨k1, fun _ => k2⟩
    · obtain ⟨s1, s2, s3⟩ := hseg.resolve_left he
      obtain ⟨r1, r2⟩ := tail_seg g.1 _ _ he s1 s2 s3 k1
      exact ⟨r1, fun _ => r2 k2⟩

theorem utf8_flatMap {α : Type} (l : List α) (f : α → Text) : utf8 (l.flatMap f) = l.flatMap fun x => utf8 (f x) := by
  induction l with
  | nil => rfl
  | cons a l ih => rw [List.flatMap_cons, List.flatMap_cons, utf8_append, ih]

theorem ranges_ascii {rs : List (Char × Char)} (h : RangesOk rs) : ∀ c ∈ '[' :: (rs.flatMap rangeText ++ [']']), c.toNat < 128 := by
  intro c hc
  simp only [List.mem_cons, List.mem_append, List.not_mem_nil, or_false] at hc
  rcases hc with rfl | hc | rfl
  · decide
  · obtain ⟨r, hr, hc⟩ := List.mem_flatMap.1 hc
    have h5 := h.2.1 r hr
    unfold rangeText at hc
    split at hc
    · rw [List.mem_singleton] at hc
      subst hc
      omega
    · simp only [List.mem_cons, List.not_mem_nil, or_false] at hc
      rcases hc with rfl | rfl | rfl
      · omega
      · decide
      · omega
  · decide

theorem piece_bytes {m : Piece} (h : m.Ok) : m.bytes.Ok ∧ utf8 m.text = m.bytes.text ∧ m.choices.map utf8 = m.bytes.choices := by
  cases m with
  | alternatives as =>
    refine ⟨⟨?_, fun a haa => ?_⟩, ?_, rfl⟩
    · have := h.1
      simpa using this
    · obtain ⟨x, hx, rfl⟩ := List.mem_map.1 haa
      exact ⟨fun e => (h.2 x hx).1 (utf8_inj e), altOk_utf8 (h.2 x hx).2⟩
    · show utf8 ("{".toList ++ (joinWith [','] as ++ "}".toList)) = "{".toList ++ (joinWith [','] (as.map utf8) ++ "}".toList)
      rw [← joinComma_utf8, utf8_append, utf8_append, utf8_ascii (show ∀ c ∈ "{".toList, c.toNat < 128 by decide),
        utf8_ascii (show ∀ c ∈ "}".toList, c.toNat < 128 by decide)]
  | ranges rs =>
    refine ⟨h, utf8_ascii (ranges_ascii h), ?_⟩
    show ((charsIn rs).map fun c => ['\\', c]).map utf8 = (charsIn rs).map fun c => ['\\', c]
    rw [List.map_map]
    apply List.map_congr_left
    intro c hc
    refine utf8_ascii ?_
    intro x hx
    simp only [List.mem_cons, List.not_mem_nil, or_false] at hx
    rcases hx with rfl | rfl
    · decide
    · exact inRanges_ascii h ((mem_charsIn h _).1 hc)

theorem groups_bytes (gs : List (Text × Piece)) (h : GroupsOk gs) :
    GroupsOk (groupBytes gs) ∧ utf8 (groupsText gs) = groupsText (groupBytes gs) ∧
    (groupsChoices gs).map utf8 = groupsChoices (groupBytes gs) := by
  induction gs with
  | nil => exact ⟨trivial, rfl, rfl⟩
  | cons g gs ih =>
    obtain ⟨hm, hseg, hy, hgs⟩ := h
    obtain ⟨i1, i2, i3⟩ := ih hgs
    obtain ⟨p1, p2, p3⟩ := piece_bytes hm
    refine ⟨⟨p1, ?_, ?_, i1⟩, ?_, ?_⟩
    · rcases hseg with hseg | ⟨s1, s2, s3⟩
      · left
        show utf8 g.1 = []
        rw [hseg]; rfl
      · exact Or.inr ⟨segOk_utf8 _ s1, utf8_not_start s2, utf8_not_end s3⟩
    · intro y hyy
      have hyy : y ∈ groupsChoices (groupBytes gs) := hyy
      rw [← i3] at hyy
      obtain ⟨x, hx, rfl⟩ := List.mem_map.1 hyy
      exact utf8_not_start (hy x hx)
    · show utf8 (groupsText (g :: gs)) = groupsText ((utf8 g.1, g.2.bytes) :: groupBytes gs)
      unfold groupsText at i2 ⊢
      rw [List.flatMap_cons, List.flatMap_cons, utf8_append, utf8_append, i2, p2]
    · show (groupsChoices (g :: gs)).map utf8 = groupsChoices ((utf8 g.1, g.2.bytes) :: groupBytes gs)
      rw [groupsChoices, groupsChoices, ← i3, ← p3]
      simp [List.map_flatMap, List.flatMap_map, List.map_map, Function.comp_def, utf8_append]

/-- **C40.** A glob with any number of groups of alternatives and classes matches a path exactly if one of the globs does
that have one of the alternatives or characters in the place of each. -/
theorem C40_groups (pre post : Text) (gs : List (Text × Piece)) (hne : gs ≠ []) (h : GroupsOk gs)
    (h1 : segOk pre = true) (h2 : ∀ x, pre ≠ x ++ ['*']) (h3 : segOk post = true) (h4 : post.head? ≠ some '*')
    (hs : ∀ y ∈ groupsChoices gs, '/' ∈ pre ++ (y ++ post) ↔ '/' ∈ pre ++ (groupsText gs ++ post))
    (hok : ∀ y ∈ groupsChoices gs, GlobOk (pre ++ (y ++ post))) :
    ∃ sets, buildGlobSet [pre ++ (groupsText gs ++ post)] = some (some sets) ∧
      ∀ p, PathOk p → (setMatches sets (joinWith ['/'] p) = true ↔ ∃ y ∈ groupsChoices gs, GlobMatches (pre ++ (y ++ post)) p) := by
  obtain ⟨b1, b2, b3⟩ := groups_bytes gs h
  refine glob_mid pre post (groupsText gs) (groupsChoices gs) ?_ h1 h2 h3 h4 hs hok
  rw [b2, b3]
  refine stands_of_tail _ _ fun post g1 g2 => ?_
  obtain ⟨t1, t2⟩ := groups_tail (groupBytes gs) b1 post g1 g2
  exact ⟨t1, t2 (by unfold groupBytes; simpa using hne)⟩

/-- The hypotheses are met by `{a,b}/x[0-1][7].rs`, which stands for four globs. -/
example : ∃ sets, buildGlobSet ["{a,b}/x[0-1][7].rs".toList] = some (some sets) ∧
    ∀ p, PathOk p → (setMatches sets (joinWith ['/'] p) = true ↔
      ∃ y ∈ ["a/x\\0\\7".toList, "a/x\\1\\7".toList, "b/x\\0\\7".toList, "b/x\\1\\7".toList], GlobMatches (y ++ ".rs".toList) p) := by
  have r1 : RangesOk [('0', '1')] := ⟨by decide, by decide, by intro r hr; cases hr; decide⟩
  have r2 : RangesOk [('7', '7')] := ⟨by decide, by decide, by intro r hr; cases hr; decide⟩
  have e : groupsChoices [([], .alternatives ["a".toList, "b".toList]), ("/x".toList, .ranges [('0', '1')]), ([], .ranges [('7', '7')])] =
      ["a/x\\0\\7".toList, "a/x\\1\\7".toList, "b/x\\0\\7".toList, "b/x\\1\\7".toList] := by decide +kernel
  have := C40_groups [] ".rs".toList
    [([], .alternatives ["a".toList, "b".toList]), ("/x".toList, .ranges [('0', '1')]), ([], .ranges [('7', '7')])] (by simp)
    ⟨⟨by simp, ?_⟩, Or.inl rfl, by decide +kernel, r1, Or.inr ⟨by decide, by decide, ?_⟩, by decide +kernel, r2, Or.inl rfl, by decide +kernel, trivial⟩
    (by decide) (by simp) (by decide) (by decide) (by decide +kernel) ?_
  · rw [e] at this
    exact this
  · intro a h
    simp only [List.mem_cons, List.not_mem_nil, or_false] at h
    rcases h with rfl | rfl
    · exact ⟨by decide, by unfold AltOk; decide⟩
    · exact ⟨by decide, by unfold AltOk; decide⟩
  · intro x hx
    exact absurd (List.append_inj' (show ("/".toList ++ ['x'] : Text) = x ++ ['*'] from hx) rfl).2 (by decide)
  · rw [e]
    intro a h
    simp only [List.mem_cons, List.not_mem_nil, or_false] at h
    rcases h with rfl | rfl | rfl | rfl <;> (unfold GlobOk; decide +kernel)

end CM.Props
