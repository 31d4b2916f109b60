import Verif.Model.Glob
import Verif.Spec.Glob
import Verif.Proofs.Text
/-! Helper lemmas about the glob parser and matcher. -/
namespace CM.Glob
open Spec

/-! Globs without classes and alternatives have simpler tokens. -/

/-- Parsing a glob without classes and alternatives; the tokens so far are in reverse order and `prev`
is the character read before. -/
def parseFrom (toks : List Token) (prev : Option Char) : Text → Option (List Token)
  | [] => some toks.reverse
  | c :: cs =>
    if c = '*' then
      match cs with
      | [] => some (.zeroOrMore :: toks).reverse
      | d :: ds =>
        if d = '*' then
          -- two stars have been read
          match toks with
          | [] =>
            match ds with
            | [] => some [.recursivePrefix]
            | e :: es =>
              if e = '/' then parseFrom [.recursivePrefix] (some '/') es
              else parseFrom [.zeroOrMore, .zeroOrMore] (some '*') (e :: es)
          | tok :: toks' =>
            if prev = some '/' then
              match ds with
              | [] =>
                match tok with
                | .recursivePrefix => some (.recursivePrefix :: toks').reverse
                | .recursiveSuffix => some (.recursiveSuffix :: toks').reverse
                | _ => some (.recursiveSuffix :: toks').reverse
              | e :: es =>
                if e = '/' then
                  match tok with
                  | .recursivePrefix => parseFrom (.recursivePrefix :: toks') (some '/') es
                  | .recursiveSuffix => parseFrom (.recursiveSuffix :: toks') (some '/') es
                  | _ => parseFrom (.recursiveZeroOrMore :: toks') (some '/') es
                else parseFrom (.zeroOrMore :: .zeroOrMore :: tok :: toks') (some '*') (e :: es)
            else parseFrom (.zeroOrMore :: .zeroOrMore :: tok :: toks') (some '*') ds
        else parseFrom (.zeroOrMore :: toks) (some '*') (d :: ds)
    else if c = '?' then parseFrom (.any :: toks) (some c) cs
    else if c = '\\' then
      match cs with
      | [] => none
      | d :: ds => parseFrom (.literal d :: toks) (some d) ds
    else if c ∈ ['[', '{', '}'] then none
    else parseFrom (.literal c :: toks) (some c) cs

/-- Matching such a glob. -/
def matchTokens : List Token → Text → Bool
  | [], s => s.isEmpty
  | .literal c :: ts, s =>
    match s with
    | [] => false
    | d :: ds => c == d && matchTokens ts ds
  | .any :: ts, s =>
    match s with
    | [] => false
    | d :: ds => d != '/' && matchTokens ts ds
  | .zeroOrMore :: ts, s => skipping (· != '/') (matchTokens ts) s
  | .recursivePrefix :: ts, s =>
    matchTokens ts s || afterSlash (matchTokens ts) s ||
      skipping (fun _ => true) (afterSlash (matchTokens ts)) s
  | .recursiveSuffix :: ts, s => afterSlash (skipping (fun _ => true) (matchTokens ts)) s
  | .recursiveZeroOrMore :: ts, s =>
    afterSlash (matchTokens ts) s ||
      afterSlash (skipping (fun _ => true) (afterSlash (matchTokens ts))) s

/-- A compiled glob; `**` alone matches everything. -/
def plainMatch (ts : List Token) (s : Text) : Bool :=
  if ts = [.recursivePrefix] then true else matchTokens ts s

/-- Tokens as parts. -/
def up (ts : List Token) : List Part := ts.map fun t => .one (.plain t)

theorem lastStar_up (b : Bool) (t : Token) : lastStar b (.one (.plain t)) = .one (.plain (match t with
    | .recursivePrefix => .recursivePrefix
    | .recursiveSuffix => .recursiveSuffix
    | _ => if b then .recursiveSuffix else .recursiveZeroOrMore)) := by
  cases t <;> rfl

theorem parse_up (toks : List Token) (prev : Option Char) (g : Text) :
    ∀ ts, parseFrom toks prev g = some ts → parseParts .plain (up toks) [] prev g = some (up ts) := by
  induction toks, prev, g using parseFrom.induct
  all_goals
    intro ts h
    unfold parseFrom at h
    unfold parseParts
    simp_all [up, finish, lastStar_up]
  all_goals (subst h; simp)

theorem match_up (ts : List Token) (s : Text) : matchParts (up ts) s = matchTokens ts s := by
  induction ts generalizing s with
  | nil => rfl
  | cons t ts ih =>
    have e : matchParts (up ts) = matchTokens ts := funext ih
    show matchOne (matchParts (up ts)) (.plain t) s = _
    rw [e]
    cases t <;> rfl

theorem isMatch_up (ts : List Token) (s : Text) : isMatch (up ts) s = plainMatch ts s := by
  unfold isMatch plainMatch
  rw [match_up]
  have : up ts = [.one (.plain .recursivePrefix)] ↔ ts = [.recursivePrefix] := by
    constructor
    · intro h
      match ts, h with
      | [t], h => unfold up at h; simp at h; rw [h]
    · rintro rfl; rfl
  by_cases h : ts = [.recursivePrefix]
  · rw [if_pos h, if_pos (this.2 h)]
  · rw [if_neg h, if_neg (fun h' => h (this.1 h'))]

/-- The tokens of a part without separators, where stars have no special meaning. -/
def segToks : Text → Option (List Token)
  | [] => some []
  | c :: cs =>
    if c = '*' then (segToks cs).map (.zeroOrMore :: ·)
    else if c = '?' then (segToks cs).map (.any :: ·)
    else if c = '\\' then
      match cs with
      | [] => none
      | d :: ds => (segToks ds).map (.literal d :: ·)
    else if c ∈ ['[', '{', '}'] then none
    else (segToks cs).map (.literal c :: ·)

theorem segOk_toks (g : Text) (h : segOk g = true) : ∃ ts, segToks g = some ts := by
  induction g using segToks.induct with
  | case1 => exact ⟨[], rfl⟩
  | case2 cs ih =>
    unfold segOk at h
    rw [if_neg (by decide)] at h
    simp only [Bool.and_eq_true] at h
    obtain ⟨ts, ht⟩ := ih h.2
    exact ⟨_, by unfold segToks; rw [if_pos rfl, ht]; rfl⟩
  | case3 cs _ ih =>
    unfold segOk at h
    rw [if_neg (by decide)] at h
    simp only [Bool.and_eq_true] at h
    obtain ⟨ts, ht⟩ := ih h.2
    exact ⟨_, by unfold segToks; rw [if_neg (by decide), if_pos rfl, ht]; rfl⟩
  | case4 => unfold segOk at h; rw [if_pos rfl] at h; cases h
  | case5 d ds _ _ ih =>
    unfold segOk at h
    rw [if_pos rfl] at h
    obtain ⟨ts, ht⟩ := ih h
    exact ⟨_, by unfold segToks; rw [if_neg (by decide), if_neg (by decide), if_pos rfl]; simp only [ht]; rfl⟩
  | case6 c cs h1 h2 h3 h4 =>
    unfold segOk at h
    rw [if_neg h3] at h
    simp only [Bool.and_eq_true, bne_iff_ne] at h
    simp only [List.mem_cons, List.not_mem_nil, or_false] at h4
    rcases h4 with h4 | h4 | h4
    · exact absurd h4 h.1.1.1
    · exact absurd h4 h.1.1.2
    · exact absurd h4 h.1.2
  | case7 c cs h1 h2 h3 h4 ih =>
    unfold segOk at h
    rw [if_neg h3] at h
    simp only [Bool.and_eq_true] at h
    obtain ⟨ts, ht⟩ := ih h.2
    exact ⟨_, by unfold segToks; rw [if_neg h1, if_neg h2, if_neg h3, if_neg h4, ht]; rfl⟩

theorem skipping_iff (p : Char → Bool) (k : Text → Bool) (s : Text) :
    skipping p k s = true ↔ ∃ a b, s = a ++ b ∧ (∀ c ∈ a, p c = true) ∧ k b = true := by
  induction s with
  | nil =>
    unfold skipping
    constructor
    · intro h; exact ⟨[], [], rfl, by simp, h⟩
    · rintro ⟨a, b, e, _, h⟩
      rw [(List.append_eq_nil_iff.1 e.symm).2] at h; exact h
  | cons c cs ih =>
    unfold skipping
    rw [Bool.or_eq_true, Bool.and_eq_true, ih]
    constructor
    · rintro (h | ⟨hp, a, b, e, ha, hb⟩)
      · exact ⟨[], c :: cs, rfl, by simp, h⟩
      · refine ⟨c :: a, b, by rw [e]; rfl, ?_, hb⟩
        intro x hx
        rcases List.mem_cons.1 hx with rfl | hx
        · exact hp
        · exact ha x hx
    · rintro ⟨a, b, e, ha, hb⟩
      cases a with
      | nil => left; rw [List.nil_append] at e; rw [e]; exact hb
      | cons x a =>
        right
        rw [List.cons_append, List.cons.injEq] at e
        obtain ⟨rfl, e⟩ := e
        exact ⟨ha _ (by simp), a, b, e, fun y hy => ha y (by simp [hy]), hb⟩

theorem afterSlash_iff (k : Text → Bool) (s : Text) :
    afterSlash k s = true ↔ ∃ b, s = '/' :: b ∧ k b = true := by
  cases s with
  | nil => unfold afterSlash; simp
  | cons c cs =>
    unfold afterSlash
    rw [Bool.and_eq_true, beq_iff_eq]
    constructor
    · rintro ⟨rfl, h⟩; exact ⟨cs, rfl, h⟩
    · rintro ⟨b, e, h⟩; cases e; exact ⟨rfl, h⟩

theorem segMatch_star (g : Text) (s : Text) :
    SegMatch ('*' :: g) s ↔ ∃ a b, s = a ++ b ∧ SegMatch g b := by
  constructor
  · intro h
    generalize hg : '*' :: g = g' at h
    induction h with
    | nil => cases hg
    | one => cases hg
    | none h ih => cases hg; exact ⟨[], _, rfl, h⟩
    | more c h ih =>
      cases hg
      obtain ⟨a, b, e, h'⟩ := ih rfl
      exact ⟨c :: a, b, by rw [e]; rfl, h'⟩
    | escaped => cases hg
    | literal c _ h2 _ _ => cases hg; exact absurd rfl h2
  · rintro ⟨a, b, rfl, h⟩
    induction a with
    | nil => exact .none h
    | cons c a ih => exact .more c ih

/-- The tokens of a part match a text without separators, followed by what the rest matches. -/
theorem match_seg (g : Text) (ts : List Token) (hg : '/' ∉ g) (h : segToks g = some ts)
    (k : List Token) (s : Text) :
    matchTokens (ts ++ k) s = true ↔
      ∃ a b, s = a ++ b ∧ '/' ∉ a ∧ SegMatch g a ∧ matchTokens k b = true := by
  induction g using segToks.induct generalizing ts s with
  | case1 =>
    cases h
    constructor
    · intro h; exact ⟨[], s, rfl, by simp, .nil, h⟩
    · rintro ⟨a, b, rfl, _, h, hk⟩; cases h; exact hk
  | case2 cs ih =>
    unfold segToks at h
    rw [if_pos rfl] at h
    obtain ⟨ts', ht, rfl⟩ := Option.map_eq_some_iff.1 h
    rw [List.cons_append, matchTokens, skipping_iff]
    have ih := ih ts' (fun hc => hg (by simp [hc])) ht
    constructor
    · rintro ⟨a, b, rfl, ha, hm⟩
      obtain ⟨a', b', rfl, hn, hs, hk⟩ := (ih b).1 hm
      refine ⟨a ++ a', b', by simp, ?_, ?_, hk⟩
      · intro hc
        rcases List.mem_append.1 hc with hc | hc
        · have := ha _ hc; simp at this
        · exact hn hc
      · exact (segMatch_star _ _).2 ⟨a, a', rfl, hs⟩
    · rintro ⟨a, b, rfl, hn, hs, hk⟩
      obtain ⟨a1, a2, rfl, hs'⟩ := (segMatch_star _ _).1 hs
      refine ⟨a1, a2 ++ b, by simp, ?_, ?_⟩
      · intro c hc
        rw [bne_iff_ne]
        rintro rfl
        exact hn (by simp [hc])
      · exact (ih _).2 ⟨a2, b, rfl, fun hc => hn (by simp [hc]), hs', hk⟩
  | case3 cs _ ih =>
    unfold segToks at h
    rw [if_neg (by decide), if_pos rfl] at h
    obtain ⟨ts', ht, rfl⟩ := Option.map_eq_some_iff.1 h
    have ih := ih ts' (fun hc => hg (by simp [hc])) ht
    rw [List.cons_append]
    constructor
    · intro h
      cases s with
      | nil => cases h
      | cons d ds =>
        rw [matchTokens, Bool.and_eq_true, bne_iff_ne] at h
        obtain ⟨a, b, rfl, hn, hs, hk⟩ := (ih ds).1 h.2
        exact ⟨d :: a, b, rfl, by simp only [List.mem_cons, not_or]; exact ⟨Ne.symm h.1, hn⟩, .one d hs, hk⟩
    · rintro ⟨a, b, rfl, hn, hs, hk⟩
      cases hs with
      | one c hs =>
        rw [List.cons_append, matchTokens, Bool.and_eq_true, bne_iff_ne]
        simp only [List.mem_cons, not_or] at hn
        exact ⟨Ne.symm hn.1, (ih _).2 ⟨_, b, rfl, hn.2, hs, hk⟩⟩
      | literal _ h _ _ _ => exact absurd rfl h
  | case4 => unfold segToks at h; simp at h
  | case5 d ds _ _ ih =>
    unfold segToks at h
    rw [if_neg (by decide), if_neg (by decide), if_pos rfl] at h
    obtain ⟨ts', ht, rfl⟩ := Option.map_eq_some_iff.1 h
    have ih := ih ts' (fun hc => hg (by simp [hc])) ht
    have hd : d ≠ '/' := fun e => hg (by simp [e])
    rw [List.cons_append]
    constructor
    · intro h
      cases s with
      | nil => cases h
      | cons e es =>
        rw [matchTokens, Bool.and_eq_true, beq_iff_eq] at h
        obtain ⟨rfl, h⟩ := h
        obtain ⟨a, b, rfl, hn, hs, hk⟩ := (ih es).1 h
        exact ⟨d :: a, b, rfl, by simp only [List.mem_cons, not_or]; exact ⟨Ne.symm hd, hn⟩, .escaped d hs, hk⟩
    · rintro ⟨a, b, rfl, hn, hs, hk⟩
      cases hs with
      | escaped c hs =>
        rw [List.cons_append, matchTokens, Bool.and_eq_true, beq_iff_eq]
        simp only [List.mem_cons, not_or] at hn
        exact ⟨rfl, (ih _).2 ⟨_, b, rfl, hn.2, hs, hk⟩⟩
      | literal _ _ _ h _ => exact absurd rfl h
  | case6 c cs h1 h2 h3 h4 =>
    unfold segToks at h
    rw [if_neg h1, if_neg h2, if_neg h3, if_pos h4] at h; cases h
  | case7 c cs h1 h2 h3 h4 ih =>
    unfold segToks at h
    rw [if_neg h1, if_neg h2, if_neg h3, if_neg h4] at h
    obtain ⟨ts', ht, rfl⟩ := Option.map_eq_some_iff.1 h
    have ih := ih ts' (fun hc => hg (by simp [hc])) ht
    have hd : c ≠ '/' := fun e => hg (by simp [e])
    rw [List.cons_append]
    constructor
    · intro h
      cases s with
      | nil => cases h
      | cons e es =>
        rw [matchTokens, Bool.and_eq_true, beq_iff_eq] at h
        obtain ⟨rfl, h⟩ := h
        obtain ⟨a, b, rfl, hn, hs, hk⟩ := (ih es).1 h
        exact ⟨c :: a, b, rfl, by simp only [List.mem_cons, not_or]; exact ⟨Ne.symm hd, hn⟩,
          .literal c h2 h1 h3 hs, hk⟩
    · rintro ⟨a, b, rfl, hn, hs, hk⟩
      cases hs with
      | literal _ _ _ _ hs =>
        rw [List.cons_append, matchTokens, Bool.and_eq_true, beq_iff_eq]
        simp only [List.mem_cons, not_or] at hn
        exact ⟨rfl, (ih _).2 ⟨_, b, rfl, hn.2, hs, hk⟩⟩
      | one => exact absurd rfl h2
      | none => exact absurd rfl h1
      | more => exact absurd rfl h1
      | escaped => exact absurd rfl h3

/-! The parser on a part: either nothing follows or a separator. -/

/-- What follows a part: the end or a separator and more. -/
def afterSeg (toks : List Token) : Option Text → Option (List Token)
  | none => some toks.reverse
  | some more => parseFrom (.literal '/' :: toks) (some '/') more

def tailText : Option Text → Text
  | none => []
  | some more => '/' :: more

theorem parse_tail (toks : List Token) (prev : Option Char) (r : Option Text) :
    parseFrom toks prev (tailText r) = afterSeg toks r := by
  cases r with
  | none => unfold tailText parseFrom; rfl
  | some more =>
    unfold tailText afterSeg
    rw [parseFrom.eq_def]
    simp only
    rw [if_neg (by decide), if_neg (by decide), if_neg (by decide), if_neg (by decide)]

/-- One star that does not start a pair. -/
theorem parse_star (toks : List Token) (prev : Option Char) (t : Text) (h : t.head? ≠ some '*') :
    parseFrom toks prev ('*' :: t) = parseFrom (.zeroOrMore :: toks) (some '*') t := by
  cases t with
  | nil => rw [parseFrom.eq_def, parseFrom.eq_def]; rfl
  | cons d ds =>
    rw [parseFrom.eq_def]
    simp only [if_true]
    rw [if_neg (by rintro rfl; exact h rfl)]

theorem tail_head (r : Option Text) : (tailText r).head? ≠ some '*' := by
  cases r with
  | none => unfold tailText; decide
  | some more => unfold tailText; simp only [List.head?_cons, ne_eq, Option.some.injEq]; decide

theorem parse_seg_inner (g : Text) (hg : '/' ∉ g) (ts : List Token) (h : segToks g = some ts)
    (toks : List Token) (prev : Option Char) (ht : toks ≠ []) (hp : prev ≠ some '/') (r : Option Text) :
    parseFrom toks prev (g ++ tailText r) = afterSeg (ts.reverse ++ toks) r := by
  induction hn : g.length using Nat.strongRecOn generalizing g ts toks prev with
  | ind n ih =>
    cases g with
    | nil => cases h; exact parse_tail _ _ _
    | cons c cs =>
      have hcs : '/' ∉ cs := fun hc => hg (by simp [hc])
      have hc' : c ≠ '/' := fun e => hg (by simp [e])
      simp only [List.length_cons] at hn
      unfold segToks at h
      by_cases h1 : c = '*'
      · rw [if_pos h1] at h
        subst h1
        obtain ⟨ts', ht', rfl⟩ := Option.map_eq_some_iff.1 h
        by_cases h2 : (cs ++ tailText r).head? = some '*'
        · -- two stars
          cases cs with
          | nil => exact absurd h2 (tail_head r)
          | cons d ds =>
            simp only [List.cons_append, List.head?_cons, Option.some.injEq] at h2
            subst h2
            unfold segToks at ht'
            rw [if_pos rfl] at ht'
            obtain ⟨ts'', ht'', rfl⟩ := Option.map_eq_some_iff.1 ht'
            simp only [List.length_cons] at hn
            have e : parseFrom toks prev ('*' :: '*' :: ds ++ tailText r) =
                parseFrom (.zeroOrMore :: .zeroOrMore :: toks) (some '*') (ds ++ tailText r) := by
              cases toks with
              | nil => exact absurd rfl ht
              | cons t toks =>
                rw [List.cons_append, List.cons_append, parseFrom.eq_def]
                simp only [if_true]
                rw [if_neg hp]
            rw [e, ih ds.length (by omega) ds (fun hc => hcs (by simp [hc])) ts'' ht'' _ _ (by simp)
              (by decide) rfl]
            simp
        · rw [List.cons_append, parse_star _ _ _ h2,
            ih cs.length (by omega) cs hcs ts' ht' _ _ (by simp) (by decide) rfl]
          simp
      · rw [if_neg h1] at h
        by_cases h2 : c = '?'
        · rw [if_pos h2] at h
          obtain ⟨ts', ht', rfl⟩ := Option.map_eq_some_iff.1 h
          rw [List.cons_append, parseFrom.eq_def]
          simp only
          rw [if_neg h1, if_pos h2, ih cs.length (by omega) cs hcs ts' ht' _ _ (by simp)
            (by rw [h2]; decide) rfl]
          simp
        · rw [if_neg h2] at h
          by_cases h3 : c = '\\'
          · rw [if_pos h3] at h
            cases cs with
            | nil => cases h
            | cons d ds =>
              obtain ⟨ts', ht', rfl⟩ := Option.map_eq_some_iff.1 h
              simp only [List.length_cons] at hn
              rw [List.cons_append, parseFrom.eq_def]
              simp only [List.cons_append]
              rw [if_neg h1, if_neg h2, if_pos h3, ih ds.length (by omega) ds (fun hc => hcs (by simp [hc]))
                ts' ht' _ _ (by simp) (by rw [ne_eq, Option.some.injEq]; rintro rfl; exact hcs (by simp)) rfl]
              simp
          · rw [if_neg h3] at h
            by_cases h4 : c ∈ ['[', '{', '}']
            · rw [if_pos h4] at h; cases h
            · rw [if_neg h4] at h
              obtain ⟨ts', ht', rfl⟩ := Option.map_eq_some_iff.1 h
              rw [List.cons_append, parseFrom.eq_def]
              simp only
              rw [if_neg h1, if_neg h2, if_neg h3, if_neg h4, ih cs.length (by omega) cs hcs ts' ht' _ _
                (by simp) (by rw [ne_eq, Option.some.injEq]; exact hc') rfl]
              simp

/-- The parser on a whole part other than `**`, at the start or after a separator. -/
theorem parse_seg (g : Text) (hg : '/' ∉ g) (hss : g ≠ starstar) (ts : List Token)
    (h : segToks g = some ts) (toks : List Token) (prev : Option Char) (r : Option Text) :
    parseFrom toks prev (g ++ tailText r) = afterSeg (ts.reverse ++ toks) r := by
  cases g with
  | nil => cases h; exact parse_tail _ _ _
  | cons c cs =>
    have hcs : '/' ∉ cs := fun hc => hg (by simp [hc])
    have hc' : c ≠ '/' := fun e => hg (by simp [e])
    unfold segToks at h
    by_cases h1 : c = '*'
    · rw [if_pos h1] at h
      subst h1
      obtain ⟨ts', ht', rfl⟩ := Option.map_eq_some_iff.1 h
      by_cases h2 : (cs ++ tailText r).head? = some '*'
      · cases cs with
        | nil => exact absurd h2 (tail_head r)
        | cons d ds =>
          simp only [List.cons_append, List.head?_cons, Option.some.injEq] at h2
          subst h2
          have hds : ∃ e es, ds ++ tailText r = e :: es ∧ e ≠ '/' := by
            cases ds with
            | nil => exact absurd rfl hss
            | cons e es => exact ⟨e, _, rfl, fun hc => hcs (by simp [hc])⟩
          obtain ⟨e, es, hds, he⟩ := hds
          unfold segToks at ht'
          rw [if_pos rfl] at ht'
          obtain ⟨ts'', ht'', rfl⟩ := Option.map_eq_some_iff.1 ht'
          have e : parseFrom toks prev ('*' :: '*' :: ds ++ tailText r) =
              parseFrom (.zeroOrMore :: .zeroOrMore :: toks) (some '*') (ds ++ tailText r) := by
            rw [List.cons_append, List.cons_append, hds, parseFrom.eq_def]
            simp only [if_true]
            cases toks with
            | nil => simp only [if_neg he]
            | cons t toks => simp only [if_neg he, ite_self]
          rw [e, parse_seg_inner ds (fun hc => hcs (by simp [hc])) ts'' ht'' _ _ (by simp) (by decide)]
          simp
      · rw [List.cons_append, parse_star _ _ _ h2,
          parse_seg_inner cs hcs ts' ht' _ _ (by simp) (by decide)]
        simp
    · rw [if_neg h1] at h
      by_cases h2 : c = '?'
      · rw [if_pos h2] at h
        obtain ⟨ts', ht', rfl⟩ := Option.map_eq_some_iff.1 h
        rw [List.cons_append, parseFrom.eq_def]
        simp only
        rw [if_neg h1, if_pos h2, parse_seg_inner cs hcs ts' ht' _ _ (by simp) (by rw [h2]; decide)]
        simp
      · rw [if_neg h2] at h
        by_cases h3 : c = '\\'
        · rw [if_pos h3] at h
          cases cs with
          | nil => cases h
          | cons d ds =>
            obtain ⟨ts', ht', rfl⟩ := Option.map_eq_some_iff.1 h
            rw [List.cons_append, parseFrom.eq_def]
            simp only [List.cons_append]
            rw [if_neg h1, if_neg h2, if_pos h3, parse_seg_inner ds (fun hc => hcs (by simp [hc]))
              ts' ht' _ _ (by simp) (by rw [ne_eq, Option.some.injEq]; rintro rfl; exact hcs (by simp))]
            simp
        · rw [if_neg h3] at h
          by_cases h4 : c ∈ ['[', '{', '}']
          · rw [if_pos h4] at h; cases h
          · rw [if_neg h4] at h
            obtain ⟨ts', ht', rfl⟩ := Option.map_eq_some_iff.1 h
            rw [List.cons_append, parseFrom.eq_def]
            simp only
            rw [if_neg h1, if_neg h2, if_neg h3, if_neg h4, parse_seg_inner cs hcs ts' ht' _ _
              (by simp) (by rw [ne_eq, Option.some.injEq]; exact hc')]
            simp

/-! The whole glob. -/

/-- The tokens of the parts after a pending token: a separator, or `**/` at the start or later. -/
def pend (top : Token) : List Text → Option (List Token)
  | [] => some [top]
  | [g] =>
    if g = starstar then some [if top = .recursivePrefix then .recursivePrefix else .recursiveSuffix]
    else (segToks g).map (top :: ·)
  | g :: g' :: rest =>
    if g = starstar then
      pend (if top = .recursivePrefix then .recursivePrefix else .recursiveZeroOrMore) (g' :: rest)
    else
      (segToks g).bind fun ts => (pend (.literal '/') (g' :: rest)).map fun k => top :: ts ++ k

def Pending (t : Token) : Prop := t = .literal '/' ∨ t = .recursivePrefix ∨ t = .recursiveZeroOrMore

def SegsOk (segs : List Text) : Prop := ∀ g ∈ segs, '/' ∉ g ∧ segOk g = true

theorem joinWith_cons (sep : Text) (a b : Text) (l : List Text) :
    joinWith sep (a :: b :: l) = a ++ sep ++ joinWith sep (b :: l) := rfl

theorem parse_pend (segs : List Text) (hne : segs ≠ []) (hok : SegsOk segs) (top : Token)
    (ht : Pending top) (toks : List Token) :
    parseFrom (top :: toks) (some '/') (joinWith ['/'] segs) =
      (pend top segs).map (toks.reverse ++ ·) := by
  induction segs generalizing top toks with
  | nil => exact absurd rfl hne
  | cons g rest ih =>
    have hg := hok g (by simp)
    cases rest with
    | nil =>
      simp only [joinWith, pend]
      by_cases hs : g = starstar
      · rw [if_pos hs, hs]
        show parseFrom (top :: toks) (some '/') ['*', '*'] = _
        rw [parseFrom.eq_def]
        simp only [if_true]
        rcases ht with rfl | rfl | rfl <;> simp
      · rw [if_neg hs]
        obtain ⟨ts, hts⟩ := segOk_toks g hg.2
        have := parse_seg g hg.1 hs ts hts (top :: toks) (some '/') none
        rw [show tailText none = [] from rfl, List.append_nil] at this
        rw [this, hts]
        simp [afterSeg]
    | cons g' rest =>
      have hok' : SegsOk (g' :: rest) := fun x hx => hok x (List.mem_cons_of_mem _ hx)
      rw [joinWith_cons, pend]
      by_cases hs : g = starstar
      · rw [if_pos hs, hs]
        rw [← ih (by simp) hok' _ (by
          rcases ht with rfl | rfl | rfl
          · right; right; rfl
          · right; left; rfl
          · right; right; rfl) toks]
        show parseFrom (top :: toks) (some '/') ('*' :: '*' :: '/' :: joinWith ['/'] (g' :: rest)) = _
        rw [parseFrom.eq_def]
        simp only [if_true]
        rcases ht with rfl | rfl | rfl <;> simp
      · rw [if_neg hs]
        obtain ⟨ts, hts⟩ := segOk_toks g hg.2
        have := parse_seg g hg.1 hs ts hts (top :: toks) (some '/') (some (joinWith ['/'] (g' :: rest)))
        rw [show tailText (some (joinWith ['/'] (g' :: rest))) = ['/'] ++ joinWith ['/'] (g' :: rest)
          from rfl, ← List.append_assoc] at this
        rw [this, hts]
        simp only [afterSeg, Option.bind_some]
        rw [ih (by simp) hok' _ (Or.inl rfl)]
        rw [Option.map_map]
        congr 1
        funext k
        simp

/-- The tokens of a whole glob given by its parts. -/
def wholeToks : List Text → Option (List Token)
  | [] => some []
  | [g] => if g = starstar then some [.recursivePrefix] else segToks g
  | g :: g' :: rest =>
    if g = starstar then pend .recursivePrefix (g' :: rest)
    else (segToks g).bind fun ts => (pend (.literal '/') (g' :: rest)).map fun k => ts ++ k

theorem parse_whole (segs : List Text) (hne : segs ≠ []) (hok : SegsOk segs) :
    parseFrom [] none (joinWith ['/'] segs) = wholeToks segs := by
  cases segs with
  | nil => exact absurd rfl hne
  | cons g rest =>
    have hg := hok g (by simp)
    cases rest with
    | nil =>
      simp only [joinWith, wholeToks]
      by_cases hs : g = starstar
      · rw [if_pos hs, hs]; rw [parseFrom.eq_def]; rfl
      · rw [if_neg hs]
        obtain ⟨ts, hts⟩ := segOk_toks g hg.2
        have := parse_seg g hg.1 hs ts hts [] none none
        rw [show tailText none = [] from rfl, List.append_nil] at this
        rw [this, hts]
        simp [afterSeg]
    | cons g' rest =>
      have hok' : SegsOk (g' :: rest) := fun x hx => hok x (List.mem_cons_of_mem _ hx)
      rw [joinWith_cons, wholeToks]
      by_cases hs : g = starstar
      · rw [if_pos hs, hs]
        have := parse_pend (g' :: rest) (by simp) hok' .recursivePrefix (Or.inr (Or.inl rfl)) []
        simp only [List.reverse_nil, List.nil_append, Option.map_id'] at this
        rw [← this]
        show parseFrom [] none ('*' :: '*' :: '/' :: joinWith ['/'] (g' :: rest)) = _
        rw [parseFrom.eq_def]
        simp only [if_true]
      · rw [if_neg hs]
        obtain ⟨ts, hts⟩ := segOk_toks g hg.2
        have := parse_seg g hg.1 hs ts hts [] none (some (joinWith ['/'] (g' :: rest)))
        rw [show tailText (some (joinWith ['/'] (g' :: rest))) = ['/'] ++ joinWith ['/'] (g' :: rest)
          from rfl, ← List.append_assoc] at this
        rw [this, hts]
        simp only [afterSeg, Option.bind_some, List.append_nil]
        rw [parse_pend (g' :: rest) (by simp) hok' _ (Or.inl rfl)]
        congr 1
        funext k
        simp

/-! Matching the tokens of a whole glob against a joined path. -/

theorem join_split (cs : List Text) (hcs : PathOk cs) (x y : Text)
    (h : joinWith ['/'] cs = x ++ '/' :: y) :
    ∃ c1 c2, cs = c1 ++ c2 ∧ c1 ≠ [] ∧ c2 ≠ [] ∧ x = joinWith ['/'] c1 ∧ y = joinWith ['/'] c2 := by
  have h1 : cs = splitOn '/' (x ++ '/' :: y) := by rw [← h, splitOn_joinWith '/' cs hcs.1 hcs.2]
  rw [splitOn_append] at h1
  exact ⟨_, _, h1, splitOn_ne_nil _ _, splitOn_ne_nil _ _, (joinWith_splitOn _ _).symm,
    (joinWith_splitOn _ _).symm⟩

theorem joinWith_append (c1 c2 : List Text) (h1 : c1 ≠ []) (h2 : c2 ≠ []) :
    joinWith ['/'] (c1 ++ c2) = joinWith ['/'] c1 ++ '/' :: joinWith ['/'] c2 := by
  induction c1 with
  | nil => exact absurd rfl h1
  | cons a c1 ih =>
    cases c1 with
    | nil =>
      cases c2 with
      | nil => exact absurd rfl h2
      | cons b c2 => rw [List.cons_append, List.nil_append, joinWith_cons]; simp [joinWith]
    | cons b c1 =>
      rw [List.cons_append, List.cons_append, joinWith_cons, joinWith_cons, ← List.cons_append,
        ih (by simp)]
      simp

theorem pathMatch_starstar (gs cs : List Text) (hgs : gs ≠ []) :
    PathMatch (starstar :: gs) cs ↔ ∃ c1 c2, cs = c1 ++ c2 ∧ PathMatch gs c2 := by
  constructor
  · intro h
    generalize hg : starstar :: gs = g' at h
    induction h with
    | nil => cases hg
    | seg h _ _ => cases hg; exact absurd rfl h
    | noDirs _ h _ => cases hg; exact ⟨[], _, rfl, h⟩
    | moreDirs h ih =>
      cases hg
      obtain ⟨c1, c2, e, h'⟩ := ih rfl
      exact ⟨_ :: c1, c2, by rw [e]; rfl, h'⟩
    | last => cases hg; exact absurd rfl hgs
  · rintro ⟨c1, c2, rfl, h⟩
    induction c1 with
    | nil => exact .noDirs hgs h
    | cons c c1 ih => exact .moreDirs ih

theorem pathMatch_last (cs : List Text) (h : cs ≠ []) : PathMatch [starstar] cs := by
  cases cs with
  | nil => exact absurd rfl h
  | cons c cs =>
    induction cs generalizing c with
    | nil => exact .last
    | cons d cs ih => exact .moreDirs (ih d (by simp))

theorem pathMatch_nil (gs : List Text) (h : PathMatch gs []) : gs = [] := by
  generalize hc : ([] : List Text) = cs at h
  induction h with
  | nil => rfl
  | seg => cases hc
  | noDirs hne _ ih => exact absurd ((ih hc).trans hc.symm) hne
  | moreDirs => cases hc
  | last => cases hc

theorem pathMatch_seg (g : Text) (gs cs : List Text) (hg : g ≠ starstar) :
    PathMatch (g :: gs) cs ↔ ∃ c cs', cs = c :: cs' ∧ SegMatch g c ∧ PathMatch gs cs' := by
  constructor
  · intro h
    cases h with
    | seg _ h1 h2 => exact ⟨_, _, rfl, h1, h2⟩
    | noDirs => exact absurd rfl hg
    | moreDirs => exact absurd rfl hg
    | last => exact absurd rfl hg
  · rintro ⟨c, cs', rfl, h1, h2⟩
    exact .seg hg h1 h2

theorem starstar_twice (gs cs : List Text) :
    PathMatch (starstar :: starstar :: gs) cs ↔ PathMatch (starstar :: gs) cs := by
  rw [pathMatch_starstar _ _ (by simp)]
  constructor
  · rintro ⟨c1, c2, rfl, h⟩
    induction c1 with
    | nil => exact h
    | cons c c1 ih => exact .moreDirs ih
  · intro h; exact ⟨[], cs, rfl, h⟩

/-- A token list that only matches texts that start with a separator. -/
theorem pend_slash (segs : List Text) (top : Token) (ht : Pending top) (hp : top ≠ .recursivePrefix)
    (k : List Token) (hk : pend top segs = some k) (s : Text) (h : matchTokens k s = true) :
    ∃ b, s = '/' :: b := by
  have key : ∀ t (k' : List Token), (t = .literal '/' ∨ t = .recursiveSuffix ∨ t = .recursiveZeroOrMore) →
      matchTokens (t :: k') s = true → ∃ b, s = '/' :: b := by
    rintro t k' (rfl | rfl | rfl) h
    · cases s with
      | nil => cases h
      | cons d ds =>
        rw [matchTokens, Bool.and_eq_true, beq_iff_eq] at h
        exact ⟨ds, by rw [← h.1]⟩
    · rw [matchTokens, afterSlash_iff] at h
      obtain ⟨b, e, _⟩ := h; exact ⟨b, e⟩
    · rw [matchTokens, Bool.or_eq_true, afterSlash_iff, afterSlash_iff] at h
      rcases h with ⟨b, e, _⟩ | ⟨b, e, _⟩ <;> exact ⟨b, e⟩
  have htop : top = .literal '/' ∨ top = .recursiveSuffix ∨ top = .recursiveZeroOrMore := by
    rcases ht with h | h | h
    · exact Or.inl h
    · exact absurd h hp
    · exact Or.inr (Or.inr h)
  induction segs generalizing top with
  | nil => cases hk; exact key _ _ htop h
  | cons g rest ih =>
    cases rest with
    | nil =>
      unfold pend at hk
      by_cases hs : g = starstar
      · rw [if_pos hs, if_neg hp] at hk
        cases hk; exact key _ _ (Or.inr (Or.inl rfl)) h
      · rw [if_neg hs] at hk
        obtain ⟨ts, _, rfl⟩ := Option.map_eq_some_iff.1 hk
        exact key _ _ htop h
    | cons g' rest =>
      rw [pend] at hk
      by_cases hs : g = starstar
      · rw [if_pos hs, if_neg hp] at hk
        exact ih _ (Or.inr (Or.inr rfl)) (by simp) hk (Or.inr (Or.inr rfl))
      · rw [if_neg hs] at hk
        obtain ⟨ts, _, hk⟩ := Option.bind_eq_some_iff.1 hk
        obtain ⟨k', _, rfl⟩ := Option.map_eq_some_iff.1 hk
        exact key _ _ htop h

/-- What a matcher after a separator has to do for the parts `rest`. -/
def TailOk (rest : List Text) (k : List Token) : Prop :=
  (rest = [] ∧ k = []) ∨
  (rest ≠ [] ∧ (∀ s, matchTokens k s = true → ∃ b, s = '/' :: b) ∧
    ∀ cs, PathOk cs → (matchTokens k ('/' :: joinWith ['/'] cs) = true ↔ PathMatch rest cs))

theorem noSlash_join {cs : List Text} (hcs : PathOk cs) (h : '/' ∉ joinWith ['/'] cs) :
    cs = [joinWith ['/'] cs] := by
  have := splitOn_joinWith '/' cs hcs.1 hcs.2
  rw [splitOn_noSep '/' _ h] at this
  exact this.symm

theorem body_match (g : Text) (rest : List Text) (hg : g ≠ starstar) (hn : '/' ∉ g) (ts k : List Token)
    (hts : segToks g = some ts) (hk : TailOk rest k) (cs : List Text) (hcs : PathOk cs) :
    matchTokens (ts ++ k) (joinWith ['/'] cs) = true ↔ PathMatch (g :: rest) cs := by
  rw [match_seg g ts hn hts, pathMatch_seg _ _ _ hg]
  rcases hk with ⟨rfl, rfl⟩ | ⟨hne, hsl, hk⟩
  · constructor
    · rintro ⟨a, b, e, ha, hm, hb⟩
      have hb : b = [] := by
        cases b with
        | nil => rfl
        | cons x b => cases hb
      subst hb
      rw [List.append_nil] at e
      have := noSlash_join hcs (by rw [e]; exact ha)
      exact ⟨a, [], by rw [← e]; exact this, hm, .nil⟩
    · rintro ⟨c, cs', rfl, hm, hp⟩
      have : cs' = [] := by cases hp; rfl
      subst this
      exact ⟨c, [], by simp [joinWith], hcs.2 c (by simp), hm, rfl⟩
  · constructor
    · rintro ⟨a, b, e, ha, hm, hb⟩
      obtain ⟨b', rfl⟩ := hsl b hb
      obtain ⟨c1, c2, rfl, h1, h2, rfl, rfl⟩ := join_split cs hcs a b' e
      have hok1 : PathOk c1 := ⟨h1, fun c hc => hcs.2 c (by simp [hc])⟩
      have hok2 : PathOk c2 := ⟨h2, fun c hc => hcs.2 c (by simp [hc])⟩
      have := noSlash_join hok1 ha
      refine ⟨joinWith ['/'] c1, c2, ?_, hm, (hk c2 hok2).1 hb⟩
      rw [show joinWith ['/'] c1 :: c2 = [joinWith ['/'] c1] ++ c2 from rfl, ← this]
    · rintro ⟨c, cs', rfl, hm, hp⟩
      have hne' : cs' ≠ [] := by rintro rfl; exact hne (pathMatch_nil _ hp)
      have hok2 : PathOk cs' := ⟨hne', fun c hc => hcs.2 c (by simp [hc])⟩
      refine ⟨c, '/' :: joinWith ['/'] cs', ?_, hcs.2 c (by simp), hm, (hk cs' hok2).2 hp⟩
      have := joinWith_append [c] cs' (by simp) hne'
      simpa [joinWith] using this

/-- `**` before parts that are matched by `k`. -/
theorem dirs_match (segs : List Text) (hne : segs ≠ []) (k : List Token)
    (hk : ∀ cs, PathOk cs → (matchTokens k (joinWith ['/'] cs) = true ↔ PathMatch segs cs))
    (cs : List Text) (hcs : PathOk cs) :
    PathMatch (starstar :: segs) cs ↔
      matchTokens k (joinWith ['/'] cs) = true ∨
      ∃ x y, joinWith ['/'] cs = x ++ '/' :: y ∧ matchTokens k y = true := by
  rw [pathMatch_starstar _ _ hne]
  constructor
  · rintro ⟨c1, c2, rfl, h⟩
    have h2 : c2 ≠ [] := by rintro rfl; exact hne (pathMatch_nil _ h)
    have hok2 : PathOk c2 := ⟨h2, fun c hc => hcs.2 c (by simp [hc])⟩
    by_cases h1 : c1 = []
    · subst h1; left; exact (hk _ hok2).2 h
    · right
      exact ⟨_, _, joinWith_append c1 c2 h1 h2, (hk _ hok2).2 h⟩
  · rintro (h | ⟨x, y, e, h⟩)
    · exact ⟨[], cs, rfl, (hk _ hcs).1 h⟩
    · obtain ⟨c1, c2, rfl, h1, h2, rfl, rfl⟩ := join_split cs hcs x y e
      exact ⟨c1, c2, rfl, (hk _ ⟨h2, fun c hc => hcs.2 c (by simp [hc])⟩).1 h⟩

theorem anyChar (k : Text → Bool) (s : Text) :
    skipping (fun _ => true) k s = true ↔ ∃ a b, s = a ++ b ∧ k b = true := by
  rw [skipping_iff]
  constructor
  · rintro ⟨a, b, e, _, h⟩; exact ⟨a, b, e, h⟩
  · rintro ⟨a, b, e, h⟩; exact ⟨a, b, e, fun _ _ => rfl, h⟩

theorem recursiveZeroOrMore_iff (k : List Token) (s : Text) :
    matchTokens (.recursiveZeroOrMore :: k) ('/' :: s) = true ↔
      matchTokens k s = true ∨ ∃ x y, s = x ++ '/' :: y ∧ matchTokens k y = true := by
  rw [matchTokens, Bool.or_eq_true]
  simp only [afterSlash_iff, anyChar, List.cons.injEq, true_and]
  constructor
  · rintro (⟨b, rfl, h⟩ | ⟨b, rfl, x, y, e, z, rfl, h⟩)
    · exact Or.inl h
    · exact Or.inr ⟨x, z, e, h⟩
  · rintro (h | ⟨x, y, e, h⟩)
    · exact Or.inl ⟨s, rfl, h⟩
    · exact Or.inr ⟨s, rfl, x, '/' :: y, e, y, rfl, h⟩

theorem recursivePrefix_iff (k : List Token) (s : Text) :
    matchTokens (.recursivePrefix :: k) s = true ↔
      matchTokens k s = true ∨ ∃ x y, s = x ++ '/' :: y ∧ matchTokens k y = true := by
  rw [matchTokens, Bool.or_eq_true, Bool.or_eq_true]
  simp only [afterSlash_iff, anyChar]
  constructor
  · rintro ((h | ⟨b, e, h⟩) | ⟨x, y, e, z, rfl, h⟩)
    · exact Or.inl h
    · exact Or.inr ⟨[], b, e, h⟩
    · exact Or.inr ⟨x, z, e, h⟩
  · rintro (h | ⟨x, y, e, h⟩)
    · exact Or.inl (Or.inl h)
    · exact Or.inr ⟨x, '/' :: y, e, y, rfl, h⟩

/-- The last part is not empty. -/
def LastOk (segs : List Text) : Prop := segs.getLast? ≠ some []

theorem segToks_ne (g : Text) (ts : List Token) (hg : g ≠ []) (h : segToks g = some ts) : ts ≠ [] := by
  cases g with
  | nil => exact absurd rfl hg
  | cons c cs =>
    unfold segToks at h
    rintro rfl
    split at h
    · simp at h
    · split at h
      · simp at h
      · split at h
        · split at h <;> simp at h
        · split at h <;> simp at h

theorem pend_ok (segs : List Text) (hne : segs ≠ []) (hok : SegsOk segs) (hl : LastOk segs) :
    (∀ k, pend (.literal '/') segs = some k → ∀ cs, PathOk cs →
      (matchTokens k ('/' :: joinWith ['/'] cs) = true ↔ PathMatch segs cs)) ∧
    (∀ k, pend .recursiveZeroOrMore segs = some k → ∀ cs, PathOk cs →
      (matchTokens k ('/' :: joinWith ['/'] cs) = true ↔ PathMatch (starstar :: segs) cs)) ∧
    (∀ k, pend .recursivePrefix segs = some k → ∀ cs, PathOk cs →
      (plainMatch k (joinWith ['/'] cs) = true ↔ PathMatch (starstar :: segs) cs)) := by
  have lit : ∀ (k : List Token) (s : Text),
      (matchTokens (.literal '/' :: k) ('/' :: s) = true ↔ matchTokens k s = true) := by
    intro k s; rw [matchTokens]; simp
  have suf : ∀ s : Text, matchTokens [.recursiveSuffix] ('/' :: s) = true := by
    intro s; rw [matchTokens, afterSlash_iff]
    exact ⟨s, rfl, (anyChar _ _).2 ⟨s, [], by simp, rfl⟩⟩
  induction segs with
  | nil => exact absurd rfl hne
  | cons g rest ih =>
    have hg := hok g (by simp)
    -- the tokens for a normal part followed by the rest
    have body : ∀ (hs : g ≠ starstar) (ts kr : List Token), segToks g = some ts →
        ((rest = [] ∧ kr = []) ∨ (rest ≠ [] ∧ pend (.literal '/') rest = some kr)) →
        ∀ cs, PathOk cs → (matchTokens (ts ++ kr) (joinWith ['/'] cs) = true ↔ PathMatch (g :: rest) cs) := by
      intro hs ts kr hts hkr cs hcs
      refine body_match g rest hs hg.1 ts kr hts ?_ cs hcs
      rcases hkr with h | ⟨hr, hkr⟩
      · exact Or.inl h
      · refine Or.inr ⟨hr, fun s h => pend_slash rest _ (Or.inl rfl) (by simp) kr hkr s h, ?_⟩
        have hok' : SegsOk rest := fun x hx => hok x (List.mem_cons_of_mem _ hx)
        have hl' : LastOk rest := by
          cases rest with
          | nil => exact absurd rfl hr
          | cons a l => unfold LastOk at hl ⊢; rwa [List.getLast?_cons_cons] at hl
        exact (ih hr hok' hl').1 kr hkr
    have nonempty : ∀ (ts kr : List Token), segToks g = some ts →
        ((rest = [] ∧ kr = []) ∨ (rest ≠ [] ∧ pend (.literal '/') rest = some kr)) → ts ++ kr ≠ [] := by
      intro ts kr hts hkr he
      obtain ⟨h1, h2⟩ := List.append_eq_nil_iff.1 he
      rcases hkr with ⟨hr, _⟩ | ⟨hr, hkr⟩
      · subst hr
        refine segToks_ne g ts ?_ hts h1
        rintro rfl
        exact hl rfl
      · subst h2
        clear ih body hne hok hl
        cases rest with
        | nil => exact absurd rfl hr
        | cons a l =>
          have : ∀ (l : List Text) top, pend top l ≠ some [] := by
            intro l
            induction l with
            | nil => intro top h; cases h
            | cons a l ih =>
              intro top h
              cases l with
              | nil =>
                unfold pend at h
                split at h
                · cases h
                · simp at h
              | cons b l =>
                rw [pend] at h
                split at h
                · exact ih _ h
                · obtain ⟨_, _, h⟩ := Option.bind_eq_some_iff.1 h
                  simp at h
          exact this _ _ hkr
    by_cases hs : g = starstar
    · subst hs
      cases rest with
      | nil =>
        refine ⟨?_, ?_, ?_⟩
        · intro k hk cs hcs
          rw [pend, if_pos rfl] at hk
          cases hk
          exact ⟨fun _ => pathMatch_last cs hcs.1, fun _ => suf _⟩
        · intro k hk cs hcs
          rw [pend, if_pos rfl] at hk
          cases hk
          exact ⟨fun _ => (starstar_twice _ _).2 (pathMatch_last cs hcs.1), fun _ => suf _⟩
        · intro k hk cs hcs
          rw [pend, if_pos rfl, if_pos rfl] at hk
          cases hk
          exact ⟨fun _ => (starstar_twice _ _).2 (pathMatch_last cs hcs.1), fun _ => rfl⟩
      | cons g' rest =>
        have hok' : SegsOk (g' :: rest) := fun x hx => hok x (List.mem_cons_of_mem _ hx)
        have hl' : LastOk (g' :: rest) := by unfold LastOk at hl ⊢; rwa [List.getLast?_cons_cons] at hl
        have ih := ih (by simp) hok' hl'
        refine ⟨?_, ?_, ?_⟩
        · intro k hk cs hcs
          rw [pend, if_pos rfl, if_neg (by simp)] at hk
          exact ih.2.1 k hk cs hcs
        · intro k hk cs hcs
          rw [pend, if_pos rfl, if_neg (by simp)] at hk
          rw [starstar_twice]
          exact ih.2.1 k hk cs hcs
        · intro k hk cs hcs
          rw [pend, if_pos rfl, if_pos rfl] at hk
          rw [starstar_twice]
          exact ih.2.2 k hk cs hcs
    · have split : ∀ top k, pend top (g :: rest) = some k → ∃ ts kr, segToks g = some ts ∧
          ((rest = [] ∧ kr = []) ∨ (rest ≠ [] ∧ pend (.literal '/') rest = some kr)) ∧ k = top :: (ts ++ kr) := by
        intro top k hk
        cases rest with
        | nil =>
          rw [pend, if_neg hs] at hk
          obtain ⟨ts, hts, rfl⟩ := Option.map_eq_some_iff.1 hk
          exact ⟨ts, [], hts, Or.inl ⟨rfl, rfl⟩, by simp⟩
        | cons g' rest =>
          rw [pend, if_neg hs] at hk
          obtain ⟨ts, hts, hk⟩ := Option.bind_eq_some_iff.1 hk
          obtain ⟨kr, hkr, rfl⟩ := Option.map_eq_some_iff.1 hk
          exact ⟨ts, kr, hts, Or.inr ⟨by simp, hkr⟩, rfl⟩
      refine ⟨?_, ?_, ?_⟩
      · intro k hk cs hcs
        obtain ⟨ts, kr, hts, hkr, rfl⟩ := split _ k hk
        rw [lit]
        exact body hs ts kr hts hkr cs hcs
      · intro k hk cs hcs
        obtain ⟨ts, kr, hts, hkr, rfl⟩ := split _ k hk
        rw [recursiveZeroOrMore_iff, ← dirs_match (g :: rest) (by simp) (ts ++ kr) (body hs ts kr hts hkr) cs hcs]
      · intro k hk cs hcs
        obtain ⟨ts, kr, hts, hkr, rfl⟩ := split _ k hk
        have : plainMatch (.recursivePrefix :: (ts ++ kr)) (joinWith ['/'] cs) =
            matchTokens (.recursivePrefix :: (ts ++ kr)) (joinWith ['/'] cs) := by
          unfold plainMatch
          rw [if_neg]
          intro h
          exact nonempty ts kr hts hkr (List.cons.inj h).2
        rw [this, recursivePrefix_iff,
          ← dirs_match (g :: rest) (by simp) (ts ++ kr) (body hs ts kr hts hkr) cs hcs]

theorem segToks_noPrefix (g : Text) (ts : List Token) (h : segToks g = some ts) :
    Token.recursivePrefix ∉ ts := by
  induction g using segToks.induct generalizing ts with
  | case1 => cases h; simp
  | case2 cs ih =>
    unfold segToks at h
    rw [if_pos rfl] at h
    obtain ⟨ts', ht, rfl⟩ := Option.map_eq_some_iff.1 h
    simp [ih ts' ht]
  | case3 cs _ ih =>
    unfold segToks at h
    rw [if_neg (by decide), if_pos rfl] at h
    obtain ⟨ts', ht, rfl⟩ := Option.map_eq_some_iff.1 h
    simp [ih ts' ht]
  | case4 => unfold segToks at h; simp at h
  | case5 d ds _ _ ih =>
    unfold segToks at h
    rw [if_neg (by decide), if_neg (by decide), if_pos rfl] at h
    obtain ⟨ts', ht, rfl⟩ := Option.map_eq_some_iff.1 h
    simp [ih ts' ht]
  | case6 c cs h1 h2 h3 h4 =>
    unfold segToks at h
    rw [if_neg h1, if_neg h2, if_neg h3, if_pos h4] at h; cases h
  | case7 c cs h1 h2 h3 h4 ih =>
    unfold segToks at h
    rw [if_neg h1, if_neg h2, if_neg h3, if_neg h4] at h
    obtain ⟨ts', ht, rfl⟩ := Option.map_eq_some_iff.1 h
    simp [ih ts' ht]

/-- A whole glob compiles, and matches a path as its parts match the components. -/
theorem whole_match (segs : List Text) (hne : segs ≠ []) (hok : SegsOk segs) (hl : LastOk segs) :
    ∃ k, parseFrom [] none (joinWith ['/'] segs) = some k ∧
      ∀ cs, PathOk cs → (plainMatch k (joinWith ['/'] cs) = true ↔ PathMatch segs cs) := by
  have pend_some : ∀ (l : List Text), SegsOk l → ∀ top, ∃ k, pend top l = some k := by
    intro l
    induction l with
    | nil => intro _ top; exact ⟨_, rfl⟩
    | cons g rest ih =>
      intro hok top
      obtain ⟨ts, hts⟩ := segOk_toks g (hok g (by simp)).2
      cases rest with
      | nil =>
        rw [pend]
        split
        · exact ⟨_, rfl⟩
        · exact ⟨_, by rw [hts]; rfl⟩
      | cons g' rest =>
        have ih := ih fun x hx => hok x (List.mem_cons_of_mem _ hx)
        rw [pend]
        split
        · exact ih _
        · obtain ⟨k, hk⟩ := ih (.literal '/')
          exact ⟨_, by rw [hts, hk]; rfl⟩
  rw [parse_whole segs hne hok]
  cases segs with
  | nil => exact absurd rfl hne
  | cons g rest =>
    have hg := hok g (by simp)
    obtain ⟨ts, hts⟩ := segOk_toks g hg.2
    have nopre : ∀ k' : List Token, ts ++ k' ≠ [.recursivePrefix] ∨ ts = [] := by
      intro k'
      cases hts' : ts with
      | nil => right; rfl
      | cons t ts' =>
        left
        intro h
        have : Token.recursivePrefix ∈ ts := by
          rw [hts']; rw [List.cons_append, List.cons.injEq] at h; simp [h.1]
        exact segToks_noPrefix g ts hts this
    cases rest with
    | nil =>
      rw [wholeToks]
      by_cases hs : g = starstar
      · rw [if_pos hs, hs]
        exact ⟨_, rfl, fun cs hcs => ⟨fun _ => pathMatch_last cs hcs.1, fun _ => rfl⟩⟩
      · rw [if_neg hs]
        refine ⟨ts, hts, fun cs hcs => ?_⟩
        have := body_match g [] hs hg.1 ts [] hts (Or.inl ⟨rfl, rfl⟩) cs hcs
        rw [List.append_nil] at this
        rw [← this]
        unfold plainMatch
        rw [if_neg]
        intro h
        exact segToks_noPrefix g ts hts (by rw [h]; simp)
    | cons g' rest =>
      have hok' : SegsOk (g' :: rest) := fun x hx => hok x (List.mem_cons_of_mem _ hx)
      have hl' : LastOk (g' :: rest) := by unfold LastOk at hl ⊢; rwa [List.getLast?_cons_cons] at hl
      have P := pend_ok (g' :: rest) (by simp) hok' hl'
      rw [wholeToks]
      by_cases hs : g = starstar
      · rw [if_pos hs, hs]
        obtain ⟨k, hk⟩ := pend_some (g' :: rest) hok' .recursivePrefix
        exact ⟨k, hk, P.2.2 k hk⟩
      · rw [if_neg hs]
        obtain ⟨k, hk⟩ := pend_some (g' :: rest) hok' (.literal '/')
        refine ⟨ts ++ k, by rw [hts, hk]; rfl, fun cs hcs => ?_⟩
        have := body_match g (g' :: rest) hs hg.1 ts k hts
          (Or.inr ⟨by simp, fun s h => pend_slash _ _ (Or.inl rfl) (by simp) k hk s h, P.1 k hk⟩) cs hcs
        rw [← this]
        unfold plainMatch
        rw [if_neg]
        rcases nopre k with h | h
        · exact h
        · rw [h, List.nil_append]
          rintro rfl
          -- the tokens after a separator do not start with `**/`
          have := pend_slash _ _ (Or.inl rfl) (by simp) _ hk [] (by decide)
          obtain ⟨b, hb⟩ := this
          cases hb

end CM.Glob
