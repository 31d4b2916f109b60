import Verif.Props.GlobBytes
/-! C40: alternatives in globs. `{a,b}` is as good as one glob with `a` and one with `b`. -/
namespace CM.Props
open CM Spec Glob

/-- The token of a character that is not special otherwise. -/
def tokenOf (c : Char) : Token := if c = '*' then .zeroOrMore else if c = '?' then .any else .literal c

/-- What is below on the stack does not matter if there is something on it. -/
theorem parse_frame (stk base : List Token) (prev : Option Char) (x : Text) (h : stk ≠ []) :
    parseFrom (stk ++ base) prev x = (parseFrom stk prev x).map (base.reverse ++ ·) := by
  induction stk, prev, x using parseFrom.induct
  all_goals
    unfold parseFrom
    simp_all

theorem parse_up_frame (stk : List Token) (base : List Part) (prev : Option Char) (x : Text) (h : stk ≠ []) :
    ∀ ts, parseFrom stk prev x = some ts → parseParts .plain (up stk ++ base) [] prev x = some (base.reverse ++ up ts) := by
  induction stk, prev, x using parseFrom.induct
  all_goals
    intro ts h
    unfold parseFrom at h
    unfold parseParts
    simp_all [up, finish, lastStar_up]
  all_goals (subst h; simp)

theorem segOk_escape (c : Char) (t : Text) : segOk ('\\' :: c :: t) = segOk t := by
  conv => lhs; unfold segOk
  rw [if_pos rfl]

theorem segOk_backslash : segOk ['\\'] = false := by decide

theorem parse_some (toks : List Token) (prev : Option Char) (x : Text) (h : segOk x = true) :
    ∃ ts, parseFrom toks prev x = some ts := by
  induction toks, prev, x using parseFrom.induct
  all_goals
    unfold parseFrom
    simp_all [segOk_escape, segOk_backslash, segOk_cons]

theorem notEnd {c : Char} {t : Text} (h : ∀ x, c :: t ≠ x ++ ['*']) : ∀ x, t ≠ x ++ ['*'] :=
  fun x e => h (c :: x) (by rw [e]; rfl)

theorem run_step {f f' : Text → Option (List Token)} {g g' : Text → Option (List Part)} (hf : ∀ r, f r = f' r)
    (hg : ∀ r, g r = g' r)
    (h : ∃ t p, ∀ r, f' r = parseFrom t p r ∧ g' r = parseParts .plain (up t) [] p r) :
    ∃ t p, ∀ r, f r = parseFrom t p r ∧ g r = parseParts .plain (up t) [] p r := by
  obtain ⟨t, p, h⟩ := h
  exact ⟨t, p, fun r => ⟨(hf r).trans (h r).1, (hg r).trans (h r).2⟩⟩

/-- Text up to which both parsers get, whatever follows. -/
theorem parse_run (toks : List Token) (prev : Option Char) (pre : Text) (h : segOk pre = true) (hl : ∀ x, pre ≠ x ++ ['*']) :
    ∃ toks' prev', ∀ rest, parseFrom toks prev (pre ++ rest) = parseFrom toks' prev' rest ∧
      parseParts .plain (up toks) [] prev (pre ++ rest) = parseParts .plain (up toks') [] prev' rest := by
  induction toks, prev, pre using parseFrom.induct
  case case1 => exact ⟨_, _, fun _ => ⟨rfl, rfl⟩⟩
  case case2 => exact absurd rfl (hl [])
  case case3 => exact absurd rfl (hl ['*'])
  case case6 => exact absurd rfl (hl ['*'])
  case case7 => exact absurd rfl (hl ['*'])
  case case8 => exact absurd rfl (hl ['*'])
  case case16 => simp_all [segOk_backslash]
  case case18 => simp_all [segOk_cons]; try omega
  all_goals
    rename_i ih
    refine run_step (fun r => ?_) (fun r => ?_) (ih ?_ ?_)
    · conv => lhs; unfold parseFrom
      simp_all
    · conv => lhs; unfold parseParts
      simp_all [up, lastStar_up]
    · simp_all [segOk_escape, segOk_cons]
    · first
        | exact notEnd hl
        | exact notEnd (notEnd hl)
        | exact notEnd (notEnd (notEnd hl))

/-- An alternative: without other special characters than `?` and single stars. -/
def AltOk (a : Text) : Prop := (∀ c ∈ ['\\', '[', '{', '}', ','], c ∉ a) ∧ ¬ ['*', '*'] <:+: a

theorem altOk_tail {c : Char} {a : Text} (h : AltOk (c :: a)) : AltOk a :=
  ⟨fun x hx h' => h.1 x hx (List.mem_cons_of_mem _ h'), fun h' => h.2 (h'.trans (List.suffix_cons c a).isInfix)⟩

theorem alt_step (c : Char) (a rest : Text) (h : AltOk (c :: a)) (hr : rest.head? ≠ some '*') (toks : List Token) (cur : List Part)
    (outer : List (List Part)) (prev : Option Char) :
    parseFrom toks prev (c :: (a ++ rest)) = parseFrom (tokenOf c :: toks) (some c) (a ++ rest) ∧
    parseParts .plain cur outer prev (c :: (a ++ rest)) =
      parseParts .plain (.one (.plain (tokenOf c)) :: cur) outer (some c) (a ++ rest) := by
  have hc : ∀ x ∈ ['\\', '[', '{', '}', ','], x ≠ c := fun x hx e => h.1 x hx (by rw [e]; exact List.mem_cons_self)
  by_cases h1 : c = '*'
  · subst h1
    have hn : ∀ d ds, a ++ rest = d :: ds → d ≠ '*' := by
      rintro d ds e rfl
      cases a with
      | nil => rw [List.nil_append] at e; rw [e] at hr; exact hr rfl
      | cons x a =>
        injection e with e _
        exact h.2 ⟨[], a, by rw [e]; rfl⟩
    cases hx : a ++ rest with
    | nil =>
      constructor
      · rw [parseFrom, parseFrom]; rfl
      · rw [parseParts, parseParts]; rfl
    | cons d ds =>
      have hd := hn d ds hx
      constructor
      · conv => lhs; unfold parseFrom
        simp [hd, tokenOf]
      · conv => lhs; unfold parseParts
        simp [hd, tokenOf]
  · have n1 := Ne.symm (hc '\\' (by simp)); have n2 := Ne.symm (hc '[' (by simp)); have n3 := Ne.symm (hc '{' (by simp))
    have n4 := Ne.symm (hc '}' (by simp)); have n5 := Ne.symm (hc ',' (by simp))
    by_cases h2 : c = '?'
    · subst h2
      constructor
      · conv => lhs; unfold parseFrom
        simp [tokenOf]
      · conv => lhs; unfold parseParts
        simp [tokenOf]
    · constructor
      · conv => lhs; unfold parseFrom
        simp [tokenOf, h1, h2, n1, n2, n3, n4]
      · conv => lhs; unfold parseParts
        simp [tokenOf, h1, h2, n1, n2, n3, n4, n5]

/-- An alternative is parsed byte by byte. -/
theorem parse_alt (a rest : Text) (h : AltOk a) (hr : rest.head? ≠ some '*') (prev : Option Char) :
    ∃ prev', (∀ toks, parseFrom toks prev (a ++ rest) = parseFrom ((a.map tokenOf).reverse ++ toks) prev' rest) ∧
    ∀ cur outer, parseParts .plain cur outer prev (a ++ rest) =
      parseParts .plain (up (a.map tokenOf).reverse ++ cur) outer prev' rest := by
  induction a generalizing prev with
  | nil => exact ⟨prev, fun _ => rfl, fun _ _ => rfl⟩
  | cons c a ih =>
    obtain ⟨p, ih1, ih2⟩ := ih (altOk_tail h) (some c)
    refine ⟨p, fun toks => ?_, fun cur outer => ?_⟩
    · rw [List.cons_append, (alt_step c a rest h hr toks [] [] prev).1, ih1]
      simp
    · rw [List.cons_append, (alt_step c a rest h hr [] cur outer prev).2, ih2]
      simp [up]

def itemsOf (a : Text) : List Item := (a.map tokenOf).map .plain

theorem parse_joined (as : List Text) (hne : as ≠ []) (h : ∀ a ∈ as, AltOk a) (dones : List (List Part)) (base : List Part)
    (prev : Option Char) (post : Text) :
    parseParts .plain [] (dones ++ [base]) prev (joinWith [','] as ++ '}' :: post) =
      parseParts .plain (.alts (as.reverse.map itemsOf ++ dones.map fun l => l.reverse.filterMap Part.item?) :: base) [] (some '}') post := by
  have hi : ∀ a : Text, (up (a.map tokenOf).reverse).reverse.filterMap Part.item? = itemsOf a := by
    intro a
    unfold up itemsOf
    rw [← List.map_reverse, List.reverse_reverse]
    induction a with
    | nil => rfl
    | cons c a ih => simp only [List.map_cons, List.filterMap_cons, Part.item?] at ih ⊢; rw [ih]
  have hi' : ∀ a : Text, ((up (a.map tokenOf).reverse).filterMap Part.item?).reverse = itemsOf a := fun a => by
    rw [← List.filterMap_reverse]; exact hi a
  induction as generalizing dones prev with
  | nil => exact absurd rfl hne
  | cons a as ih =>
    cases as with
    | nil =>
      obtain ⟨p, _, h2⟩ := parse_alt a ('}' :: post) (h a (by simp)) (by simp) prev
      show parseParts .plain [] (dones ++ [base]) prev (a ++ '}' :: post) = _
      rw [h2, List.append_nil]
      conv => lhs; unfold parseParts
      simp only [List.getLast?_append, List.getLast?_singleton, Option.some_or, List.dropLast_concat]
      simp [hi']
    | cons b as =>
      obtain ⟨p, _, h2⟩ := parse_alt a (',' :: (joinWith [','] (b :: as) ++ '}' :: post)) (h a (by simp)) (by simp) prev
      have e : joinWith [','] (a :: b :: as) ++ '}' :: post = a ++ ',' :: (joinWith [','] (b :: as) ++ '}' :: post) := by
        simp [joinWith]
      rw [e, h2, List.append_nil]
      conv => lhs; unfold parseParts
      simp only [show ¬ (',' = '*') by decide, show ¬ (',' = '?') by decide, show ¬ (',' = '\\') by decide, show ¬ (',' = '[') by decide,
        show ¬ (',' = '{') by decide, show ¬ (',' = '}') by decide, if_false]
      rw [if_pos ⟨trivial, by simp⟩]
      have := ih (by simp) (fun x hx => h x (by simp [hx])) (up (a.map tokenOf).reverse :: dones) (some ',')
      rw [List.cons_append] at this
      rw [this]
      simp [hi']

/-- What follows the alternatives is parsed without regard to what is before. -/
theorem parse_post (post : Text) (h : segOk post = true) (hh : post.head? ≠ some '*') :
    ∃ Q, (∀ toks prev, parseFrom toks prev post = some (toks.reverse ++ Q)) ∧
      ∀ base prev, parseParts .plain base [] prev post = some (base.reverse ++ up Q) := by
  have fin : ∀ (t : Token) (c : Char) (cs : Text), segOk cs = true →
      (∀ toks prev, parseFrom toks prev post = parseFrom (t :: toks) (some c) cs) →
      (∀ base prev, parseParts .plain base [] prev post = parseParts .plain (.one (.plain t) :: base) [] (some c) cs) →
      ∃ Q, (∀ toks prev, parseFrom toks prev post = some (toks.reverse ++ Q)) ∧
        ∀ base prev, parseParts .plain base [] prev post = some (base.reverse ++ up Q) := by
    intro t c cs hs h1 h2
    obtain ⟨Q, hQ⟩ := parse_some [t] (some c) cs hs
    refine ⟨Q, fun toks prev => ?_, fun base prev => ?_⟩
    · rw [h1]
      have := parse_frame [t] toks (some c) cs (by simp)
      rw [hQ] at this
      exact this
    · rw [h2]
      exact parse_up_frame [t] base (some c) cs (by simp) Q hQ
  cases post with
  | nil => exact ⟨[], fun toks _ => by rw [parseFrom, List.append_nil], fun base _ => by simp [parseParts, finish, up]⟩
  | cons c cs =>
    have h1 : c ≠ '*' := fun e => hh (by rw [e]; rfl)
    by_cases h2 : c = '?'
    · subst h2
      refine fin .any '?' cs (by simpa [segOk_cons] using h) (fun toks prev => ?_) fun base prev => ?_
      · conv => lhs; unfold parseFrom
        simp
      · conv => lhs; unfold parseParts
        simp
    · by_cases h3 : c = '\\'
      · subst h3
        cases cs with
        | nil => simp [segOk_backslash] at h
        | cons d ds =>
          rw [segOk_escape] at h
          refine fin (.literal d) d ds h (fun toks prev => ?_) fun base prev => ?_
          · conv => lhs; unfold parseFrom
            simp
          · conv => lhs; unfold parseParts
            simp
      · rw [segOk_cons h3] at h
        simp only [Bool.and_eq_true, bne_iff_ne] at h
        refine fin (.literal c) c cs h.2 (fun toks prev => ?_) fun base prev => ?_
        · conv => lhs; unfold parseFrom
          simp [h1, h2, h3, h.1.1.1, h.1.1.2, h.1.2]
        · conv => lhs; unfold parseParts
          simp [h1, h2, h3, h.1.1.1, h.1.1.2, h.1.2]

/-- The glob with alternatives, and those with one of them in its place. -/
theorem parse_alts (pre post : Text) (as : List Text) (hne : as ≠ []) (ha : ∀ a ∈ as, AltOk a) (h1 : segOk pre = true)
    (h2 : ∀ x, pre ≠ x ++ ['*']) (h3 : segOk post = true) (h4 : post.head? ≠ some '*') :
    ∃ T Q, parseParts .plain [] [] none (pre ++ '{' :: (joinWith [','] as ++ '}' :: post)) =
        some (up T ++ .alts (as.reverse.map itemsOf) :: up Q) ∧
      ∀ a ∈ as, parseFrom [] none (pre ++ (a ++ post)) = some (T ++ (a.map tokenOf ++ Q)) := by
  obtain ⟨toks, p, hrun⟩ := parse_run [] none pre h1 h2
  obtain ⟨Q, hQ1, hQ2⟩ := parse_post post h3 h4
  refine ⟨toks.reverse, Q, ?_, fun a haa => ?_⟩
  · have := (hrun ('{' :: (joinWith [','] as ++ '}' :: post))).2
    rw [show up ([] : List Token) = [] from rfl] at this
    rw [this]
    conv => lhs; unfold parseParts
    simp only [show ¬ ('{' = '*') by decide, show ¬ ('{' = '?') by decide, show ¬ ('{' = '\\') by decide, show ¬ ('{' = '[') by decide,
      if_false, if_true]
    have := parse_joined as hne ha [] (up toks) (some '{') post
    rw [List.nil_append] at this
    rw [this, hQ2]
    simp [up]
  · rw [(hrun _).1]
    obtain ⟨p', h5, _⟩ := parse_alt a post (ha a haa) h4 p
    rw [h5, hQ1]
    simp

theorem skipping_additive {α : Type} (p : Char → Bool) (l : List α) (f : α → Text → Bool) (k : Text → Bool)
    (hk : ∀ s, k s = true ↔ ∃ a ∈ l, f a s = true) (s : Text) :
    skipping p k s = true ↔ ∃ a ∈ l, skipping p (f a) s = true := by
  simp only [skipping_iff, hk]
  constructor
  · rintro ⟨x, y, h1, h2, a, ha, h3⟩
    exact ⟨a, ha, x, y, h1, h2, h3⟩
  · rintro ⟨a, ha, x, y, h1, h2, h3⟩
    exact ⟨x, y, h1, h2, a, ha, h3⟩

theorem afterSlash_additive {α : Type} (l : List α) (f : α → Text → Bool) (k : Text → Bool)
    (hk : ∀ s, k s = true ↔ ∃ a ∈ l, f a s = true) (s : Text) :
    afterSlash k s = true ↔ ∃ a ∈ l, afterSlash (f a) s = true := by
  cases s with
  | nil => simp [afterSlash]
  | cons c s =>
    simp only [afterSlash, Bool.and_eq_true, hk]
    constructor
    · rintro ⟨h, a, ha, h'⟩; exact ⟨a, ha, h, h'⟩
    · rintro ⟨a, ha, h, h'⟩; exact ⟨h, a, ha, h'⟩

/-- Matching one of several continuations. -/
theorem matchOne_additive {α : Type} (l : List α) (f : α → Text → Bool) (k : Text → Bool)
    (hk : ∀ s, k s = true ↔ ∃ a ∈ l, f a s = true) (t : Item) (s : Text) :
    matchOne k t s = true ↔ ∃ a ∈ l, matchOne (f a) t s = true := by
  have h1 := afterSlash_additive l f k hk
  have h2 := fun p => skipping_additive p l f k hk
  have h3 := fun p => skipping_additive p l _ _ h1
  have h4 := afterSlash_additive l _ _ (h2 fun _ => true)
  have h5 := afterSlash_additive l _ _ (h3 fun _ => true)
  cases t with
  | plain t =>
    cases t with
    | literal c =>
      cases s with
      | nil => simp [matchOne]
      | cons d s =>
        simp only [matchOne, Bool.and_eq_true, hk]
        constructor
        · rintro ⟨h, a, ha, h'⟩; exact ⟨a, ha, h, h'⟩
        · rintro ⟨a, ha, h, h'⟩; exact ⟨h, a, ha, h'⟩
    | any =>
      cases s with
      | nil => simp [matchOne]
      | cons d s =>
        simp only [matchOne, Bool.and_eq_true, hk]
        constructor
        · rintro ⟨h, a, ha, h'⟩; exact ⟨a, ha, h, h'⟩
        · rintro ⟨a, ha, h, h'⟩; exact ⟨h, a, ha, h'⟩
    | zeroOrMore => exact h2 _ s
    | recursivePrefix =>
      simp only [matchOne, Bool.or_eq_true, hk, h1, h3]
      constructor
      · rintro ((⟨a, ha, h⟩ | ⟨a, ha, h⟩) | ⟨a, ha, h⟩)
        · exact ⟨a, ha, Or.inl (Or.inl h)⟩
        · exact ⟨a, ha, Or.inl (Or.inr h)⟩
        · exact ⟨a, ha, Or.inr h⟩
      · rintro ⟨a, ha, (h | h) | h⟩
        · exact Or.inl (Or.inl ⟨a, ha, h⟩)
        · exact Or.inl (Or.inr ⟨a, ha, h⟩)
        · exact Or.inr ⟨a, ha, h⟩
    | recursiveSuffix => exact h4 s
    | recursiveZeroOrMore =>
      simp only [matchOne, Bool.or_eq_true, h1, h5]
      constructor
      · rintro (⟨a, ha, h⟩ | ⟨a, ha, h⟩)
        · exact ⟨a, ha, Or.inl h⟩
        · exact ⟨a, ha, Or.inr h⟩
      · rintro ⟨a, ha, h | h⟩
        · exact Or.inl ⟨a, ha, h⟩
        · exact Or.inr ⟨a, ha, h⟩
  | oneOf neg ranges =>
    cases s with
    | nil => simp [matchOne]
    | cons d s =>
      simp only [matchOne, Bool.and_eq_true, hk]
      constructor
      · rintro ⟨h, a, ha, h'⟩; exact ⟨a, ha, h, h'⟩
      · rintro ⟨a, ha, h, h'⟩; exact ⟨h, a, ha, h'⟩

theorem matchSeq_plain (ts : List Token) (ps : List Part) : matchSeq (matchParts ps) (ts.map .plain) = matchParts (up ts ++ ps) := by
  induction ts with
  | nil => rfl
  | cons t ts ih =>
    funext s
    show matchOne (matchSeq (matchParts ps) (ts.map .plain)) (.plain t) s = matchOne (matchParts (up ts ++ ps)) (.plain t) s
    rw [ih]

/-- The alternatives match as the globs with one of them in their place do. -/
theorem match_alts (T Q : List Token) (as : List Text) (hne : as ≠ []) (ha : ∀ a ∈ as, a ≠ []) (s : Text) :
    matchParts (up T ++ .alts (as.reverse.map itemsOf) :: up Q) s = true ↔
      ∃ a ∈ as, matchTokens (T ++ (a.map tokenOf ++ Q)) s = true := by
  have e : ∀ x y : List Token, up (x ++ y) = up x ++ up y := fun x y => by unfold up; rw [List.map_append]
  have base : ∀ s, matchParts (.alts (as.reverse.map itemsOf) :: up Q) s = true ↔
      ∃ a ∈ as, matchParts (up (a.map tokenOf ++ Q)) s = true := by
    intro s
    have hz : ((as.reverse.map itemsOf).all (·.isEmpty)) = false := by
      obtain ⟨a, haa⟩ := List.exists_mem_of_ne_nil as hne
      rw [List.all_eq_false]
      refine ⟨itemsOf a, List.mem_map.2 ⟨a, List.mem_reverse.2 haa, rfl⟩, ?_⟩
      have := ha a haa
      cases a with
      | nil => exact absurd rfl this
      | cons _ _ => simp [itemsOf]
    rw [matchParts, hz, if_neg (by simp)]
    simp only [List.any_eq_true, List.mem_map, List.mem_reverse, Bool.and_eq_true, Bool.not_eq_true']
    constructor
    · rintro ⟨_, ⟨a, haa, rfl⟩, _, h⟩
      rw [itemsOf, matchSeq_plain] at h
      exact ⟨a, haa, by rw [e]; exact h⟩
    · rintro ⟨a, haa, h⟩
      refine ⟨_, ⟨a, haa, rfl⟩, ?_, ?_⟩
      · have := ha a haa
        cases a with
        | nil => exact absurd rfl this
        | cons _ _ => simp [itemsOf]
      · rw [itemsOf, matchSeq_plain, ← e]; exact h
  have : ∀ s, matchParts (up T ++ .alts (as.reverse.map itemsOf) :: up Q) s = true ↔
      ∃ a ∈ as, matchParts (up T ++ up (a.map tokenOf ++ Q)) s = true := by
    induction T with
    | nil => exact base
    | cons t T ih => exact fun s => matchOne_additive as _ _ ih (.plain t) s
  rw [this]
  simp only [← e, match_up]

theorem one_alts (pre post : Text) (as : List Text) (hne : as ≠ []) (ha : ∀ a ∈ as, a ≠ [] ∧ AltOk a) (h1 : segOk pre = true)
    (h2 : ∀ x, pre ≠ x ++ ['*']) (h3 : segOk post = true) (h4 : post.head? ≠ some '*') :
    ∃ ps, parseParts .plain [] [] none (pre ++ '{' :: (joinWith [','] as ++ '}' :: post)) = some ps ∧
      ∀ s, isMatch ps s = true ↔ ∃ a ∈ as, ∃ k, parseFrom [] none (pre ++ (a ++ post)) = some k ∧ plainMatch k s = true := by
  obtain ⟨T, Q, h5, h6⟩ := parse_alts pre post as hne (fun a h => (ha a h).2) h1 h2 h3 h4
  refine ⟨_, h5, fun s => ?_⟩
  have hn : up T ++ .alts (as.reverse.map itemsOf) :: up Q ≠ [.one (.plain .recursivePrefix)] := by
    intro e
    have : Part.alts (as.reverse.map itemsOf) ∈ [Part.one (.plain .recursivePrefix)] := by rw [← e]; simp
    simp at this
  have hk : ∀ a ∈ as, ∀ s, plainMatch (T ++ (a.map tokenOf ++ Q)) s = matchTokens (T ++ (a.map tokenOf ++ Q)) s := by
    intro a haa s
    unfold plainMatch
    rw [if_neg]
    intro e
    have hne := (ha a haa).1
    cases a with
    | nil => exact hne rfl
    | cons c a =>
      have : tokenOf c ∈ [Token.recursivePrefix] := by rw [← e]; simp
      rw [List.mem_singleton] at this
      unfold tokenOf at this
      split at this
      · cases this
      · split at this <;> cases this
  unfold isMatch
  rw [if_neg hn, match_alts T Q as hne (fun a h => (ha a h).1)]
  constructor
  · rintro ⟨a, haa, h⟩
    exact ⟨a, haa, _, h6 a haa, by rw [hk a haa]; exact h⟩
  · rintro ⟨a, haa, k, hk1, hk2⟩
    rw [h6 a haa] at hk1
    cases hk1
    exact ⟨a, haa, by rw [← hk a haa]; exact hk2⟩

/-- A star among the bytes is one among the characters. -/
theorem utf8_at_star (a x z : Text) (h : utf8 a = x ++ '*' :: z) : ∃ x' z', a = x' ++ '*' :: z' ∧ utf8 x' = x ∧ utf8 z' = z := by
  induction a generalizing x with
  | nil =>
    rw [utf8_nil] at h
    exact absurd h.symm (by simp)
  | cons c a ih =>
    rw [utf8_cons] at h
    have use : ∀ x1, utf8 a = x1 ++ '*' :: z → x = utf8Char c ++ x1 →
        ∃ x' z', c :: a = x' ++ '*' :: z' ∧ utf8 x' = x ∧ utf8 z' = z := by
      intro x1 h1 h2
      obtain ⟨x', z', rfl, h3, h4⟩ := ih x1 h1
      exact ⟨c :: x', z', rfl, by rw [utf8_cons, h3, h2], h4⟩
    rcases List.append_eq_append_iff.1 h with ⟨w, h1, h2⟩ | ⟨w, h1, h2⟩
    · exact use w h2 h1
    · cases w with
      | nil =>
        rw [List.append_nil] at h1
        exact use [] (by rw [List.nil_append]; exact h2.symm) (by rw [List.append_nil]; exact h1.symm)
      | cons y w =>
        injection h2 with h3 h4
        subst h3
        have : '*' = c := mem_utf8Char (by rw [h1]; simp) (by decide)
        subst this
        rw [utf8Char_ascii (by decide)] at h1
        cases x with
        | nil =>
          injection h1 with _ h1
          subst h1
          exact ⟨[], a, rfl, rfl, h4.symm⟩
        | cons y' x =>
          injection h1 with _ h1
          simp at h1

theorem altOk_utf8 {a : Text} (h : AltOk a) : AltOk (utf8 a) := by
  refine ⟨fun c hc h' => ?_, ?_⟩
  · have : c.toNat < 128 := by
      simp only [List.mem_cons, List.not_mem_nil, or_false] at hc
      rcases hc with rfl | rfl | rfl | rfl | rfl <;> decide
    exact h.1 c hc ((mem_utf8 this).1 h')
  · rintro ⟨x, y, e⟩
    have : utf8 a = x ++ '*' :: ('*' :: y) := by rw [← e]; simp
    obtain ⟨x', z', rfl, _, h2⟩ := utf8_at_star a x _ this
    obtain ⟨x2, z2, rfl, h3, _⟩ := utf8_at_star z' [] y (by rw [h2]; rfl)
    have : x2 = [] := utf8_inj (by rw [h3]; rfl)
    subst this
    exact h.2 ⟨x', z2, by simp⟩

theorem utf8_not_end {pre : Text} (h : ∀ x, pre ≠ x ++ ['*']) : ∀ x, utf8 pre ≠ x ++ ['*'] := by
  intro x e
  obtain ⟨x', z', rfl, _, h2⟩ := utf8_at_star pre x [] e
  have : z' = [] := utf8_inj (by rw [h2]; rfl)
  subst this
  exact h x' rfl

theorem utf8_not_start {post : Text} (h : post.head? ≠ some '*') : (utf8 post).head? ≠ some '*' := by
  intro e
  cases hp : utf8 post with
  | nil => rw [hp] at e; cases e
  | cons c t =>
    rw [hp] at e
    injection e with e
    have : utf8 post = [] ++ '*' :: t := by rw [hp, e]; rfl
    obtain ⟨x', z', rfl, h2, _⟩ := utf8_at_star post [] t this
    have : x' = [] := utf8_inj (by rw [h2]; rfl)
    subst this
    exact h rfl

theorem joinComma_utf8 (p : List Text) : utf8 (joinWith [','] p) = joinWith [','] (p.map utf8) := by
  induction p with
  | nil => rfl
  | cons a p ih =>
    cases p with
    | nil => rfl
    | cons b p =>
      simp only [joinWith, List.map_cons] at ih ⊢
      rw [utf8_append, utf8_append, ih]
      rfl

/-- What the glob is put between by `adjusted`. -/
def around (slash : Prop) [Decidable slash] (pre post : Text) : List (Text × Text) :=
  if slash then [(pre, post)] else [("**/".toList ++ pre, post), ("**/".toList ++ pre, post ++ "/**".toList)]

theorem adjusted_around (slash : Prop) [Decidable slash] (pre x post : Text) (h : '/' ∈ pre ++ (x ++ post) ↔ slash) :
    adjusted (pre ++ (x ++ post)) = (around slash pre post).map fun q => q.1 ++ (x ++ q.2) := by
  unfold adjusted around
  by_cases hs : slash
  · rw [if_pos hs, if_pos (h.2 hs)]; rfl
  · rw [if_neg hs, if_neg fun h' => hs (h.1 h')]
    simp

/-- Among other parts of a glob, `mid` is as good as one of the others. -/
def Stands (mid : Text) (as : List Text) : Prop :=
  ∀ pre post, segOk pre = true → (∀ x, pre ≠ x ++ ['*']) → segOk post = true → post.head? ≠ some '*' →
    ∃ ps, parseParts .plain [] [] none (pre ++ (mid ++ post)) = some ps ∧
      ∀ s, isMatch ps s = true ↔ ∃ a ∈ as, ∃ k, parseFrom [] none (pre ++ (a ++ post)) = some k ∧ plainMatch k s = true

theorem all_mid (mid : Text) (as : List Text) (hm : Stands mid as) (L : List (Text × Text))
    (hL : ∀ q ∈ L, segOk q.1 = true ∧ (∀ x, q.1 ≠ x ++ ['*']) ∧ segOk q.2 = true ∧ q.2.head? ≠ some '*') :
    ∃ sets : List (List Part),
      (∀ gs : List Text, gs.map utf8 = L.map (fun q => q.1 ++ (mid ++ q.2)) → parseAll gs = some sets) ∧
      ∀ s, (sets.any fun ps => isMatch ps s) = true ↔
        ∃ a ∈ as, ∃ q ∈ L, ∃ k, parseFrom [] none (q.1 ++ (a ++ q.2)) = some k ∧ plainMatch k s = true := by
  induction L with
  | nil =>
    refine ⟨[], fun gs h => ?_, fun s => by simp⟩
    rw [List.map_nil, List.map_eq_nil_iff] at h
    rw [h]; rfl
  | cons q L ih =>
    obtain ⟨sets, h1, h2⟩ := ih fun x hx => hL x (by simp [hx])
    obtain ⟨g1, g2, g3, g4⟩ := hL q (by simp)
    obtain ⟨ps, h3, h4⟩ := hm q.1 q.2 g1 g2 g3 g4
    refine ⟨ps :: sets, fun gs h => ?_, fun s => ?_⟩
    · rw [List.map_cons] at h
      obtain ⟨g, gs, rfl, e, h⟩ := List.map_eq_cons_iff.1 h
      have hp : parse g = some ps := by
        unfold parse
        rw [e, ← h3]
      rw [parseAll, hp, h1 gs h]
      rfl
    · rw [List.any_cons, Bool.or_eq_true, h4, h2]
      constructor
      · rintro (⟨a, haa, k, hk⟩ | ⟨a, haa, q', hq, k, hk⟩)
        · exact ⟨a, haa, q, by simp, k, hk⟩
        · exact ⟨a, haa, q', by simp [hq], k, hk⟩
      · rintro ⟨a, haa, q', hq, k, hk⟩
        rcases List.mem_cons.1 hq with rfl | hq
        · exact Or.inl ⟨a, haa, k, hk⟩
        · exact Or.inr ⟨a, haa, q', hq, k, hk⟩

theorem parseBytes_any (gs : List Text) (ks : List (List Token)) (h : parseBytes gs = some ks) (s : Text) :
    (ks.any fun k => plainMatch k s) = true ↔ ∃ g ∈ gs, ∃ k, parseFrom [] none g = some k ∧ plainMatch k s = true := by
  induction gs generalizing ks with
  | nil => cases h; simp
  | cons g gs ih =>
    rw [parseBytes] at h
    obtain ⟨t, ht, h⟩ := Option.bind_eq_some_iff.1 h
    obtain ⟨ts, hts, h⟩ := Option.bind_eq_some_iff.1 h
    cases h
    rw [List.any_cons, Bool.or_eq_true, ih ts hts]
    constructor
    · rintro (h | ⟨g', hg, k, hk⟩)
      · exact ⟨g, by simp, t, ht, h⟩
      · exact ⟨g', by simp [hg], k, hk⟩
    · rintro ⟨g', hg, k, hk⟩
      rcases List.mem_cons.1 hg with rfl | hg
      · rw [ht] at hk
        obtain ⟨h1, h2⟩ := hk
        cases h1
        exact Or.inl h2
      · exact Or.inr ⟨g', hg, k, hk⟩

theorem segOk_append (a b : Text) (h : segOk a = true) : segOk (a ++ b) = segOk b := by
  induction a using segOk.induct with
  | case1 => rfl
  | case2 => simp [segOk_backslash] at h
  | case3 d ds ih => rw [segOk_escape] at h; rw [List.cons_append, List.cons_append, segOk_escape]; exact ih h
  | case4 c cs hc ih =>
    rw [segOk_cons hc] at h
    simp only [Bool.and_eq_true, bne_iff_ne] at h
    rw [List.cons_append, segOk_cons hc, ih h.2]
    simp [h.1.1.1, h.1.1.2, h.1.2]

theorem slash_same {pre post mid : Text} {as : List Text} (hs : '/' ∈ pre ++ post ∨ ('/' ∉ mid ∧ ∀ a ∈ as, '/' ∉ a)) :
    ∀ a ∈ as, '/' ∈ pre ++ (a ++ post) ↔ '/' ∈ pre ++ (mid ++ post) := by
  intro a haa
  rcases hs with hs | ⟨h1, h2⟩
  · rw [List.mem_append] at hs
    simp only [List.mem_append]
    constructor <;> exact fun _ => hs.imp id Or.inr
  · have := h2 a haa
    simp [h1, this]

theorem glob_mid (pre post mid : Text) (as : List Text) (hm : Stands (utf8 mid) (as.map utf8))
    (h1 : segOk pre = true) (h2 : ∀ x, pre ≠ x ++ ['*']) (h3 : segOk post = true) (h4 : post.head? ≠ some '*')
    (hs : ∀ a ∈ as, '/' ∈ pre ++ (a ++ post) ↔ '/' ∈ pre ++ (mid ++ post)) (hok : ∀ a ∈ as, GlobOk (pre ++ (a ++ post))) :
    ∃ sets, buildGlobSet [pre ++ (mid ++ post)] = some (some sets) ∧
      ∀ p, PathOk p → (setMatches sets (joinWith ['/'] p) = true ↔ ∃ a ∈ as, GlobMatches (pre ++ (a ++ post)) p) := by
  let slash : Prop := '/' ∈ pre ++ (mid ++ post)
  have hmid : ∀ a : Text, a = mid ∨ a ∈ as → ('/' ∈ utf8 pre ++ (utf8 a ++ utf8 post) ↔ slash) := by
    intro a haa
    rw [← utf8_append, ← utf8_append, mem_utf8 (by decide)]
    rcases haa with rfl | haa
    · exact Iff.rfl
    · exact hs a haa
  have hL : ∀ q ∈ around slash (utf8 pre) (utf8 post),
      segOk q.1 = true ∧ (∀ x, q.1 ≠ x ++ ['*']) ∧ segOk q.2 = true ∧ q.2.head? ≠ some '*' := by
    have b1 := segOk_utf8 pre h1
    have b2 := utf8_not_end h2
    have b3 := segOk_utf8 post h3
    have b4 := utf8_not_start h4
    have c1 : segOk ("**/".toList ++ utf8 pre) = true := by rw [segOk_append _ _ (by decide)]; exact b1
    have c2 : ∀ x, "**/".toList ++ utf8 pre ≠ x ++ ['*'] := by
      intro x e
      rcases List.eq_nil_or_concat (utf8 pre) with hp | ⟨l, c, hp⟩
      · rw [hp, List.append_nil] at e
        have := (List.append_inj' (show ("**".toList ++ ['/'] : Text) = x ++ ['*'] from e) rfl).2
        exact absurd this (by decide)
      · rw [List.concat_eq_append] at hp
        rw [hp, ← List.append_assoc] at e
        have := (List.append_inj' e rfl).2
        rw [this] at hp
        exact b2 l hp
    have c3 : segOk (utf8 post ++ "/**".toList) = true := by rw [segOk_append _ _ b3]; decide
    have c4 : (utf8 post ++ "/**".toList).head? ≠ some '*' := by
      cases hp : utf8 post with
      | nil => decide
      | cons c t => rw [hp] at b4; exact b4
    intro q hq
    unfold around at hq
    split at hq
    · rw [List.mem_singleton] at hq; subst hq; exact ⟨b1, b2, b3, b4⟩
    · rcases List.mem_cons.1 hq with rfl | hq
      · exact ⟨c1, c2, b3, b4⟩
      · rw [List.mem_singleton] at hq; subst hq; exact ⟨c1, c2, c3, c4⟩
  have hslash : ∀ a ∈ as, '/' ∈ utf8 pre ++ (utf8 a ++ utf8 post) ↔ slash := fun a h => hmid a (Or.inr h)
  obtain ⟨sets, g1, g2⟩ := all_mid _ _ hm (around slash (utf8 pre) (utf8 post)) hL
  refine ⟨sets, ?_, fun p hp => ?_⟩
  · unfold buildGlobSet
    rw [if_neg (by simp), List.flatMap_cons, List.flatMap_nil, List.append_nil,
      g1 _ (by rw [adjusted_utf8, utf8_append, utf8_append, adjusted_around slash _ _ _ (hmid mid (Or.inl rfl))])]
    rfl
  · unfold setMatches
    rw [g2]
    constructor
    · rintro ⟨a, haa, q, hq, hk⟩
      obtain ⟨x, hx, rfl⟩ := List.mem_map.1 haa
      obtain ⟨ks, h5, h6⟩ := one_glob_bytes (utf8 (pre ++ (x ++ post))) (globOk_utf8 (hok x hx))
      refine ⟨x, hx, ?_⟩
      unfold GlobMatches
      rw [← h6 _ (pathOk_utf8 hp), parseBytes_any _ _ h5, utf8_append, utf8_append, adjusted_around slash _ _ _ (hslash x hx)]
      rw [joinWith_utf8] at hk
      exact ⟨_, List.mem_map.2 ⟨q, hq, rfl⟩, hk⟩
    · rintro ⟨x, hx, h⟩
      obtain ⟨ks, h5, h6⟩ := one_glob_bytes (utf8 (pre ++ (x ++ post))) (globOk_utf8 (hok x hx))
      unfold GlobMatches at h
      rw [← h6 _ (pathOk_utf8 hp), parseBytes_any _ _ h5, utf8_append, utf8_append, adjusted_around slash _ _ _ (hslash x hx)] at h
      obtain ⟨g, hg', hk⟩ := h
      obtain ⟨q, hq, rfl⟩ := List.mem_map.1 hg'
      rw [← joinWith_utf8] at hk
      exact ⟨_, List.mem_map.2 ⟨x, hx, rfl⟩, q, hq, hk⟩

/-- **C40.** A glob with alternatives matches a path exactly if one of the globs does that have one of
them in their place. -/
theorem C40_alternatives (pre post : Text) (as : List Text) (hne : as ≠ []) (ha : ∀ a ∈ as, a ≠ [] ∧ AltOk a)
    (h1 : segOk pre = true) (h2 : ∀ x, pre ≠ x ++ ['*']) (h3 : segOk post = true) (h4 : post.head? ≠ some '*')
    (hs : '/' ∈ pre ++ post ∨ ∀ a ∈ as, '/' ∉ a) (hok : ∀ a ∈ as, GlobOk (pre ++ (a ++ post))) :
    ∃ sets, buildGlobSet [pre ++ "{".toList ++ joinWith ",".toList as ++ "}".toList ++ post] = some (some sets) ∧
      ∀ p, PathOk p → (setMatches sets (joinWith ['/'] p) = true ↔ ∃ a ∈ as, GlobMatches (pre ++ (a ++ post)) p) := by
  have hb : utf8 ("{".toList ++ (joinWith ",".toList as ++ "}".toList)) = '{' :: (joinWith [','] (as.map utf8) ++ ['}']) := by
    rw [← joinComma_utf8, utf8_append, utf8_append, utf8_ascii (show ∀ c ∈ "{".toList, c.toNat < 128 by decide),
      utf8_ascii (show ∀ c ∈ "}".toList, c.toNat < 128 by decide)]
    simp
  have ej : ∀ l : List Text, '/' ∈ joinWith [','] l → ∃ a ∈ l, '/' ∈ a := by
    intro l
    induction l with
    | nil => simp [joinWith]
    | cons a l ih =>
      cases l with
      | nil => simp [joinWith]
      | cons b l =>
        rw [joinWith]
        intro h
        rcases List.mem_append.1 h with h | h
        · rcases List.mem_append.1 h with h | h
          · exact ⟨a, by simp, h⟩
          · simp at h
        · obtain ⟨x, hx, h⟩ := ih h
          exact ⟨x, List.mem_cons_of_mem _ hx, h⟩
  have := glob_mid pre post ("{".toList ++ (joinWith ",".toList as ++ "}".toList)) as ?_ h1 h2 h3 h4 ?_ hok
  · simpa only [List.append_assoc] using this
  · rw [hb]
    intro pre post h1 h2 h3 h4
    obtain ⟨ps, h5, h6⟩ := one_alts pre post (as.map utf8) (by simpa using hne)
      (by
        intro a haa
        obtain ⟨x, hx, rfl⟩ := List.mem_map.1 haa
        exact ⟨fun e => (ha x hx).1 (utf8_inj e), altOk_utf8 (ha x hx).2⟩) h1 h2 h3 h4
    exact ⟨ps, by rw [← h5]; simp, h6⟩
  · refine slash_same (hs.imp id fun hs => ⟨fun h => ?_, hs⟩)
    rcases List.mem_append.1 h with h | h
    · exact absurd h (by decide)
    · rcases List.mem_append.1 h with h | h
      · obtain ⟨a, haa, h⟩ := ej as h
        exact hs a haa h
      · exact absurd h (by decide)

/-- The hypotheses are met by `src/{lib,b*}.rs`, which matches what `src/lib.rs` and `src/b*.rs` match. -/
example : ∃ sets, buildGlobSet ["src/{lib,b*}.rs".toList] = some (some sets) ∧
    ∀ p, PathOk p → (setMatches sets (joinWith ['/'] p) = true ↔
      ∃ a ∈ ["lib".toList, "b*".toList], GlobMatches ("src/".toList ++ (a ++ ".rs".toList)) p) := by
  refine C40_alternatives "src/".toList ".rs".toList ["lib".toList, "b*".toList] (by decide) ?_ (by decide) ?_ (by decide)
    (by decide) (Or.inl (by decide)) ?_
  · intro a h
    simp only [List.mem_cons, List.not_mem_nil, or_false] at h
    rcases h with rfl | rfl
    · exact ⟨by decide, by unfold AltOk; decide⟩
    · exact ⟨by decide, by unfold AltOk; decide⟩
  · intro x e
    exact absurd (List.append_inj' (show ("src".toList ++ ['/'] : Text) = x ++ ['*'] from e) rfl).2 (by decide)
  · intro a h
    simp only [List.mem_cons, List.not_mem_nil, or_false] at h
    rcases h with rfl | rfl <;> (unfold GlobOk; decide +kernel)

/-- And by `{a,b}?.rs`, which has no slash. -/
example : ((buildGlobSet ["{a,b}?.rs".toList]).bind id).map (fun sets =>
    ["src/a1.rs", "b2.rs", "src/c1.rs", "a.rs", "a1.rs/x"].map fun p => setMatches sets p.toList) =
    some [true, true, false, false, true] := by decide +kernel

/-- A class matches one byte, a slash too, and an empty alternative is dropped. -/
example : ((buildGlobSet ["src/[a-c]{,x}[!0].rs".toList]).bind id).map (fun sets =>
    ["src/bx1.rs", "src/b1.rs", "src/cx0.rs", "src/dx1.rs", "src/ax/.rs"].map fun p => setMatches sets p.toList) =
    some [true, false, false, false, true] := by decide +kernel

/-- What is not closed is refused. -/
example : [["src/[a-c".toList], ["{a,b".toList], ["{a,{b}}".toList], ["[c-a]".toList]].map buildGlobSet =
    [none, none, none, none] := by decide +kernel

end CM.Props
