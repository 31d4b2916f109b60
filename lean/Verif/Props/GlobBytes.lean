import Verif.Props.Options
/-! C40: bytes and characters of globs. -/
namespace CM.Props
open CM Spec Glob

/-- Bytes without special meaning match themselves. -/
theorem segMatch_plain (bs : Text) (h : '?' ∉ bs ∧ '*' ∉ bs ∧ '\\' ∉ bs) (g s : Text) :
    SegMatch (bs ++ g) s ↔ ∃ s', s = bs ++ s' ∧ SegMatch g s' := by
  induction bs generalizing s with
  | nil => exact ⟨fun h => ⟨s, rfl, h⟩, fun ⟨s', e, h⟩ => by rw [show s = s' from e]; exact h⟩
  | cons b bs ih =>
    simp only [List.mem_cons, not_or] at h
    have ih := ih ⟨h.1.2, h.2.1.2, h.2.2.2⟩
    constructor
    · intro hm
      rw [List.cons_append] at hm
      generalize hy : bs ++ g = y at hm
      cases hm with
      | one => exact absurd rfl h.1.1
      | none => exact absurd rfl h.2.1.1
      | more => exact absurd rfl h.2.1.1
      | escaped => exact absurd rfl h.2.2.1
      | literal _ _ _ _ hm =>
        subst hy
        obtain ⟨s', e, h'⟩ := (ih _).1 hm
        exact ⟨s', by rw [e]; rfl, h'⟩
    · rintro ⟨s', rfl, h'⟩
      exact .literal b (Ne.symm h.1.1) (Ne.symm h.2.1.1) (Ne.symm h.2.2.1) ((ih _).2 ⟨s', rfl, h'⟩)

theorem segMatch_escape (c : Char) (g s : Text) :
    SegMatch ('\\' :: c :: g) s ↔ ∃ s', s = c :: s' ∧ SegMatch g s' := by
  constructor
  · intro h
    cases h with
    | escaped _ h => exact ⟨_, rfl, h⟩
    | literal _ _ _ h => exact absurd rfl h
  · rintro ⟨s', rfl, h⟩
    exact .escaped c h

/-- The end of some bytes is the rest of a character and then whole characters. -/
theorem utf8_suffix (cont s a b : Text) (hc : ∀ x ∈ cont, isContByte x) (h : cont ++ utf8 s = a ++ b) :
    ∃ t s' cont', s = t ++ s' ∧ b = cont' ++ utf8 s' ∧ ∀ x ∈ cont', isContByte x := by
  induction a generalizing cont s with
  | nil => exact ⟨[], s, cont, rfl, h.symm, hc⟩
  | cons x a ih =>
    cases cont with
    | cons y cont =>
      injection h with _ h
      exact ih cont s (fun z hz => hc z (by simp [hz])) h
    | nil =>
      cases s with
      | nil => cases h
      | cons c s =>
        rw [List.nil_append, utf8_cons] at h
        have : ∃ l bs, utf8Char c = l :: bs ∧ ∀ x ∈ bs, isContByte x := by
          rcases utf8Char_cases c with ⟨_, e⟩ | ⟨_, l, bs, e, _, hbs⟩
          · exact ⟨c, [], e, by simp⟩
          · exact ⟨l, bs, e, hbs⟩
        obtain ⟨l, bs, e, hbs⟩ := this
        rw [e, List.cons_append] at h
        injection h with _ h
        obtain ⟨t, s', cont', rfl, h2, h3⟩ := ih bs s hbs h
        exact ⟨c :: t, s', cont', rfl, h2, h3⟩

/-- What starts with a whole character and with the rest of one has no rest. -/
theorem utf8_starts (cont s : Text) (c : Char) (y : Text) (hc : ∀ x ∈ cont, isContByte x) (h : cont ++ utf8 s = utf8Char c ++ y) :
    ∃ s', s = c :: s' ∧ cont = [] ∧ y = utf8 s' := by
  cases cont with
  | cons x cont =>
    have hx := hc x (by simp)
    unfold isContByte at hx
    rcases utf8Char_cases c with ⟨h1, e⟩ | ⟨_, l, bs, e, hl, _⟩
    · rw [e] at h; injection h with h2 _; rw [h2] at hx; omega
    · rw [e] at h; injection h with h2 _; rw [h2] at hx; omega
  | nil =>
    cases s with
    | nil =>
      cases he : utf8Char c with
      | nil => exact absurd he (utf8Char_ne_nil c)
      | cons _ _ => rw [he] at h; cases h
    | cons d s =>
      rw [List.nil_append, utf8_cons] at h
      obtain ⟨rfl, h'⟩ := utf8Char_prefix _ _ _ _ h
      exact ⟨s, rfl, rfl, h'.symm⟩

theorem utf8Char_plain (c : Char) (h1 : c ≠ '?') (h2 : c ≠ '*') (h3 : c ≠ '\\') : '?' ∉ utf8Char c ∧ '*' ∉ utf8Char c ∧ '\\' ∉ utf8Char c :=
  ⟨fun h => h1 (mem_utf8Char h (by decide)).symm, fun h => h2 (mem_utf8Char h (by decide)).symm, fun h => h3 (mem_utf8Char h (by decide)).symm⟩

/-- The bytes of an escaped character. -/
theorem segMatch_escape_utf8Char (d : Char) (g s : Text) :
    SegMatch ('\\' :: (utf8Char d ++ g)) s ↔ ∃ s', s = utf8Char d ++ s' ∧ SegMatch g s' := by
  rcases utf8Char_cases d with ⟨_, e⟩ | ⟨_, l, bs, e, _, hbs⟩
  · rw [e]; exact segMatch_escape d g s
  · have hp : '?' ∉ bs ∧ '*' ∉ bs ∧ '\\' ∉ bs := by
      refine ⟨fun h => ?_, fun h => ?_, fun h => ?_⟩ <;> exact absurd (hbs _ h).1 (by decide)
    rw [e, List.cons_append, segMatch_escape]
    constructor
    · rintro ⟨s1, rfl, h⟩
      obtain ⟨s', rfl, h2⟩ := (segMatch_plain bs hp g s1).1 h
      exact ⟨s', rfl, h2⟩
    · rintro ⟨s', rfl, h⟩
      exact ⟨_, rfl, (segMatch_plain bs hp g _).2 ⟨s', rfl, h⟩⟩

/-- From bytes to characters, of a part of a glob without `?`. -/
theorem segMatch_of_bytes (n : Nat) (g : Text) (hn : g.length ≤ n) (hq : '?' ∉ g) (cont s : Text) (hc : ∀ x ∈ cont, isContByte x)
    (h : SegMatch (utf8 g) (cont ++ utf8 s)) : SegMatch g s := by
  induction n generalizing g cont s with
  | zero =>
    cases g with
    | nil =>
      rw [utf8_nil] at h
      generalize hx : cont ++ utf8 s = x at h
      cases h
      have : utf8 s = [] := (List.append_eq_nil_iff.1 hx).2
      rw [show s = [] from utf8_inj this]
      exact .nil
    | cons _ _ => simp at hn
  | succ n ih =>
    cases g with
    | nil =>
      rw [utf8_nil] at h
      generalize hx : cont ++ utf8 s = x at h
      cases h
      have : utf8 s = [] := (List.append_eq_nil_iff.1 hx).2
      rw [show s = [] from utf8_inj this]
      exact .nil
    | cons c g =>
      simp only [List.mem_cons, not_or] at hq
      simp only [List.length_cons] at hn
      by_cases h1 : c = '*'
      · subst h1
        rw [utf8_cons, utf8Char_ascii (by decide), List.cons_append, List.nil_append] at h
        obtain ⟨a, b, e, hb⟩ := (segMatch_star _ _).1 h
        obtain ⟨t, s', cont', rfl, rfl, hc'⟩ := utf8_suffix cont s a b hc e
        exact (segMatch_star _ _).2 ⟨t, s', rfl, ih g (by omega) hq.2 cont' s' hc' hb⟩
      · by_cases h2 : c = '\\'
        · subst h2
          cases g with
          | nil =>
            rw [utf8_cons, utf8Char_ascii (by decide), utf8_nil] at h
            generalize hx : cont ++ utf8 s = x at h
            cases h with
            | literal _ _ _ h => exact absurd rfl h
          | cons d g =>
            rw [utf8_cons, utf8Char_ascii (by decide), List.cons_append, List.nil_append, utf8_cons] at h
            obtain ⟨y, e, h⟩ := (segMatch_escape_utf8Char _ _ _).1 h
            obtain ⟨s', rfl, _, rfl⟩ := utf8_starts cont s d y hc e
            simp only [List.mem_cons, not_or, List.length_cons] at hq hn
            exact .escaped d (ih g (by omega) hq.2.2 [] s' (by simp) h)
        · rw [utf8_cons] at h
          obtain ⟨y, e, h⟩ := (segMatch_plain _ (utf8Char_plain c (Ne.symm hq.1) h1 h2) _ _).1 h
          obtain ⟨s', rfl, _, rfl⟩ := utf8_starts cont s c y hc e
          exact .literal c (Ne.symm hq.1) h1 h2 (ih g (by omega) hq.2 [] s' (by simp) h)

theorem segMatch_to_bytes {g s : Text} (h : SegMatch g s) (hq : '?' ∉ g) : SegMatch (utf8 g) (utf8 s) := by
  induction h with
  | nil => exact .nil
  | one => simp at hq
  | none _ ih =>
    rw [utf8_cons, utf8Char_ascii (by decide)]
    exact .none (ih fun h => hq (by simp [h]))
  | more c _ ih =>
    have ih := ih hq
    rw [utf8_cons, utf8Char_ascii (by decide)] at ih ⊢
    obtain ⟨a, b, e, h⟩ := (segMatch_star _ _).1 ih
    exact (segMatch_star _ _).2 ⟨utf8Char c ++ a, b, by rw [utf8_cons, e, List.append_assoc], h⟩
  | escaped c _ ih =>
    rw [utf8_cons, utf8Char_ascii (by decide), utf8_cons, utf8_cons]
    exact (segMatch_escape_utf8Char _ _ _).2 ⟨_, rfl, ih fun h => hq (by simp [h])⟩
  | literal c h1 h2 h3 _ ih =>
    rw [utf8_cons, utf8_cons]
    exact (segMatch_plain _ (utf8Char_plain c h1 h2 h3) _ _).2 ⟨_, rfl, ih fun h => hq (by simp [h])⟩

theorem segMatch_bytes {g : Text} (hq : '?' ∉ g) (s : Text) : SegMatch (utf8 g) (utf8 s) ↔ SegMatch g s :=
  ⟨fun h => segMatch_of_bytes g.length g (Nat.le_refl _) hq [] s (by simp) h, fun h => segMatch_to_bytes h hq⟩

theorem utf8_starstar {g : Text} : utf8 g = starstar ↔ g = starstar :=
  ⟨fun h => utf8_inj (by rw [h]; decide +kernel), fun h => by rw [h]; decide +kernel⟩

theorem pathMatch_bytes {gs : List Text} (hq : ∀ g ∈ gs, '?' ∉ g) (cs : List Text) :
    PathMatch (gs.map utf8) (cs.map utf8) ↔ PathMatch gs cs := by
  constructor
  · intro h
    generalize hG : gs.map utf8 = G at h
    generalize hC : cs.map utf8 = C at h
    induction h generalizing gs cs with
    | nil =>
      rw [List.map_eq_nil_iff.1 hG, List.map_eq_nil_iff.1 hC]
      exact .nil
    | seg h1 h2 _ ih =>
      obtain ⟨g, gs, rfl, rfl, rfl⟩ := List.map_eq_cons_iff.1 hG
      obtain ⟨c, cs, rfl, rfl, rfl⟩ := List.map_eq_cons_iff.1 hC
      exact .seg (fun e => h1 (utf8_starstar.2 e)) ((segMatch_bytes (hq g (by simp)) c).1 h2)
        (ih (fun x hx => hq x (by simp [hx])) cs rfl rfl)
    | noDirs h1 _ ih =>
      obtain ⟨g, gs, rfl, e, rfl⟩ := List.map_eq_cons_iff.1 hG
      rw [utf8_starstar.1 e]
      exact .noDirs (by simpa using h1) (ih (fun x hx => hq x (by simp [hx])) cs rfl hC)
    | moreDirs _ ih =>
      obtain ⟨g, gs, rfl, e, rfl⟩ := List.map_eq_cons_iff.1 hG
      obtain ⟨c, cs, rfl, rfl, rfl⟩ := List.map_eq_cons_iff.1 hC
      have := ih hq cs (by rw [List.map_cons, e]) rfl
      rw [utf8_starstar.1 e] at this ⊢
      exact .moreDirs this
    | last =>
      obtain ⟨g, gs, rfl, e, h⟩ := List.map_eq_cons_iff.1 hG
      obtain ⟨c, cs, rfl, rfl, h'⟩ := List.map_eq_cons_iff.1 hC
      rw [utf8_starstar.1 e, List.map_eq_nil_iff.1 h, List.map_eq_nil_iff.1 h']
      exact .last
  · intro h
    have e : utf8 starstar = starstar := utf8_starstar.2 rfl
    induction h with
    | nil => exact .nil
    | seg h1 h2 _ ih =>
      exact .seg (fun e => h1 (utf8_starstar.1 e)) ((segMatch_bytes (hq _ (by simp)) _).2 h2)
        (ih fun x hx => hq x (by simp [hx]))
    | noDirs h1 _ ih =>
      rw [List.map_cons, e]
      exact .noDirs (by simpa using h1) (ih fun x hx => hq x (by simp [hx]))
    | moreDirs _ ih =>
      have := ih hq
      rw [List.map_cons, e] at this ⊢
      exact .moreDirs this
    | last => rw [List.map_cons, e]; exact .last

theorem mem_of_splitOn {sep : Char} {g s : Text} {x : Char} (hs : s ∈ splitOn sep g) (hx : x ∈ s) : x ∈ g := by
  induction g generalizing s with
  | nil =>
    rw [splitOn, List.mem_singleton] at hs
    rw [hs] at hx; cases hx
  | cons c g ih =>
    rw [splitOn] at hs
    split at hs
    · rcases List.mem_cons.1 hs with rfl | hs
      · cases hx
      · exact List.mem_cons_of_mem _ (ih hs hx)
    · cases h : splitOn sep g with
      | nil => exact absurd h (splitOn_ne_nil _ _)
      | cons l ls =>
        rw [h] at hs
        rcases List.mem_cons.1 hs with rfl | hs
        · rcases List.mem_cons.1 hx with rfl | hx
          · simp
          · exact List.mem_cons_of_mem _ (ih (by rw [h]; simp) hx)
        · exact List.mem_cons_of_mem _ (ih (by rw [h]; simp [hs]) hx)

/-- **C40.** Globs without `?` match characters as they match bytes, whatever characters there are in
the glob and in the path. -/
theorem C40_characters (g : Text) (hq : '?' ∉ g) (p : List Text) : GlobMatches g p ↔ TextMatches g p := by
  unfold GlobMatches TextMatches
  by_cases h : '/' ∈ g
  · rw [if_pos h, if_pos ((mem_utf8 (by decide)).2 h), splitOn_utf8]
    exact pathMatch_bytes (fun s hs h' => hq (mem_of_splitOn hs h')) p
  · rw [if_neg h, if_neg (fun h' => h ((mem_utf8 (by decide)).1 h'))]
    constructor
    · rintro ⟨c, hc, hm⟩
      obtain ⟨x, hx, rfl⟩ := List.mem_map.1 hc
      exact ⟨x, hx, (segMatch_bytes hq x).1 hm⟩
    · rintro ⟨c, hc, hm⟩
      exact ⟨_, List.mem_map.2 ⟨c, hc, rfl⟩, (segMatch_bytes hq c).2 hm⟩

/-- **C40.** So do all globs if glob and path have only ASCII characters. -/
theorem C40_ascii (g : Text) (p : List Text) (hg : ∀ c ∈ g, c.toNat < 128) (hp : ∀ s ∈ p, ∀ c ∈ s, c.toNat < 128) :
    GlobMatches g p ↔ TextMatches g p := by
  unfold GlobMatches
  rw [utf8_ascii hg]
  have : p.map utf8 = p := by
    conv => rhs; rw [← List.map_id p]
    exact List.map_congr_left fun s hs => utf8_ascii (hp s hs)
  rw [this]

/-- **C40.** But `?` is one byte, so it is not one character outside of ASCII: `f?.rs` does not match
`fé.rs`, and `f??.rs` does. -/
theorem C40_question_mark_is_a_byte :
    ¬ GlobMatches "f?.rs".toList ["fé.rs".toList] ∧ TextMatches "f?.rs".toList ["fé.rs".toList] ∧
    GlobMatches "f??.rs".toList ["fé.rs".toList] := by
  have ok : ∀ g : Text, '/' ∉ g → segOk g = true → g ≠ [] → GlobOk g := by
    intro g h1 h2 h3
    unfold GlobOk
    rw [splitOn_noSep '/' g h1]
    exact ⟨by simpa using h3, by simpa using h2⟩
  have path : PathOk ["fé.rs".toList] := ⟨by simp, by decide +kernel⟩
  refine ⟨?_, ?_, ?_⟩
  · intro h
    obtain ⟨sets, h1, m⟩ := C40_globs ["f?.rs".toList] (by simp)
      (by intro g hg; rw [List.mem_singleton] at hg; rw [hg]; exact ok _ (by decide +kernel) (by decide +kernel) (by decide +kernel))
    have h2 := (m _ path).2 ⟨_, List.mem_singleton.2 rfl, h⟩
    have e : ((buildGlobSet ["f?.rs".toList]).bind id).map (fun s => setMatches s (joinWith ['/'] ["fé.rs".toList])) = some false := by
      decide +kernel
    rw [h1] at e
    have : setMatches sets (joinWith ['/'] ["fé.rs".toList]) = false := Option.some.inj e
    rw [this] at h2
    cases h2
  · refine Or.elim (Classical.em ('/' ∈ "f?.rs".toList)) (fun h => absurd h (by decide +kernel)) fun h => ?_
    unfold TextMatches
    rw [if_neg h]
    exact ⟨_, List.mem_singleton.2 rfl, .literal 'f' (by decide) (by decide) (by decide) (.one 'é'
      (.literal '.' (by decide) (by decide) (by decide) (.literal 'r' (by decide) (by decide) (by decide)
        (.literal 's' (by decide) (by decide) (by decide) .nil))))⟩
  · obtain ⟨sets, h1, m⟩ := C40_globs ["f??.rs".toList] (by simp)
      (by intro g hg; rw [List.mem_singleton] at hg; rw [hg]; exact ok _ (by decide +kernel) (by decide +kernel) (by decide +kernel))
    have e : ((buildGlobSet ["f??.rs".toList]).bind id).map (fun s => setMatches s (joinWith ['/'] ["fé.rs".toList])) = some true := by
      decide +kernel
    rw [h1] at e
    have e : setMatches sets (joinWith ['/'] ["fé.rs".toList]) = true := Option.some.inj e
    obtain ⟨g, hg, h⟩ := (m _ path).1 e
    rw [List.mem_singleton] at hg
    rwa [hg] at h

/-- A glob and a path outside of ASCII: the hypothesis of `C40_characters` and what it says. -/
example : '?' ∉ "*é*".toList ∧ TextMatches "*é*".toList ["café.rs".toList] := by
  refine ⟨by decide +kernel, ?_⟩
  unfold TextMatches
  rw [if_neg (by decide +kernel)]
  exact ⟨_, List.mem_singleton.2 rfl, (segMatch_star _ _).2 ⟨"caf".toList, "é.rs".toList, by decide +kernel,
    .literal 'é' (by decide) (by decide) (by decide) ((segMatch_star _ _).2 ⟨".rs".toList, [], by decide +kernel, .nil⟩)⟩⟩

end CM.Props
