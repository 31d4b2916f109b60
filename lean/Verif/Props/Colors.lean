import Verif.Spec.Terminal
import Verif.Props.Texts
/-! C105: colours change nothing but escape sequences on the terminal. -/
namespace CM.Props
open CM CM.Spec CM.Color

/-! ### Reading -/

theorem Displays.append {a a' b b' : Text} (h : Displays a a') (h' : Displays b b') : Displays (a ++ b) (a' ++ b') := by
  induction h with
  | nil => exact h'
  | char hc _ ih => exact .char hc ih
  | @sequence code t u hc _ ih =>
    have : '\x1b' :: '[' :: (code ++ 'm' :: t) ++ b = '\x1b' :: '[' :: (code ++ 'm' :: (t ++ b)) := by simp
    rw [this]
    exact .sequence hc ih

theorem Displays.plain {t : Text} (h : '\x1b' ∉ t) : Displays t t := by
  induction t with
  | nil => exact .nil
  | cons c t ih => exact .char (fun e => h (by simp [e])) (ih fun hm => h (by simp [hm]))

/-- What is shown has no escape sequences, and a text without them is shown as it is. -/
theorem Displays.no_escape {t u : Text} (h : Displays t u) : '\x1b' ∉ u := by
  induction h with
  | nil => simp
  | char hc _ ih => exact fun hm => (List.mem_cons.1 hm).elim (fun e => hc e.symm) ih
  | sequence _ _ ih => exact ih

/-- A text is shown in only one way. -/
theorem Displays.unique {t u u' : Text} (h : Displays t u) (h' : Displays t u') : u = u' := by
  induction h generalizing u' with
  | nil => cases h'; rfl
  | char hc _ ih =>
    cases h' with
    | char _ h' => rw [ih h']
    | sequence _ _ => exact absurd rfl hc
  | @sequence code t u hc _ ih =>
    generalize hx : ('\x1b' :: '[' :: (code ++ 'm' :: t)) = x at h'
    cases h' with
    | nil => cases hx
    | char hc' _ => cases hx; exact absurd rfl hc'
    | @sequence code' t' u' hc' h' =>
      simp only [List.cons.injEq, true_and] at hx
      have key : ∀ (a b : Text) (s s' : Text), (∀ c ∈ a, c.isDigit = true ∨ c = ';') → (∀ c ∈ b, c.isDigit = true ∨ c = ';') →
          a ++ 'm' :: s = b ++ 'm' :: s' → s = s' := by
        intro a
        induction a with
        | nil =>
          intro b s s' _ hb he
          cases b with
          | nil => simpa using he
          | cons y ys =>
            simp only [List.nil_append, List.cons_append, List.cons.injEq] at he
            have := hb y (by simp)
            rw [← he.1] at this
            exact absurd this (by decide)
        | cons x xs ih =>
          intro b s s' ha hb he
          cases b with
          | nil =>
            simp only [List.nil_append, List.cons_append, List.cons.injEq] at he
            have := ha x (by simp)
            rw [he.1] at this
            exact absurd this (by decide)
          | cons y ys =>
            simp only [List.cons_append, List.cons.injEq] at he
            exact ih ys s s' (fun c h => ha c (by simp [h])) (fun c h => hb c (by simp [h])) he.2
      have := key _ _ _ _ hc hc' hx
      subst this
      exact ih h'

theorem digits_decimal (n : Nat) : ∀ c ∈ decimal n, c.isDigit = true ∨ c = ';' := by
  intro c hc
  exact .inl (Nat.isDigit_of_mem_toDigits (by omega) (by omega) hc)

theorem shown_escape (code : Text) (h : ∀ c ∈ code, c.isDigit = true ∨ c = ';') : Displays (escape code) [] := by
  have : escape code = '\x1b' :: '[' :: (code ++ 'm' :: []) := rfl
  rw [this]
  exact .sequence h .nil

theorem codes_digits (s : Style) : ∀ code ∈ s.codes, ∀ c ∈ code, c.isDigit = true ∨ c = ';' := by
  intro code hcode
  unfold Style.codes at hcode
  simp only [List.mem_append] at hcode
  rcases hcode with (h | h) | h
  · split at h
    · rw [List.mem_singleton] at h
      subst h
      split
      · intro c hc
        rcases List.mem_append.1 hc with hc | hc
        · exact (show ∀ c ∈ "38;5;".toList, c.isDigit = true ∨ c = ';' by decide) c hc
        · exact digits_decimal _ c hc
      · exact digits_decimal _
    · cases h
  · split at h
    · rw [List.mem_singleton] at h; subst h; decide
    · cases h
  · split at h
    · rw [List.mem_singleton] at h; subst h; decide
    · cases h

theorem shown_paint (on : Bool) (s : Style) {t : Text} (h : '\x1b' ∉ t) : Displays (paint on s t) t := by
  unfold paint
  split
  · have hc : ∀ codes : List Text, (∀ code ∈ codes, ∀ c ∈ code, c.isDigit = true ∨ c = ';') → Displays (codes.flatMap escape) [] := by
      intro codes
      induction codes with
      | nil => intro _; exact .nil
      | cons x xs ih =>
        intro hx
        rw [List.flatMap_cons]
        exact Displays.append (shown_escape x (hx x (by simp))) (ih fun y hy => hx y (by simp [hy]))
    have h1 := Displays.append (Displays.append (hc s.codes (codes_digits s)) (Displays.plain h))
      (show Displays (if s.codes.isEmpty then [] else escape "0".toList) [] by
        split
        · exact .nil
        · exact shown_escape _ (by decide))
    simpa using h1
  · exact Displays.plain h

/-- The text of parts. -/
def partsText (ps : List (Style × Text)) : Text := ps.flatMap (·.2)

theorem shown_paintAll (on : Bool) (ps : List (Style × Text)) (h : '\x1b' ∉ partsText ps) : Displays (paintAll on ps) (partsText ps) := by
  induction ps with
  | nil => exact .nil
  | cons p ps ih =>
    have h' : '\x1b' ∉ p.2 ++ partsText ps := h
    rw [List.mem_append, not_or] at h'
    exact Displays.append (shown_paint on p.1 h'.1) (ih h'.2)

theorem paint_off (s : Style) (hs : s.force = none) (t : Text) : paint false s t = t := by
  unfold paint; rw [hs]; rfl

theorem parts_describe (m : Mutant) : (styledParts m).map partsText = m.describe := by
  unfold styledParts Mutant.describe
  cases m.genre with
  | fnValue =>
    simp only
    cases m.function with
    | none => rfl
    | some f =>
      simp only [Option.map_some]
      by_cases h : f.returnType = [] <;> simp [h, partsText]
  | matchArmGuard => simp [partsText]
  | matchArm => simp [partsText]
  | binaryOperator | unaryOperator =>
    simp only
    cases m.function <;> by_cases h : m.replacement = [] <;> simp [h, partsText]

theorem parts_unforced (m : Mutant) (ps : List (Style × Text)) (h : styledParts m = some ps) : ∀ p ∈ ps, p.1.force = none := by
  unfold styledParts at h
  cases hg : m.genre <;> rw [hg] at h <;> simp only at h
  · cases hf : m.function with
    | none => rw [hf] at h; cases h
    | some f =>
      rw [hf] at h
      cases h
      by_cases hr : f.returnType = [] <;> simp [hr]
  · cases h
    cases m.function <;> by_cases hr : m.replacement = [] <;> simp [hr]
  · cases h
    cases m.function <;> by_cases hr : m.replacement = [] <;> simp [hr]
  · cases h; simp
  · cases h; simp

theorem paintAll_off (ps : List (Style × Text)) (h : ∀ p ∈ ps, p.1.force = none) : paintAll false ps = partsText ps := by
  induction ps with
  | nil => rfl
  | cons p ps ih =>
    show paint false p.1 p.2 ++ paintAll false ps = p.2 ++ partsText ps
    rw [paint_off _ (h p (by simp)), ih fun q hq => h q (by simp [hq])]

theorem paintAll_unstyled (on : Bool) (ps : List (Style × Text)) : paintAll on (unstyled ps) = partsText ps := by
  induction ps with
  | nil => rfl
  | cons p ps ih =>
    show paint on { p.1 with force := some false } p.2 ++ paintAll on (unstyled ps) = p.2 ++ partsText ps
    rw [ih]; rfl

/-! ### Who decides -/

/-- **C105**: whether there are colours: not if `NO_COLOR` is set, except to `0`; otherwise if `CLICOLOR_FORCE` is set, except to
`0`; otherwise as `--colors` says; and with `auto` as the terminal is. The list of mutants and all other output follow the same
setting. -/
theorem C105_who_decides (noColor force : Option Text) (c : Colors) (detected : Bool) :
    let on := enableConsoleColors (c.forcedValue noColor force) detected
    activeStdout (c.forcedValue noColor force) on = on ∧
    ((∃ v, noColor = some v ∧ v ≠ ['0']) → on = false) ∧
    ((∀ v, noColor = some v → v = ['0']) → (∃ v, force = some v ∧ v ≠ ['0']) → on = true) ∧
    ((∀ v, noColor = some v → v = ['0']) → (∀ v, force = some v → v = ['0']) →
      (c = .always → on = true) ∧ (c = .never → on = false) ∧ (c = .auto → on = detected)) := by
  have hset : ∀ v : Option Text, (∃ x, v = some x ∧ x ≠ ['0']) ↔ v.any (· != "0".toList) = true := by
    intro v
    cases v with
    | none => simp
    | some x => simp
  have hunset : ∀ v : Option Text, (∀ x, v = some x → x = ['0']) ↔ v.any (· != "0".toList) = false := by
    intro v
    cases v with
    | none => simp
    | some x => simp
  simp only [hset, hunset]
  unfold Colors.forcedValue
  refine ⟨?_, fun h => by rw [h]; rfl, fun h h' => by rw [h, h']; rfl, fun h h' => ?_⟩
  · generalize noColor.any (· != "0".toList) = p
    generalize force.any (· != "0".toList) = q
    cases p <;> cases q <;> cases c <;> rfl
  · rw [h, h']
    cases c <;> simp [enableConsoleColors]

example : Colors.forcedValue (some "1".toList) (some "1".toList) .always = some false ∧
    Colors.forcedValue (some "0".toList) (some "1".toList) .never = some true ∧
    Colors.forcedValue none none .auto = none ∧ Colors.forcedValue (some []) none .always = some false := by decide

/-! ### Names -/

/-- **C105**: the names that are written to files and matched with `--re`, and the descriptions in diffs, are without escape
sequences, whatever the setting for colours is. -/
theorem C105_recorded_names (on : Bool) (m : Mutant) :
    (∀ lc, Color.name on m lc = m.name lc) ∧ Color.describeChange on m = m.describe := by
  unfold Color.name Color.describeChange Mutant.name
  rw [← parts_describe]
  simp only [paintAll_unstyled, Option.map_map]
  exact ⟨fun lc => rfl, trivial⟩

theorem styled_off (m : Mutant) (lc : Bool) : toStyledString false m lc = m.styled lc := by
  unfold toStyledString Mutant.styled
  rw [← parts_describe]
  cases h : styledParts m with
  | none => rfl
  | some ps => simp [paintAll_off ps (parts_unforced m ps h)]

/-- The texts are both missing, or the second is what is shown for the first. -/
def DisplaysOption (a b : Option Text) : Prop := (a = none ∧ b = none) ∨ ∃ t u, a = some t ∧ b = some u ∧ Displays t u

theorem shown_styled (on : Bool) (m : Mutant) (lc : Bool) (h : ∀ t, m.styled lc = some t → '\x1b' ∉ t) :
    DisplaysOption (toStyledString on m lc) (m.styled lc) := by
  unfold toStyledString
  unfold Mutant.styled at h ⊢
  rw [← parts_describe] at h ⊢
  cases hp : styledParts m with
  | none => exact .inl ⟨rfl, rfl⟩
  | some ps =>
    have h' := h _ (by rw [hp]; rfl)
    simp only [List.mem_append, not_or] at h'
    refine .inr ⟨_, _, rfl, rfl, ?_⟩
    refine Displays.append (Displays.append (Displays.append (Displays.plain h'.1.1.1) (Displays.plain ?_)) (Displays.plain h'.1.2)) (shown_paintAll on ps h'.2)
    exact h'.1.1.2

theorem styled_is_name (m : Mutant) (lc : Bool) : m.styled lc = m.name lc := by
  unfold Mutant.styled Mutant.name
  cases m.describe with
  | none => rfl
  | some d => cases lc <;> simp

/-- **C105**: the name of a mutant that is shown with colours is its name, with escape sequences; and without colours it is its
name. -/
theorem C105_shown_names (on : Bool) (m : Mutant) (lc : Bool) :
    toStyledString false m lc = m.name lc ∧
    ((∀ t, m.name lc = some t → '\x1b' ∉ t) → DisplaysOption (toStyledString on m lc) (m.name lc)) := by
  rw [← styled_is_name]
  exact ⟨styled_off m lc, shown_styled on m lc⟩

/-! ### What is printed -/

/-- **C105**: the list of mutants with colours shows the list without them. -/
theorem C105_listing (w : World) (forced : Option Bool) (detected : Bool) (lc diff : Bool) (ms : List Mutant)
    (plain : Text) (hp : listMutantsText w lc diff ms = some plain) :
    let on := enableConsoleColors forced detected
    (on = false → listMutants w on forced lc diff ms = some plain) ∧
    ('\x1b' ∉ plain → ∃ t, listMutants w on forced lc diff ms = some t ∧ Displays t plain) := by
  intro on
  have hact : activeStdout forced on = on := by cases forced <;> rfl
  induction ms generalizing plain with
  | nil => cases hp; exact ⟨fun _ => rfl, fun _ => ⟨[], rfl, .nil⟩⟩
  | cons m ms ih =>
    obtain ⟨n, hn, hp⟩ := Option.bind_eq_some_iff.1 hp
    obtain ⟨rest, hr, hp⟩ := Option.bind_eq_some_iff.1 hp
    cases hp
    obtain ⟨ih1, ih2⟩ := ih rest hr
    have hs := C105_shown_names on m lc
    refine ⟨fun hoff => ?_, fun hesc => ?_⟩
    · unfold listMutants
      rw [hact, hoff]
      rw [hoff] at ih1
      simp only [Bool.false_eq_true, if_false]
      rw [(C105_recorded_names false m).1 lc, hn, ih1 rfl]
      rfl
    · simp only [List.mem_append, not_or] at hesc
      obtain ⟨t, ht, hsh⟩ := ih2 hesc.2
      have hname : ∃ x, (if activeStdout forced on then toStyledString on m lc else Color.name on m lc) = some x ∧ Displays x n := by
        split
        · rcases hs.2 (fun t h => by rw [hn] at h; cases h; exact hesc.1.1.1) with ⟨_, h⟩ | ⟨t, u, h1, h2, h3⟩
          · rw [hn] at h; cases h
          · rw [hn] at h2; cases h2; exact ⟨t, h1, h3⟩
        · exact ⟨n, by rw [(C105_recorded_names on m).1 lc, hn], Displays.plain hesc.1.1.1⟩
      obtain ⟨x, hx, hxs⟩ := hname
      refine ⟨x ++ "\n".toList ++ (if diff then w.unifiedDiff m ++ "\n".toList else []) ++ t, ?_, ?_⟩
      · unfold listMutants
        split at hx <;> rename_i hc <;> simp [hc, hx, ht]
      · exact Displays.append (Displays.append (Displays.append hxs (Displays.plain hesc.1.1.2)) (Displays.plain hesc.1.2)) hsh

theorem outcome_text (k : SummaryOutcome) : (styleOutcome k).2 = k.printed := by cases k <;> rfl

theorem shown_joinWith {sep : Text} (hsep : '\x1b' ∉ sep) : ∀ {as bs : List Text}, as.length = bs.length →
    (∀ i (h : i < as.length) (h' : i < bs.length), Displays as[i] bs[i]) → Displays (joinWith sep as) (joinWith sep bs)
  | [], [], _, _ => .nil
  | [a], [b], _, h => h 0 (by simp) (by simp)
  | a :: a' :: as, b :: b' :: bs, hl, h => by
    show Displays (a ++ sep ++ joinWith sep (a' :: as)) (b ++ sep ++ joinWith sep (b' :: bs))
    refine Displays.append (Displays.append (h 0 (by simp) (by simp)) (Displays.plain hsep)) (shown_joinWith hsep (by simpa using hl) ?_)
    intro i h1 h2
    exact h (i + 1) (by simpa using h1) (by simpa using h2)

theorem not_mem_joinWith {sep : Text} {c : Char} : ∀ {as : List Text}, c ∉ joinWith sep as → ∀ a ∈ as, c ∉ a
  | [], _, a, h => by cases h
  | [x], hc, a, h => by rw [List.mem_singleton.1 h]; exact hc
  | x :: y :: rest, hc, a, h => by
    have hc' : c ∉ x ++ sep ++ joinWith sep (y :: rest) := hc
    simp only [List.mem_append, not_or] at hc'
    rcases List.mem_cons.1 h with rfl | h
    · exact hc'.1.1
    · exact not_mem_joinWith hc'.2 a h

theorem shown_times (on : Bool) (opts : PrintOptions) (o : ScenarioOutcome) (h : '\x1b' ∉ o.times opts) :
    Displays (times on opts o) (o.times opts) := by
  unfold times ScenarioOutcome.times at *
  split
  · rename_i hs
    rw [if_pos hs] at h
    simp only [List.mem_append, not_or] at h
    refine Displays.append (Displays.plain h.1) (shown_joinWith (by decide) (by simp) fun i h1 h2 => ?_)
    simp only [List.getElem_map]
    have hi := not_mem_joinWith h.2 _ (List.mem_map_of_mem (List.getElem_mem (by simpa using h1 : i < o.phaseResults.length)))
    simp only [List.mem_append, not_or] at hi
    exact Displays.append (Displays.append (shown_paint on _ hi.1.1) (Displays.plain hi.1.2)) (shown_paint on _ hi.2)
  · exact .nil

theorem times_off (opts : PrintOptions) (o : ScenarioOutcome) : times false opts o = o.times opts := by
  unfold times ScenarioOutcome.times
  simp only [paint_off cyan rfl, paint_off dim rfl]

theorem scenario_off (sc : Scenario) : styleScenario false sc = sc.styled := by
  cases sc with
  | baseline => rfl
  | mutant m => exact styled_off m true

theorem shown_scenario (on : Bool) (sc : Scenario) (h : ∀ t, sc.styled = some t → '\x1b' ∉ t) :
    DisplaysOption (styleScenario on sc) sc.styled := by
  cases sc with
  | baseline => exact .inr ⟨_, _, rfl, rfl, Displays.plain (by decide)⟩
  | mutant m => exact shown_styled on m true h

theorem outcome_unforced (k : SummaryOutcome) : (styleOutcome k).1.force = none := by cases k <;> rfl

/-- **C105**: the line that is printed for a result with colours shows the line without them, and nothing is printed with colours
exactly if nothing is printed without them. -/
theorem C105_results (on : Bool) (opts : PrintOptions) (o : ScenarioOutcome) :
    Color.message false opts o = o.message opts ∧
    (o.message opts = none → Color.message on opts o = none) ∧
    (o.message opts = some none → Color.message on opts o = some none) ∧
    ∀ plain, o.message opts = some (some plain) → '\x1b' ∉ plain →
      ∃ t, Color.message on opts o = some (some t) ∧ Displays t plain := by
  unfold Color.message ScenarioOutcome.message
  cases hsum : o.summary with
  | none => exact ⟨rfl, fun _ => rfl, (fun h => by cases h), fun p h => by cases h⟩
  | some k =>
    cases hh : o.hidden opts with
    | none => exact ⟨rfl, fun _ => rfl, (fun h => by cases h), fun p h => by cases h⟩
    | some hid =>
      cases hid with
      | true => exact ⟨rfl, (fun h => by cases h), fun _ => rfl, fun p h => by cases h⟩
      | false =>
        simp only [Option.bind_eq_bind, Option.bind_some, Bool.false_eq_true, if_false]
        refine ⟨?_, ?_, ?_, ?_⟩
        · rw [scenario_off, times_off, outcome_text, paint_off _ (outcome_unforced k)]
        · intro h
          cases hn : o.scenario.styled with
          | some n => rw [hn] at h; cases h
          | none =>
            have : styleScenario on o.scenario = none := by
              cases hsc : o.scenario with
              | baseline => rw [hsc] at hn; cases hn
              | mutant m =>
                rw [hsc] at hn
                rcases shown_styled on m true (fun t ht => by rw [show m.styled true = none from hn] at ht; cases ht) with h | ⟨_, _, _, h, _⟩
                · exact h.1
                · rw [show m.styled true = none from hn] at h; cases h
            rw [this]; rfl
        · intro h
          cases hn : o.scenario.styled with
          | some n => rw [hn] at h; cases h
          | none => rw [hn] at h; cases h
        · intro plain h hesc
          obtain ⟨n, hn, h⟩ := Option.bind_eq_some_iff.1 h
          cases h
          simp only [List.mem_append, not_or] at hesc
          rcases shown_scenario on o.scenario (fun t ht => by rw [hn] at ht; cases ht; exact hesc.1.1.1.2) with ⟨_, h⟩ | ⟨t, u, h1, h2, h3⟩
          · rw [hn] at h; cases h
          · rw [hn] at h2; cases h2
            rw [h1]
            refine ⟨_, rfl, ?_⟩
            rw [outcome_text]
            exact Displays.append (Displays.append (Displays.append (Displays.append (Displays.append (shown_paint on _ hesc.1.1.1.1.1) (Displays.plain hesc.1.1.1.1.2)) h3) (shown_times on opts o hesc.1.1.2))
              (Displays.plain hesc.1.2)) (Displays.plain hesc.2)

theorem decimal_plain (n : Nat) : '\x1b' ∉ decimal n := by
  intro h
  rcases digits_decimal n _ h with h | h
  · exact absurd h (by decide)
  · exact absurd h (by decide)

theorem shown_if {c : Prop} [Decidable c] {a b : Text} (h : Displays a b) : Displays (if c then a else []) (if c then b else []) := by
  split
  · exact h
  · exact .nil

theorem shown_count (on : Bool) (n : Nat) : Displays (paint on cyan (decimal n)) (decimal n) := shown_paint on _ (decimal_plain n)

theorem row_parts (secs : Text) (tail : Option Text) (sc : Scenario) (p : Option Phase) (plain : Text)
    (hp : View.row secs tail sc p = some plain) (hesc : '\x1b' ∉ plain) :
    ∃ n, sc.styled = some n ∧ '\x1b' ∉ n ∧ '\x1b' ∉ secs ∧ (∀ l, tail = some l → '\x1b' ∉ l) := by
  unfold View.row at hp
  obtain ⟨n, hn, rfl⟩ := Option.map_eq_some_iff.1 hp
  simp only [List.mem_append, not_or] at hesc
  have hj := not_mem_joinWith hesc.1
  refine ⟨n, hn, hj n (by simp), hj secs (by simp), fun l hl => ?_⟩
  subst hl
  have := hesc.2
  simp only [List.mem_append, not_or] at this
  exact this.2

/-- **C105**: the lines of the progress display with colours show the ones without them. -/
theorem C105_progress (on : Bool) :
    (∀ time elapsed testing c n, (∀ x, '\x1b' ∉ time x) →
      Displays (Color.bar on time elapsed testing c n) (View.bar time elapsed testing c n) ∧
      Color.bar false time elapsed testing c n = View.bar time elapsed testing c n) ∧
    (∀ secs tail sc p plain, View.row secs tail sc p = some plain → '\x1b' ∉ plain →
      (∃ t, Color.row on secs tail sc p = some t ∧ Displays t plain) ∧ Color.row false secs tail sc p = some plain) ∧
    (∀ secs l, '\x1b' ∉ secs →
      Displays (Color.copyLine on secs l) (Progress.Line.render secs l) ∧ Color.copyLine false secs l = Progress.Line.render secs l) := by
  refine ⟨fun time elapsed testing c n ht => ⟨?_, ?_⟩, fun secs tail sc p plain hp hesc => ⟨?_, ?_⟩, fun secs l hs => ⟨?_, ?_⟩⟩
  · unfold Color.bar View.bar
    refine shown_if ?_
    have w : ∀ k : String, '\x1b' ∉ k.toList → Displays k.toList k.toList := fun k h => Displays.plain h
    have red : ∀ t : Text, '\x1b' ∉ t → Displays (" ".toList ++ paint on { hue := some .red } t) (" ".toList ++ t) := fun t h =>
      Displays.append (w _ (by decide)) (shown_paint on _ h)
    refine Displays.append (Displays.append (Displays.append (Displays.append (Displays.append (Displays.append (Displays.append (Displays.append (Displays.append
      (Displays.append (Displays.append (shown_count on _) (w "/" (by decide))) (shown_count on _)) (w " mutants tested" (by decide))) ?_) ?_) ?_) ?_) ?_) ?_) ?_) ?_
    · refine shown_if ?_
      rw [List.append_assoc _ " ".toList]
      exact Displays.append (Displays.append (w _ (by decide)) (shown_count on _)) (red "MISSED".toList (by decide))
    · refine shown_if ?_
      rw [List.append_assoc _ " ".toList]
      exact Displays.append (Displays.append (w _ (by decide)) (shown_count on _)) (red "timeout".toList (by decide))
    · exact shown_if (Displays.append (Displays.append (w _ (by decide)) (shown_count on _)) (w _ (by decide)))
    · exact shown_if (Displays.append (Displays.append (w _ (by decide)) (shown_count on _)) (w _ (by decide)))
    · exact w _ (by decide)
    · exact shown_paint on _ (ht _)
    · exact w _ (by decide)
    · exact shown_if (Displays.append (Displays.append (w _ (by decide)) (shown_paint on _ (ht _))) (w _ (by decide)))
  · unfold Color.bar View.bar
    have red : ∀ t : Text, paint false { hue := some .red } t = t := paint_off _ rfl
    simp only [paint_off cyan rfl, red]
    have h1 : ∀ a : Text, a ++ " ".toList ++ "MISSED".toList = a ++ " MISSED".toList := fun a => by rw [List.append_assoc]; rfl
    have h2 : ∀ a : Text, a ++ " ".toList ++ "timeout".toList = a ++ " timeout".toList := fun a => by rw [List.append_assoc]; rfl
    rw [h1, h2]
  · obtain ⟨n, hn, h1, h2, h3⟩ := row_parts secs tail sc p plain hp hesc
    rcases shown_scenario on sc (fun t h => by rw [hn] at h; cases h; exact h1) with ⟨_, h⟩ | ⟨t, u, ht, hu, hsh⟩
    · rw [hn] at h; cases h
    rw [hn] at hu; cases hu
    unfold View.row at hp
    rw [hn] at hp
    cases hp
    unfold Color.row
    rw [ht]
    refine ⟨_, rfl, Displays.append (shown_joinWith (by decide) (by simp) ?_) ?_⟩
    · cases p with
      | none =>
        intro i hi hi'
        match i with
        | 0 => exact hsh
        | 1 => exact Displays.plain (t := "...".toList) (by decide)
        | 2 => exact shown_paint on _ h2
      | some p =>
        intro i hi hi'
        match i with
        | 0 => exact shown_paint on _ (by cases p <;> decide)
        | 1 => exact hsh
        | 2 => exact Displays.plain (t := "...".toList) (by decide)
        | 3 => exact shown_paint on _ h2
    · cases tail with
      | none => exact .nil
      | some l =>
        have := Displays.append (Displays.append (Displays.append (Displays.plain (t := "\n".toList) (by decide))
          (shown_paint on cyan (t := "└       ".toList) (by decide))) (Displays.plain (t := " ".toList) (by decide))) (shown_paint on dim (h3 l rfl))
        exact this
  · rw [← hp]
    unfold Color.row View.row
    have bold : ∀ t : Text, paint false { hue := some .cyan, bold := true } t = t := paint_off _ rfl
    simp only [scenario_off, paint_off cyan rfl, paint_off dim rfl, bold]
    cases tail <;> rfl
  · unfold Color.copyLine Progress.Line.render
    have := Displays.append (Displays.append (Displays.append (Displays.append (shown_paint on cyan (t := padTo 8 "copy".toList) (by decide)) (Displays.plain (t := " ".toList) (by decide)))
      (shown_paint on cyan (t := decimal (l.bytes / 1000000) ++ " MB".toList) (by
        simp only [List.mem_append, not_or]; exact ⟨decimal_plain _, by decide⟩))) (Displays.plain (t := " in ".toList) (by decide))) (shown_paint on cyan hs)
    simpa only [List.append_assoc] using this
  · unfold Color.copyLine Progress.Line.render
    simp only [paint_off cyan rfl, List.append_assoc]

/-- **C105**: with colours, every result has them. -/
theorem C105_colored_results (opts : PrintOptions) (o : ScenarioOutcome) (t : Text)
    (h : Color.message true opts o = some (some t)) : '\x1b' ∈ t := by
  unfold Color.message at h
  obtain ⟨k, hk, h⟩ := Option.bind_eq_some_iff.1 h
  obtain ⟨hid, hh, h⟩ := Option.bind_eq_some_iff.1 h
  cases hid with
  | true => cases h
  | false =>
    obtain ⟨n, hn, h⟩ := Option.bind_eq_some_iff.1 h
    cases h
    simp only [List.mem_append]
    refine .inl (.inl (.inl (.inl (.inl ?_))))
    cases k <;> decide

/-- **C105**: with colours, every name that is listed has them, except for that of an arm of a `match`, which says only
`delete match arm`. -/
theorem C105_colored_names (m : Mutant) (lc : Bool) (t : Text) (hg : m.genre ≠ .matchArm)
    (h : Color.toStyledString true m lc = some t) : '\x1b' ∈ t := by
  unfold Color.toStyledString at h
  obtain ⟨ps, hps, rfl⟩ := Option.map_eq_some_iff.1 h
  have hue : ∀ s : Style, ∀ x : Text, s.force = none → s.hue.isSome → '\x1b' ∈ paint true s x := by
    intro s x hf hh
    obtain ⟨y, hy⟩ := Option.isSome_iff_exists.1 hh
    unfold paint
    rw [hf]
    unfold Style.codes
    rw [hy]
    simp [escape]
  have : ∃ p ∈ ps, p.1.force = none ∧ p.1.hue.isSome = true := by
    unfold styledParts at hps
    cases hgen : m.genre with
    | matchArm => exact absurd hgen hg
    | fnValue =>
      rw [hgen] at hps
      obtain ⟨f, _, rfl⟩ := Option.map_eq_some_iff.1 hps
      exact ⟨({ bright := true, hue := some .magenta }, f.functionName), List.mem_append.2 (.inl (List.mem_append.2 (.inl (List.mem_cons_of_mem _ (List.mem_singleton.2 rfl))))), rfl, rfl⟩
    | matchArmGuard =>
      rw [hgen] at hps
      cases hps
      exact ⟨({ hue := some .yellow }, m.replacement), List.mem_cons_of_mem _ (List.mem_singleton.2 rfl), rfl, rfl⟩
    | binaryOperator =>
      rw [hgen] at hps
      cases hps
      exact ⟨({ hue := some .yellow }, originalText m.sourceFile.code m.span), List.mem_append.2 (.inl (List.mem_append.2 (.inl (List.mem_cons_of_mem _ (List.mem_singleton.2 rfl))))), rfl, rfl⟩
    | unaryOperator =>
      rw [hgen] at hps
      cases hps
      exact ⟨({ hue := some .yellow }, originalText m.sourceFile.code m.span), List.mem_append.2 (.inl (List.mem_append.2 (.inl (List.mem_cons_of_mem _ (List.mem_singleton.2 rfl))))), rfl, rfl⟩
  obtain ⟨p, hp, h1, h2⟩ := this
  exact List.mem_append.2 (.inr (List.mem_flatMap.2 ⟨p, hp, hue p.1 p.2 h1 h2⟩))

/-- **C105**: with colours, missed mutants, failures and timeouts are bold and red, what is caught or succeeds is green, and what
cannot be built is blue; then the style ends. The words are padded to 8 columns as they are without colours. -/
theorem C105_outcome_colors (opts : PrintOptions) (o : ScenarioOutcome) (k : SummaryOutcome) (t : Text) (hk : o.summary = some k)
    (h : Color.message true opts o = some (some t)) :
    (k = .missedMutant → "\x1b[31m\x1b[1mMISSED  \x1b[0m ".toList <+: t) ∧
    (k = .failure → "\x1b[31m\x1b[1mFAILED  \x1b[0m ".toList <+: t) ∧
    (k = .timeout → "\x1b[31m\x1b[1mTIMEOUT \x1b[0m ".toList <+: t) ∧
    (k = .caughtMutant → "\x1b[32mcaught  \x1b[0m ".toList <+: t) ∧
    (k = .success → "\x1b[32mok      \x1b[0m ".toList <+: t) ∧
    (k = .unviable → "\x1b[34munviable\x1b[0m ".toList <+: t) := by
  unfold Color.message at h
  obtain ⟨k', hk', h⟩ := Option.bind_eq_some_iff.1 h
  rw [hk] at hk'
  cases hk'
  obtain ⟨hid, hh, h⟩ := Option.bind_eq_some_iff.1 h
  cases hid with
  | true => cases h
  | false =>
    obtain ⟨n, hn, h⟩ := Option.bind_eq_some_iff.1 h
    cases h
    have key : paint true (styleOutcome k).1 (padTo 8 (styleOutcome k).2) ++ " ".toList <+:
        paint true (styleOutcome k).1 (padTo 8 (styleOutcome k).2) ++ " ".toList ++ n ++ times true opts o ++
          (if o.showsLog opts then "\n".toList ++ opts.log o else []) ++ "\n".toList := by
      simp only [List.append_assoc]
      exact (List.prefix_append_right_inj _).2 (List.prefix_append _ _)
    refine ⟨?_, ?_, ?_, ?_, ?_, ?_⟩ <;> rintro rfl <;> exact key

/-- **C105**: with colours, the new body of a function and the new guard of an arm are yellow, at the end of the name; this is what
`tests/colors.rs` looks for. -/
theorem C105_replacement_color (m : Mutant) (lc : Bool) (t : Text) (hg : m.genre = .fnValue ∨ m.genre = .matchArmGuard)
    (h : Color.toStyledString true m lc = some t) :
    " with \x1b[33m".toList ++ m.replacement ++ "\x1b[0m".toList <:+ t := by
  unfold Color.toStyledString at h
  obtain ⟨ps, hps, rfl⟩ := Option.map_eq_some_iff.1 h
  refine List.IsSuffix.trans ?_ (List.suffix_append _ _)
  unfold styledParts at hps
  rcases hg with hgen | hgen <;> rw [hgen] at hps
  · obtain ⟨f, _, rfl⟩ := Option.map_eq_some_iff.1 hps
    have : ∀ ps : List (Style × Text),
        paintAll true (ps ++ [(({} : Style), " with ".toList), ({ hue := some .yellow }, m.replacement)]) =
        paintAll true ps ++ (" with \x1b[33m".toList ++ m.replacement ++ "\x1b[0m".toList) := by
      intro ps
      unfold paintAll
      rw [List.flatMap_append]
      congr 1
      simp [paint, Style.codes, escape, Hue.num, decimal, Nat.toDigits, Nat.toDigitsCore, Nat.digitChar]
    rw [this]
    exact List.suffix_append _ _
  · cases hps
    refine ⟨"replace match guard".toList, ?_⟩
    have : paint true { hue := some .yellow } m.replacement = "\x1b[33m".toList ++ m.replacement ++ "\x1b[0m".toList := rfl
    show _ = "replace match guard with ".toList ++ (paint true { hue := some .yellow } m.replacement ++ [])
    rw [this, List.append_nil]
    rfl

/-- The first mutant of `testdata/small_well_tested`. -/
def factorialMutant : Mutant :=
  { sourceFile := { package := ⟨"cargo-mutants-testdata-small-well-tested".toList, "0.0.0".toList, [], []⟩,
                    path := ["src".toList, "lib.rs".toList], code := [], isTop := true },
    function := some ⟨"factorial".toList, "-> u32".toList, ⟨⟨4, 1⟩, ⟨10, 2⟩⟩⟩, span := ⟨⟨5, 5⟩, ⟨9, 6⟩⟩,
    replacement := "0".toList, genre := .fnValue }

/-- What `tests/colors.rs` looks for in the list is there with colours. -/
example : (Color.toStyledString true factorialMutant true).map String.ofList =
    some "src/lib.rs:5:5: replace \x1b[38;5;13mfactorial\x1b[0m \x1b[35m-> u32\x1b[0m with \x1b[33m0\x1b[0m" := by decide +kernel

example : (Color.toStyledString false factorialMutant true).map String.ofList = some "src/lib.rs:5:5: replace factorial -> u32 with 0" ∧
    (Color.name true factorialMutant true).map String.ofList = some "src/lib.rs:5:5: replace factorial -> u32 with 0" ∧
    factorialMutant.genre ≠ .matchArm := by decide +kernel

example (w : World) : (Color.listMutants w (enableConsoleColors (Colors.forcedValue none (some "1".toList) .never) false)
      (Colors.forcedValue none (some "1".toList) .never) false false [factorialMutant]).map String.ofList =
    some "src/lib.rs: replace \x1b[38;5;13mfactorial\x1b[0m \x1b[35m-> u32\x1b[0m with \x1b[33m0\x1b[0m\n" := by rfl

end CM.Props
