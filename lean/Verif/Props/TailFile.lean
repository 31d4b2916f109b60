import Verif.Model.TailFile
/-! C59: the progress line shows the last line of the log that is not blank. -/
namespace CM.Props
open CM CM.Tail

@[elab_as_elim]
theorem snocInduction {α : Type} {motive : List α → Prop} (l : List α) (nil : motive [])
    (append_singleton : ∀ l a, motive l → motive (l ++ [a])) : motive l := by
  rw [← List.reverse_reverse l]
  induction l.reverse with
  | nil => exact nil
  | cons a l ih => rw [List.reverse_cons]; exact append_singleton _ a ih

/-- All that is written. -/
def written : List Event → Bytes
  | [] => []
  | .write b :: es => b ++ written es
  | .poll :: es => written es

/-- Whole lines. -/
def WholeLines (b : Bytes) : Prop := b = [] ∨ ∃ a, b = a ++ [10]

/-- The last line of a text that is not blank, or nothing if all are. -/
def IsLastLine (lib : Lib) (text l : Text) : Prop :=
  (l = [] ∧ ∀ x ∈ rustLines text, lib.blank x = true) ∨
  ∃ before after, rustLines text = before ++ l :: after ∧ lib.blank l = false ∧ ∀ x ∈ after, lib.blank x = true

/-- Decoding goes on afresh after a line end, as no character contains one. -/
def DecodesLines (lib : Lib) : Prop :=
  lib.decode [] = [] ∧ ∀ a b, lib.decode (a ++ 10 :: b) = lib.decode a ++ '\n' :: lib.decode b

theorem linesFrom_newline (cur a b : Text) : linesFrom cur (a ++ '\n' :: b) = linesFrom cur (a ++ ['\n']) ++ linesFrom [] b := by
  induction a generalizing cur with
  | nil => simp [linesFrom]
  | cons c a ih =>
    rw [List.cons_append, List.cons_append, linesFrom, linesFrom]
    by_cases h : c = '\n'
    · rw [if_pos h, if_pos h, ih, List.cons_append]
    · rw [if_neg h, if_neg h, ih]

theorem wholeLines_append {a b : Bytes} (ha : WholeLines a) (hb : WholeLines b) : WholeLines (a ++ b) := by
  rcases hb with rfl | ⟨b, rfl⟩
  · rwa [List.append_nil]
  · exact .inr ⟨a ++ b, by rw [List.append_assoc]⟩

theorem decode_whole {lib : Lib} (hd : DecodesLines lib) {a : Bytes} (ha : WholeLines a) (b : Bytes) :
    rustLines (lib.decode (a ++ b)) = rustLines (lib.decode a) ++ rustLines (lib.decode b) := by
  rcases ha with rfl | ⟨a, rfl⟩
  · rw [hd.1]; rfl
  · rw [List.append_assoc, List.singleton_append, hd.2, hd.2, hd.1]
    exact linesFrom_newline [] _ _

theorem written_append (es fs : List Event) : written (es ++ fs) = written es ++ written fs := by
  induction es with
  | nil => rfl
  | cons e es ih =>
    cases e with
    | write b => show b ++ written (es ++ fs) = _; rw [ih, ← List.append_assoc]; rfl
    | poll => exact ih

theorem poll_content (lib : Lib) (s : State) : (poll lib s).content = s.content ∧ (poll lib s).position = s.content.length := by
  unfold poll
  dsimp only
  cases ((rustLines (lib.decode (s.content.drop s.position))).filter fun l => !lib.blank l).getLast? <;> exact ⟨rfl, rfl⟩

theorem lastLine_new {lib : Lib} {text l : Text} (h : ((rustLines text).filter fun l => !lib.blank l).getLast? = some l) :
    IsLastLine lib text l := by
  right
  obtain ⟨ys, hys⟩ := List.getLast?_eq_some_iff.1 h
  obtain ⟨l1, l2, h1, h2, h3⟩ := List.filter_eq_append_iff.1 hys
  obtain ⟨m1, m2, e, hm1, hl, hm2⟩ := List.filter_eq_cons_iff.1 h3
  refine ⟨l1 ++ m1, m2, by rw [h1, e, List.append_assoc], ?_, ?_⟩
  · simpa using hl
  · intro x hx
    have := List.filter_eq_nil_iff.1 hm2 x hx
    simpa using this

/-- What holds after whole writes. -/
structure TailInv (lib : Lib) (s : State) : Prop where
  whole : WholeLines s.content
  old : ∃ seen new, s.content = seen ++ new ∧ s.position = seen.length ∧ WholeLines seen ∧ IsLastLine lib (lib.decode seen) s.lastLineSeen

theorem poll_last {lib : Lib} (hd : DecodesLines lib) {s : State} (h : TailInv lib s) :
    IsLastLine lib (lib.decode s.content) (poll lib s).lastLineSeen := by
  obtain ⟨seen, new, h1, h2, h3, h4⟩ := h.old
  unfold poll
  dsimp only
  have e : s.content.drop s.position = new := by rw [h1, h2]; exact List.drop_left
  rw [e]
  cases hl : ((rustLines (lib.decode new)).filter fun l => !lib.blank l).getLast? with
  | some l =>
    dsimp only
    rcases lastLine_new hl with ⟨rfl, _⟩ | ⟨b, a, hb, hn, ha⟩
    · rcases List.mem_filter.1 (List.mem_of_getLast? hl) with ⟨_, hb⟩
      cases hb
    · refine .inr ⟨rustLines (lib.decode seen) ++ b, a, ?_, hn, ha⟩
      rw [h1, decode_whole hd h3, hb, List.append_assoc]
  | none =>
    dsimp only
    have hnil := List.getLast?_eq_none_iff.1 hl
    have hblank : ∀ x ∈ rustLines (lib.decode new), lib.blank x = true := by
      intro x hx
      have := List.filter_eq_nil_iff.1 hnil x hx
      simpa using this
    rw [h1]
    rcases h4 with ⟨e, hall⟩ | ⟨b, a, hb, hn, ha⟩
    · refine .inl ⟨e, fun x hx => ?_⟩
      rw [decode_whole hd h3, List.mem_append] at hx
      exact hx.elim (hall x) (hblank x)
    · refine .inr ⟨b, a ++ rustLines (lib.decode new), ?_, hn, fun x hx => ?_⟩
      · rw [decode_whole hd h3, hb, List.append_assoc, List.cons_append]
      · exact (List.mem_append.1 hx).elim (ha x) (hblank x)

theorem run_snoc (lib : Lib) (es : List Event) (e : Event) : run lib (es ++ [e]) = step lib (run lib es) e := by
  unfold run; rw [List.foldl_append]; rfl

theorem run_content (lib : Lib) (es : List Event) : (run lib es).content = written es := by
  induction es using snocInduction with
  | nil => rfl
  | append_singleton es e ih =>
    rw [run_snoc, written_append]
    cases e with
    | write b => show (run lib es).content ++ b = _; rw [ih]; simp [written]
    | poll => show (poll lib _).content = _; rw [(poll_content lib _).1, ih]; simp [written]

theorem run_inv {lib : Lib} (hd : DecodesLines lib) (es : List Event) (hw : ∀ b, .write b ∈ es → WholeLines b) : TailInv lib (run lib es) := by
  induction es using snocInduction with
  | nil => exact ⟨.inl rfl, [], [], rfl, rfl, .inl rfl, .inl ⟨rfl, by rw [hd.1]; intro x hx; cases hx⟩⟩
  | append_singleton es e ih =>
    have ih := ih fun b hb => hw b (by simp [hb])
    rw [run_snoc]
    cases e with
    | write b =>
      refine ⟨wholeLines_append ih.whole (hw b (by simp)), ?_⟩
      obtain ⟨seen, new, h1, h2, h3, h4⟩ := ih.old
      exact ⟨seen, new ++ b, by show _ ++ b = _; rw [h1, List.append_assoc], h2, h3, h4⟩
    | poll =>
      have hc := poll_content lib (run lib es)
      refine ⟨by show WholeLines (poll lib _).content; rw [hc.1]; exact ih.whole, (run lib es).content, [], ?_, hc.2, ih.whole, poll_last hd ih⟩
      rw [List.append_nil]; exact hc.1

/-- **C59**: if each write consists of whole lines, then asking for the line at any time gives the last
line that is not blank of everything written so far, no matter how writes and questions interleave. -/
theorem C59_last_line (lib : Lib) (hd : DecodesLines lib) (es : List Event) (hw : ∀ b, .write b ∈ es → WholeLines b) :
    IsLastLine lib (lib.decode (written es)) (lastLine lib es) := by
  have := poll_last hd (run_inv hd es hw)
  rwa [run_content] at this

/-- There is only one such line. -/
theorem C59_unique (lib : Lib) (text l l' : Text) (h : IsLastLine lib text l) (h' : IsLastLine lib text l') : l = l' := by
  rcases h with ⟨rfl, h⟩ | ⟨b, a, hb, hn, ha⟩
  · rcases h' with ⟨rfl, _⟩ | ⟨b', a', hb', hn', _⟩
    · rfl
    · have := h l' (by rw [hb']; simp)
      rw [hn'] at this; cases this
  · rcases h' with ⟨rfl, h'⟩ | ⟨b', a', hb', hn', ha'⟩
    · have := h' l (by rw [hb]; simp)
      rw [hn] at this; cases this
    · rw [hb] at hb'
      rcases List.append_eq_append_iff.1 hb' with ⟨c, e1, e2⟩ | ⟨c, e1, e2⟩
      · cases c with
        | nil => cases e2; rfl
        | cons x c =>
          cases e2
          have := ha l' (by simp)
          rw [hn'] at this; cases this
      · cases c with
        | nil => cases e2; rfl
        | cons x c =>
          cases e2
          have := ha' l (by simp)
          rw [hn] at this; cases this

/-- **C59**: without any assumption on the writes, what is shown after a line was seen is that line, or one
from what was written since. -/
theorem C59_never_again (lib : Lib) (es fs : List Event) :
    lastLine lib (es ++ .poll :: fs) = lastLine lib es ∨
    ∃ part, part <:+: written fs ∧ lastLine lib (es ++ .poll :: fs) ∈ rustLines (lib.decode part) ∧
      lib.blank (lastLine lib (es ++ .poll :: fs)) = false := by
  -- the state after each further event
  have hrun : run lib (es ++ .poll :: fs) = fs.foldl (step lib) (poll lib (run lib es)) := by
    unfold run; rw [List.foldl_append]; rfl
  have hstep : ∀ (fs : List Event), ∃ p, p ≤ (written fs).length ∧
      (fs.foldl (step lib) (poll lib (run lib es))).content = (run lib es).content ++ written fs ∧
      (fs.foldl (step lib) (poll lib (run lib es))).position = (run lib es).content.length + p ∧
      ((fs.foldl (step lib) (poll lib (run lib es))).lastLineSeen = lastLine lib es ∨
        ∃ part, part <:+: written fs ∧ (fs.foldl (step lib) (poll lib (run lib es))).lastLineSeen ∈ rustLines (lib.decode part) ∧
          lib.blank (fs.foldl (step lib) (poll lib (run lib es))).lastLineSeen = false) := by
    intro fs
    induction fs using snocInduction with
    | nil =>
      have hc := poll_content lib (run lib es)
      exact ⟨0, Nat.le_refl _, by simpa [written] using hc.1, hc.2, .inl rfl⟩
    | append_singleton fs e ih =>
      obtain ⟨p, h0, h1, h2, h3⟩ := ih
      rw [List.foldl_append]
      generalize fs.foldl (step lib) (poll lib (run lib es)) = s at h1 h2 h3
      have hmono : ∀ part, part <:+: written fs → part <:+: written (fs ++ [e]) := by
        intro part hp
        rw [written_append]
        exact hp.trans (List.prefix_append _ _).isInfix
      cases e with
      | write b =>
        have e : written (fs ++ [.write b]) = written fs ++ b := by rw [written_append]; simp [written]
        refine ⟨p, by rw [e, List.length_append]; omega, ?_, h2, ?_⟩
        · show s.content ++ b = _; rw [h1, e, List.append_assoc]
        · rcases h3 with h3 | ⟨part, h3, h4⟩
          · exact .inl h3
          · exact .inr ⟨part, hmono part h3, h4⟩
      | poll =>
        have e : written (fs ++ [.poll]) = written fs := by rw [written_append]; simp [written]
        have hc := poll_content lib s
        refine ⟨(written fs).length, by rw [e]; exact Nat.le_refl _, by show (poll lib s).content = _; rw [hc.1, h1, e], ?_, ?_⟩
        · show (poll lib s).position = _; rw [hc.2, h1, List.length_append]
        · show (poll lib s).lastLineSeen = _ ∨ ∃ part, _ ∧ (poll lib s).lastLineSeen ∈ _ ∧ lib.blank (poll lib s).lastLineSeen = false
          unfold poll
          dsimp only
          cases hl : ((rustLines (lib.decode (s.content.drop s.position))).filter fun l => !lib.blank l).getLast? with
          | none =>
            dsimp only
            rcases h3 with h3 | ⟨part, h3, h4⟩
            · exact .inl h3
            · exact .inr ⟨part, hmono part h3, h4⟩
          | some l =>
            dsimp only
            obtain ⟨hm, hb⟩ := List.mem_filter.1 (List.mem_of_getLast? hl)
            refine .inr ⟨s.content.drop s.position, ?_, hm, by simpa using hb⟩
            rw [h1, h2, e, List.drop_append, List.drop_eq_nil_of_le (by omega), List.nil_append]
            exact (List.drop_suffix _ _).isInfix
  have := (hstep (fs ++ [.poll])).choose_spec.2.2.2
  rw [List.foldl_append] at this
  have e : written (fs ++ [.poll]) = written fs := by rw [written_append]; simp [written]
  rw [e] at this
  unfold lastLine
  rw [hrun]
  exact this

/-- ASCII, for examples. -/
def sampleLib : Lib := { decode := fun b => b.map fun x => Char.ofNat x.toNat, isSpace := fun c => c == ' ' || c == '\n' || c == '\r' }

example : DecodesLines sampleLib := ⟨rfl, fun a b => by simp [sampleLib]⟩
/-- `"a\nb\n"`, `" \n"`, `"c\n"` -/
example : [lastLine sampleLib [.write [97, 10, 98, 10]], lastLine sampleLib [.write [97, 10, 98, 10], .poll, .write [32, 10]],
    lastLine sampleLib [.write [97, 10, 98, 10], .poll, .write [32, 10], .write [99, 10]], lastLine sampleLib []] =
    ["b".toList, "b".toList, "c".toList, []] := by decide
/-- With half a line written, it shows half lines. -/
example : [lastLine sampleLib [.write [97]], lastLine sampleLib [.write [97], .poll, .write [98, 10]]] = ["a".toList, "b".toList] := by decide

end CM.Props
