import Verif.Props.Reads
/-! C95: what is printed is read as the tokens that were printed. -/
namespace CM.Props
open CM CM.Spec

/-- What has been read of the text so far. -/
inductive Standing (m : Mode) (E : List Lexeme) : Option Piece → List Piece → Prop
  | none : m = .start → E = [] → Standing m E none []
  | word (w : Text) (pre : List Piece) : m.closed = true → (∀ t, m ≠ .mark t) → (∀ t, m = .word t → t = w) →
      (∀ t, m = .point t → w.getLast? = some '.') → (E ++ m.flush).flatMap Lexeme.parts = pre → Standing m E (some (.word w)) pre
  | mark (c : Char) (pre : List Piece) : (m = .start ∨ ∃ t, m = .mark t ∧ t.getLast? = some c) →
      (E ++ m.flush).flatMap Lexeme.parts = pre → Standing m E (some (.mark c)) pre
  | point (w : Text) (pre : List Piece) : m = .point (w ++ ['.']) → w.head?.any Char.isDigit = true → '.' ∉ w →
      E.flatMap Lexeme.parts ++ [.word w, .mark '.'] = pre → Standing m E (some (.mark '.')) pre
  | tick (pre : List Piece) : m = .tick ['\''] → E.flatMap Lexeme.parts ++ [.mark '\''] = pre → Standing m E (some (.mark '\'')) pre

theorem parts_word {w : Text} (h : w.head? ≠ some '\'') : (Lexeme.word w).parts = [.word w] := by
  unfold Lexeme.parts
  split
  · rename_i heq; cases heq; exact absurd rfl h
  · rename_i heq; cases heq; rfl
  · rename_i heq; cases heq
  · rename_i heq; cases heq

theorem parts_mark (t : Text) : (Lexeme.mark t).parts = t.map .mark := rfl

/-- A word with nothing before it. -/
theorem standing_word {w : Text} (h : PlainWord w) (E : List Lexeme) :
    Standing (Mode.start.read w).2 (E ++ (Mode.start.read w).1) (some (.word w)) (E.flatMap Lexeme.parts ++ [.word w]) := by
  obtain ⟨hc, ht⟩ := h
  have hs := (sound_read w (m := .start) trivial).1
  unfold modeAfter at hc
  unfold lexemes at ht
  have hp : ∃ a : Lexeme, (Mode.start.read w).1 ++ (Mode.start.read w).2.flush = [a] ∧ a.parts = [.word w] ∧ a.isMark = false ∧
      (∀ t, a = .word t → t = w) := by
    rcases ht with ⟨h1, h2⟩ | h1
    · exact ⟨_, h1, parts_word h2, rfl, fun t h => by cases h; rfl⟩
    · exact ⟨_, h1, rfl, rfl, fun t h => by cases h⟩
  obtain ⟨a, h1, h2, h3, h4⟩ := hp
  have key : ∀ x, (Mode.start.read w).2.flush = [x] → x = a := by
    intro x hx
    rw [hx] at h1
    have := (List.append_inj' (s₁ := []) h1.symm rfl).2
    simpa using this.symm
  refine .word _ _ hc ?_ ?_ ?_ ?_
  · intro t ht
    have := key (.mark t) (by rw [ht]; rfl)
    rw [← this] at h3; cases h3
  · intro t ht
    exact h4 t (key (.word t) (by rw [ht]; rfl)).symm
  · intro t ht
    have := h4 t (key (.word t) (by rw [ht]; rfl)).symm
    rw [ht] at hs
    rw [← this]
    exact hs.2.2.1
  · rw [List.append_assoc, h1, List.flatMap_append]
    simp [h2]

/-- A mark with nothing before it. -/
theorem standing_mark {d : Char} (h : wordChar d = false ∧ whiteChar d = false ∧ d ≠ '"') (E : List Lexeme) :
    Standing (freshStep d).2 (E ++ (freshStep d).1) (some (.mark d)) (E.flatMap Lexeme.parts ++ [.mark d]) := by
  obtain ⟨h1, h2, h3⟩ := h
  unfold freshStep
  rw [if_neg (by simp [h2]), if_neg (by simp [h1]), if_neg h3]
  by_cases h4 : d = '\''
  · rw [if_pos h4]; subst h4; exact .tick _ rfl (by simp)
  rw [if_neg h4]
  by_cases h5 : d ∈ ['(', ')', '[', ']', '{', '}', ',', ';', '?', '#', '$', '~', '@']
  · rw [if_pos h5]; exact .mark _ _ (.inl rfl) (by simp [Mode.flush, Lexeme.parts])
  · rw [if_neg h5]; exact .mark _ _ (.inr ⟨[d], rfl, rfl⟩) (by simp [Mode.flush, Lexeme.parts])

theorem read_cut {m : Mode} {c : Char} (h : m.step c = m.cut c) (w : Text) :
    m.read (c :: w) = (m.flush ++ (Mode.start.read (c :: w)).1, (Mode.start.read (c :: w)).2) := by
  rw [Mode.read, h, Mode.read, show Mode.start.step c = freshStep c from rfl]
  simp [Mode.cut]

theorem read_tick (w : Text) : ∀ t : Text, (∀ c ∈ w, wordChar c = true) → (Mode.tick t).read w = ([], .tick (t ++ w)) := by
  induction w with
  | nil => intro t _; simp [Mode.read]
  | cons c w ih =>
    intro t h
    have hc := h c (by simp)
    have hq : c ≠ '\'' := by rintro rfl; exact absurd hc (by decide)
    have hs : (Mode.tick t).step c = ([], .tick (t ++ [c])) := by
      simp [Mode.step, hc, hq]
    rw [Mode.read, hs]
    dsimp only
    rw [ih (t ++ [c]) (fun x hx => h x (by simp [hx]))]
    simp

/-- After a word no mark that is printed right after it belongs to it, other than a point. -/
theorem step_after_word {m : Mode} {c : Char} (hc : c ∈ [',', ';', '<', '>', ':', '.', '!'] ++ openers) (hp : c ≠ '.')
    (hcl : m.closed = true) (hm : ∀ t, m ≠ .mark t) : m.step c = m.cut c := by
  have hpl : wordChar c = false ∧ c.isDigit = false ∧ c ≠ '+' ∧ c ≠ '-' ∧ c ≠ '"' ∧ c ≠ '\'' ∧ c ≠ '#' := by
    clear hp
    revert c
    decide
  obtain ⟨p1, p2, p3, p4, p5, p6, p7⟩ := hpl
  cases m with
  | start => simp [Mode.step, Mode.cut, Mode.flush]
  | word t => simp [Mode.step, p1, hp, p3, p4, p5, p6, p7]
  | point t => simp [Mode.step, p1, p2, hp]
  | mark t => exact absurd rfl (hm t)
  | tick t =>
    have : t.getLast? ≠ some '\'' := by simpa [Mode.closed] using hcl
    simp [Mode.step, p1, p6, this]
  | hashes t n => simp [Mode.step, p1, p5, p7]
  | quote | raw | line | block => cases hcl

/-- A word right after a mark. -/
theorem step_after_mark {m : Mode} {c : Char} (hm : m = .start ∨ ∃ t, m = .mark t) (hw : wordChar c = true ∨ c = '"' ∨ c = '\'') :
    m.step c = m.cut c := by
  rcases hm with rfl | ⟨t, rfl⟩
  · simp [Mode.step, Mode.cut, Mode.flush]
  · have h1 : c ≠ '/' := by
      rintro rfl
      exact absurd hw (by decide)
    have h2 : c ≠ '*' := by
      rintro rfl
      exact absurd hw (by decide)
    have h3 : t ++ [c] ∉ longMarks := by
      intro hl
      obtain ⟨n1, n2, n3⟩ := (long_marks_plain _ hl).2.2.2.2 c (by simp)
      rcases hw with hw | hw | hw
      · rw [hw] at n1; cases n1
      · exact n2 hw
      · exact n3 hw
    simp [Mode.step, h1, h2, h3]

theorem plainWord_first {w : Text} (h : PlainWord w) : ∃ c v, w = c :: v ∧ (wordChar c = true ∨ c = '"' ∨ c = '\'') := by
  have hp : Proper (.word w) ∨ Proper (.quoted w) := by
    rcases h.token with ⟨h1, _⟩ | h1
    · exact .inl (proper_lexemes w h.closed _ (by rw [h1]; simp))
    · exact .inr (proper_lexemes w h.closed _ (by rw [h1]; simp))
  have hf : ∃ c, w.head? = some c ∧ (wordChar c = true ∨ c = '"' ∨ c = '\'') := by
    rcases hp with hp | hp <;> exact hp.first rfl
  obtain ⟨c, hc, hw⟩ := hf
  cases w with
  | nil => cases hc
  | cons x v => cases hc; exact ⟨_, v, rfl, hw⟩

theorem read_of {b : Text} {E : List Lexeme} {m : Mode} (h : Mode.start.read b = (E, m)) (u : Text) :
    Mode.start.read (b ++ u) = (E ++ (m.read u).1, (m.read u).2) := by
  rw [read_append, h]

/-- After a space there is nothing of a token. -/
theorem read_space {b : Text} {E : List Lexeme} {m : Mode} (h : Mode.start.read b = (E, m)) (hc : m.closed = true) :
    Mode.start.read (b ++ [' ']) = (E ++ m.flush, .start) := by
  rw [read_of h, read_one, space_cuts _ hc]
  simp [Mode.cut, show freshStep ' ' = ([], .start) by decide]

/-- One piece more. -/
theorem standing_step {b sep : Text} {E : List Lexeme} {m : Mode} {p : Option Piece} {pre rest : List Piece} {q : Piece}
    (hr : Mode.start.read b = (E, m)) (hst : Standing m E p pre) (hpre : pre.getLast? = p) (hlast : ∀ c, p = some (.mark c) → b.getLast? = some c)
    (hpl : PlainPieces (pre ++ q :: rest)) (hg : Gap p b q sep) :
    ∃ E' m', Mode.start.read (b ++ sep ++ q.text) = (E', m') ∧ Standing m' E' (some q) (pre ++ [q]) := by
  have hq1 : ∀ w, q = .word w → PlainWord w := fun w hw => hpl.words w (by rw [← hw]; simp)
  have hq2 : ∀ c, q = .mark c → wordChar c = false ∧ whiteChar c = false ∧ c ≠ '"' := fun w hw => hpl.marks w (by rw [← hw]; simp)
  -- after a space, or where a token ends anyway
  have fresh : ∀ (B : Text) (E0 : List Lexeme), Mode.start.read B = (E0, .start) → E0.flatMap Lexeme.parts = pre →
      ∃ E' m', Mode.start.read (B ++ q.text) = (E', m') ∧ Standing m' E' (some q) (pre ++ [q]) := by
    intro B E0 hB hE
    rw [read_of hB]
    cases q with
    | word w => rw [← hE]; exact ⟨_, _, rfl, standing_word (hq1 w rfl) E0⟩
    | mark d => rw [← hE, Piece.text, read_one]; exact ⟨_, _, rfl, standing_mark (hq2 d rfl) E0⟩
  have settled : m.closed = true → (E ++ m.flush).flatMap Lexeme.parts = pre → (sep = [] → ∀ c, q.text.head? = some c → m.step c = m.cut c) →
      ∃ E' m', Mode.start.read (b ++ sep ++ q.text) = (E', m') ∧ Standing m' E' (some q) (pre ++ [q]) := by
    intro hc hE hcut
    rcases hg.1.symm with rfl | rfl
    · exact fresh _ _ (read_space hr hc) hE
    · rw [List.append_nil, read_of hr]
      cases q with
      | word w =>
        obtain ⟨c, v, hw, _⟩ := plainWord_first (hq1 w rfl)
        have := read_cut (hcut rfl c (by rw [Piece.text, hw]; rfl)) v
        rw [← hw] at this
        rw [Piece.text, this]
        dsimp only
        rw [← hE, ← List.append_assoc]
        exact ⟨_, _, rfl, standing_word (hq1 w rfl) _⟩
      | mark d =>
        have := read_cut (hcut rfl d rfl) []
        rw [Piece.text, this]
        dsimp only
        rw [read_one]
        dsimp only [Mode.step]
        rw [← hE, ← List.append_assoc]
        exact ⟨_, _, rfl, standing_mark (hq2 d rfl) _⟩
  cases hst with
  | none hm hE =>
    have hs : sep = [] := hg.2
    subst hs hm hE
    rw [List.append_nil]
    exact fresh _ _ hr rfl
  | word w _ hcl hnm hwd hpt hE =>
    by_cases hd : q = .mark '.'
    · subst hd
      -- a point after a word
      obtain ⟨pre', rfl⟩ := List.getLast?_eq_some_iff.1 hpre
      obtain ⟨hnp, _⟩ := hpl.points pre' w rest (by simp)
      by_cases hnum : ∃ t, m = .word t ∧ t.head?.any Char.isDigit = true ∧ '.' ∉ t
      · obtain ⟨t, rfl, h1, h2⟩ := hnum
        have := hwd t rfl
        subst this
        rcases hg.1.symm with rfl | rfl
        · exact settled hcl hE (fun h => by cases h)
        · rw [List.append_nil, read_of hr, Piece.text, read_one]
          have hs : (Mode.word t).step '.' = ([], .point (t ++ ['.'])) := by
            simp only [Mode.step]
            rw [if_neg (by decide), if_pos ⟨trivial, h1, h2⟩]
          rw [hs]
          have hh : t.head? ≠ some '\'' := by
            intro hh
            rw [hh] at h1
            exact absurd h1 (by decide)
          rw [List.append_nil]
          refine ⟨_, _, rfl, .point t _ rfl h1 h2 ?_⟩
          rw [← hE, Mode.flush, List.flatMap_append]
          simp [parts_word hh]
      · refine settled hcl hE (fun _ c hc => ?_)
        have hc : '.' = c := by simpa [Piece.text] using hc
        subst hc
        cases m with
        | start => simp [Mode.step, Mode.cut, Mode.flush]
        | word t =>
          have h0 : ¬ (True ∧ t.head?.any Char.isDigit = true ∧ '.' ∉ t) := fun h => hnum ⟨t, rfl, h.2⟩
          simp only [Mode.step]
          rw [if_neg (by decide), if_neg h0, if_neg (by simp), if_neg (by simp), if_neg (by simp), if_neg (by simp), if_neg (by simp)]
        | point t => exact absurd (hpt t rfl) hnp
        | mark t => exact absurd rfl (hnm t)
        | tick t =>
          have : t.getLast? ≠ some '\'' := by simpa [Mode.closed] using hcl
          simp only [Mode.step]
          rw [if_neg this, if_neg (by decide), if_neg (by decide)]
        | hashes t n =>
          simp only [Mode.step]
          rw [if_neg (by decide), if_neg (by decide), if_neg (by decide)]
        | quote | raw | line | block => cases hcl
    · refine settled hcl hE (fun hs c hc => ?_)
      subst hs
      cases q with
      | word v => exact absurd hg.2 (by simp)
      | mark d =>
        have hc : d = c := by simpa [Piece.text] using hc
        subst hc
        exact step_after_word (hg.2 rfl) (fun h => hd (by rw [h])) hcl hnm
  | mark c _ hm hE =>
    have hcl : m.closed = true := by
      rcases hm with rfl | ⟨t, rfl, _⟩ <;> rfl
    cases q with
    | word w =>
      refine settled hcl hE (fun _ x hx => ?_)
      obtain ⟨y, v, hw, hy⟩ := plainWord_first (hq1 w rfl)
      have : y = x := by rw [Piece.text, hw] at hx; simpa using hx
      subst this
      refine step_after_mark ?_ hy
      rcases hm with h | ⟨t, h, _⟩
      · exact .inl h
      · exact .inr ⟨t, h⟩
    | mark d =>
      by_cases hjoin : sep = [] ∧ ∃ t, m = .mark t ∧ t ++ [d] ∈ longMarks
      · obtain ⟨rfl, t, rfl, hl⟩ := hjoin
        rw [List.append_nil, read_of hr, Piece.text, read_one]
        have hnc : ¬ (t = "/".toList ∧ d = '/') ∧ ¬ (t = "/".toList ∧ d = '*') := by
          constructor
          · rintro ⟨rfl, rfl⟩; exact absurd hl (by decide)
          · rintro ⟨rfl, rfl⟩; exact absurd hl (by decide)
        have hs : (Mode.mark t).step d = ([], .mark (t ++ [d])) := by
          simp only [Mode.step]
          rw [if_neg hnc.1, if_neg hnc.2, if_pos hl]
        rw [hs, List.append_nil]
        refine ⟨_, _, rfl, .mark d _ (.inr ⟨_, rfl, by simp⟩) ?_⟩
        rw [← hE, Mode.flush, Mode.flush, List.flatMap_append, List.flatMap_append]
        simp [Lexeme.parts]
      · refine settled hcl hE (fun hs x hx => ?_)
        have : d = x := by simpa [Piece.text] using hx
        subst this
        rcases hm with rfl | ⟨t, rfl, htl⟩
        · simp [Mode.step, Mode.cut, Mode.flush]
        · have hnl : t ++ [d] ∉ longMarks := fun h => hjoin ⟨hs, t, rfl, h⟩
          have hsl : t = "/".toList → d ≠ '/' ∧ d ≠ '*' := by
            rintro rfl
            have hc : c = '/' := by simpa using htl.symm
            subst hc
            obtain ⟨pre', rfl⟩ := List.getLast?_eq_some_iff.1 hpre
            exact hpl.slashes d ⟨pre', rest, by simp⟩
          simp only [Mode.step]
          rw [if_neg (fun h => (hsl h.1).1 h.2), if_neg (fun h => (hsl h.1).2 h.2), if_neg hnl]
  | point w _ hm hdg hnp hE =>
    subst hm
    have hs : sep = [] := by
      rcases hg.1 with hs | hs
      · exact hs
      exfalso
      obtain ⟨b', rfl⟩ := List.getLast?_eq_some_iff.1 (hlast '.' rfl)
      have no : ∀ {s : Text} {x : Char}, x ≠ '.' → endsWith (b' ++ ['.']) (s ++ [x]) = true → False := by
        intro s x hx he
        rw [not_endsWith_of_last (Ne.symm hx)] at he; cases he
      cases q with
      | mark d =>
        rcases hg.2 hs with hd | hd | hd
        · exact absurd hd (by decide)
        · exact absurd hd (by decide)
        · exact no (s := ['-']) (x := '>') (by decide) hd
      | word v =>
        rcases hg.2 hs with hd | hd | hd | hd | hd
        · exact absurd hd (by decide)
        · exact absurd hd (by decide)
        · exact no (s := ['-']) (x := '>') (by decide) hd
        · exact no (s := []) (x := '=') (by decide) hd
        · exact no (s := ['=']) (x := '>') (by decide) hd
    subst hs
    have hh : w.head? ≠ some '\'' := by
      intro hh
      rw [hh] at hdg
      exact absurd hdg (by decide)
    have hpt := (hpl.points (E.flatMap Lexeme.parts) w (q :: rest) (by rw [← hE]; simp)).2 hdg hnp
    rw [List.append_nil, read_of hr]
    rcases hpt with hq | ⟨c, v, hq, hc1, hc2⟩
    · have hq : q = .mark '.' := by simpa using hq
      subst hq
      have hs : (Mode.point (w ++ ['.'])).step '.' = ([.word w], .mark "..".toList) := by
        simp only [Mode.step]
        rw [if_neg (by decide), if_pos trivial, List.dropLast_concat]
      rw [Piece.text, read_one, hs]
      refine ⟨_, _, rfl, .mark '.' _ (.inr ⟨_, rfl, rfl⟩) ?_⟩
      rw [← hE, Mode.flush, List.flatMap_append, List.flatMap_append]
      simp [parts_word hh, parts_mark]
    · have hq : q = .word (c :: v) := by simpa using hq
      subst hq
      have hcd : c ≠ '.' := by rintro rfl; exact absurd hc1 (by decide)
      have hs : (Mode.point (w ++ ['.'])).step c = ([.word w, .mark ".".toList], .word [c]) := by
        simp only [Mode.step]
        rw [if_neg (by simp [hc2]), if_neg hcd, if_pos hc1, List.dropLast_concat]
      have hf : freshStep c = ([], .word [c]) := by
        unfold freshStep
        rw [if_neg (by simp [word_not_white hc1]), if_pos hc1]
      have hst : Mode.start.read (c :: v) = ((Mode.word [c]).read v) := by
        simp [Mode.read, Mode.step, hf]
      have hrd : (Mode.point (w ++ ['.'])).read (c :: v) =
          ([.word w, .mark ".".toList] ++ (Mode.start.read (c :: v)).1, (Mode.start.read (c :: v)).2) := by
        rw [hst]
        simp [Mode.read, hs]
      rw [Piece.text, hrd]
      dsimp only
      rw [← List.append_assoc]
      refine ⟨_, _, rfl, ?_⟩
      have := standing_word (hq1 (c :: v) rfl) (E ++ [.word w, .mark ".".toList])
      rw [← hE]
      simpa [parts_word hh, parts_mark] using this
  | tick _ hm hE =>
    subst hm
    obtain ⟨w, hw1, hw2, hw3⟩ := hpl.ticks (E.flatMap Lexeme.parts) (q :: rest) (by rw [← hE]; simp)
    have hq : q = .word w := by simpa using hw1
    subst hq
    have hs : sep = [] := by
      rcases hg.1 with hs | hs
      · exact hs
      exfalso
      obtain ⟨b', rfl⟩ := List.getLast?_eq_some_iff.1 (hlast '\'' rfl)
      have no : ∀ {s : Text} {x : Char}, x ≠ '\'' → endsWith (b' ++ ['\'']) (s ++ [x]) = true → False := by
        intro s x hx he
        rw [not_endsWith_of_last (Ne.symm hx)] at he; cases he
      rcases hg.2 hs with hd | hd | hd | hd | hd
      · exact absurd hd (by decide)
      · exact absurd hd (by decide)
      · exact no (s := ['-']) (x := '>') (by decide) hd
      · exact no (s := []) (x := '=') (by decide) hd
      · exact no (s := ['=']) (x := '>') (by decide) hd
    subst hs
    rw [List.append_nil, read_of hr, Piece.text, read_tick w _ hw3, List.append_nil]
    refine ⟨_, _, rfl, .word w _ ?_ (fun t h => by cases h) (fun t h => by cases h) (fun t h => by cases h) ?_⟩
    · cases hl : w.getLast? with
      | none => exact absurd (by simpa using hl) hw2
      | some x =>
        have hx := hw3 x (List.mem_of_getLast? hl)
        have : x ≠ '\'' := by rintro rfl; exact absurd hx (by decide)
        have hl' : (['\''] ++ w).getLast? = some x := by rw [List.getLast?_append, hl]; rfl
        rw [Mode.closed, hl']
        simp [this]
    · rw [← hE, Mode.flush, List.flatMap_append]
      simp [Lexeme.parts]

/-- The text goes on. -/
theorem laid_round : ∀ (ps : List Piece) (b t : Text) (E : List Lexeme) (m : Mode) (p : Option Piece) (pre : List Piece),
    Mode.start.read b = (E, m) → Standing m E p pre → pre.getLast? = p → (∀ c, p = some (.mark c) → b.getLast? = some c) →
    PlainPieces (pre ++ ps) → Laid p b ps t → (lexemes t).flatMap Lexeme.parts = pre ++ ps ∧ (modeAfter t).closed = true
  | [], b, t, E, m, p, pre, hr, hst, hpre, hlast, hpl, hl => by
    cases hl
    unfold lexemes modeAfter
    rw [hr, List.append_nil]
    rw [List.append_nil] at hpl
    cases hst with
    | none hm hE => subst hm hE; exact ⟨rfl, rfl⟩
    | word w _ hcl _ _ _ hE => exact ⟨hE, hcl⟩
    | mark c _ hm hE => exact ⟨hE, by rcases hm with rfl | ⟨t, rfl, _⟩ <;> rfl⟩
    | point w _ hm hdg hnp hE =>
      rcases (hpl.points (E.flatMap Lexeme.parts) w [] (by rw [← hE])).2 hdg hnp with h | ⟨_, _, h, _⟩ <;> cases h
    | tick _ hm hE =>
      obtain ⟨_, h, _⟩ := hpl.ticks (E.flatMap Lexeme.parts) [] (by rw [← hE])
      cases h
  | q :: ps, b, t, E, m, p, pre, hr, hst, hpre, hlast, hpl, hl => by
    cases hl with
    | cons hg hl =>
      obtain ⟨E', m', hr', hst'⟩ := standing_step hr hst hpre hlast hpl hg
      have := laid_round ps _ t E' m' (some q) (pre ++ [q]) hr' hst' (by simp) (by
        intro c hc
        cases hc
        simp [Piece.text]) (by simpa using hpl) hl
      simpa using this

/-- What is printed is read as the tokens printed. -/
theorem pretty_round (ts : Tokens) (hv : Visible ts) (hp : PlainPieces (pieces ts)) : TokensOf (pretty ts) ts := by
  obtain ⟨h1, h2⟩ := laid_round (pieces ts) [] (pretty ts) [] .start none [] rfl (.none rfl rfl) rfl (fun c h => by cases h)
    (by simpa using hp) (laid_pretty ts hv)
  exact ⟨by simpa using h1.symm, h2, hv⟩

end CM.Props
