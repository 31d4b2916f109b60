import Verif.Spec.Seen
import Verif.Props.Span
/-! C01, C02 and C05 for every text and span, also with lone carriage returns: exactly what is read and written. -/
namespace CM.Props
open CM CM.Spec

theorem seenAfter_eq (t : Text) : seenAfter t = scanPos ⟨1, 1⟩ t := (scanPos_eq t).symm

theorem earlier_iff (p q : LineColumn) : Earlier p q ↔ p.lt q := Iff.rfl

theorem not_earlier_iff (p q : LineColumn) : ¬ Earlier p q ↔ q.le p := by
  unfold Earlier LineColumn.le; omega

/-- `CutAt` from any position. -/
structure CutFrom (p : LineColumn) (code : Text) (sp : Span) (pre mid post : Text) : Prop where
  all : code = pre ++ mid ++ post
  before : ∀ a c b, pre = a ++ c :: b → (scanPos p a).lt sp.start
  inside : ∀ a c b, mid = a ++ c :: b → sp.start.le (scanPos p (pre ++ a)) ∧ (scanPos p (pre ++ a)).lt sp.stop
  after : ∀ a c b, post = a ++ c :: b → sp.stop.le (scanPos p (pre ++ mid ++ a))

def placesFrom (p : LineColumn) (code : Text) (q : LineColumn) : Nat :=
  (List.range (code.length + 1)).countP fun n => scanPos p (code.take n) = q

theorem placesFrom_nil (p q : LineColumn) : placesFrom p [] q = if p = q then 1 else 0 := by
  unfold placesFrom
  by_cases h : p = q <;> simp [h]

theorem placesFrom_cons (p : LineColumn) (c : Char) (t : Text) (q : LineColumn) :
    placesFrom p (c :: t) q = (if p = q then 1 else 0) + placesFrom (p.advance c) t q := by
  unfold placesFrom
  rw [List.length_cons, List.range_succ_eq_map, List.countP_cons, List.countP_map]
  have : ((fun n => decide (scanPos p (List.take n (c :: t)) = q)) ∘ Nat.succ) =
      fun n => decide (scanPos (p.advance c) (t.take n) = q) := by
    funext n; rfl
  rw [this]
  by_cases h : p = q <;> simp [h] <;> omega

theorem placesFrom_after {p q : LineColumn} (h : q.lt p) (t : Text) : placesFrom p t q = 0 := by
  unfold placesFrom
  rw [List.countP_eq_zero]
  intro n _
  have := le_scanPos p (t.take n)
  simp only [decide_eq_true_eq]
  intro e
  rw [e] at this
  unfold LineColumn.lt LineColumn.le at *
  omega

theorem cut_exists {sp : Span} (hlt : sp.start.lt sp.stop) (r : Text) : ∀ (t : Text) (p : LineColumn),
    ∃ pre mid post, CutFrom p t sp pre mid post ∧
      sp.replaceFrom r p t = pre ++ (List.replicate (placesFrom p t sp.start) r).flatten ++ post ∧
      sp.extractFrom p t = mid := by
  have hle : sp.start.le sp.stop := by unfold LineColumn.lt LineColumn.le at *; omega
  intro t
  induction t with
  | nil =>
    intro p
    refine ⟨[], [], [], ⟨rfl, by simp, by simp, by simp⟩, ?_, rfl⟩
    rw [placesFrom_nil]
    by_cases h : p = sp.start <;> simp [Span.replaceFrom, h]
  | cons ch t ih =>
    intro p
    obtain ⟨pre, mid, post, hc, h1, h2⟩ := ih (p.advance ch)
    have hadv := le_advance p ch
    -- what is extracted, without stopping early
    have hex : sp.extractFrom p (ch :: t) = if sp.extractsAt p then ch :: mid else mid := by
      rw [extractFrom_cons, h2]
      split <;> rfl
    by_cases hp : p.lt sp.start
    · refine ⟨ch :: pre, mid, post, ⟨by rw [hc.all]; rfl, ?_, ?_, ?_⟩, ?_, ?_⟩
      · intro a c b h
        cases a with
        | nil => exact hp
        | cons x a =>
          simp only [List.cons_append, List.cons.injEq] at h
          obtain ⟨rfl, h⟩ := h
          exact hc.before a c b h
      · intro a c b h; exact hc.inside a c b h
      · intro a c b h; exact hc.after a c b h
      · have hne : p ≠ sp.start := by rintro rfl; unfold LineColumn.lt at hp; omega
        have hk : sp.keepsAt p = true := (keepsAt_iff hle p).2 (.inl hp)
        rw [Span.replaceFrom, h1, hk, placesFrom_cons]
        simp [hne]
      · rw [hex, if_neg]
        rw [extractsAt_iff]
        unfold LineColumn.lt LineColumn.le at *; omega
    · have hs : sp.start.le p := by unfold LineColumn.lt LineColumn.le at *; omega
      have hpre : pre = [] := by
        cases pre with
        | nil => rfl
        | cons x pre =>
          have := hc.before [] x pre rfl
          simp only [scanPos_nil] at this
          unfold LineColumn.lt LineColumn.le at *; omega
      subst hpre
      by_cases hq : p.lt sp.stop
      · refine ⟨[], ch :: mid, post, ⟨by rw [hc.all]; rfl, by simp, ?_, ?_⟩, ?_, ?_⟩
        · intro a c b h
          cases a with
          | nil => exact ⟨hs, hq⟩
          | cons x a =>
            simp only [List.cons_append, List.cons.injEq] at h
            obtain ⟨rfl, h⟩ := h
            exact hc.inside a c b h
        · intro a c b h; exact hc.after a c b h
        · have hk : sp.keepsAt p = false := by
            rw [← Bool.not_eq_true, keepsAt_iff hle p]
            unfold LineColumn.lt LineColumn.le at *; omega
          rw [Span.replaceFrom, h1, hk, placesFrom_cons]
          by_cases hne : p = sp.start
          · simp [hne, Nat.add_comm 1, List.replicate_succ]
          · simp [hne]
        · rw [hex, if_pos ((extractsAt_iff sp p).2 ⟨hs, hq⟩)]
      · have hst : sp.stop.le p := by unfold LineColumn.lt LineColumn.le at *; omega
        have hmid : mid = [] := by
          cases mid with
          | nil => rfl
          | cons x mid =>
            have := (hc.inside [] x mid rfl).2
            simp only [List.append_nil, scanPos_nil] at this
            unfold LineColumn.lt LineColumn.le at *; omega
        subst hmid
        have hslt : sp.start.lt p := by unfold LineColumn.lt LineColumn.le at *; omega
        refine ⟨[], [], ch :: t, ⟨rfl, by simp, by simp, ?_⟩, ?_, ?_⟩
        · intro a c b h
          exact le_trans hst (le_scanPos p a)
        · rw [replaceFrom_after hle hslt hst, placesFrom_after hslt]; rfl
        · rw [hex, if_neg]
          rw [extractsAt_iff]
          unfold LineColumn.lt LineColumn.le at *; omega

/-- **C01**, **C02**: for every text, also with lone carriage returns, and every span that is not empty: the text is cut at the span as
if carriage returns had no width; the piece in the span is the original text, it is removed, nothing else changes, and the replacement
is put there as often as the text has places at the start of the span: once without lone carriage returns, and not at all if there are
so many that the line is too short. -/
theorem C01_exactly (code repl : Text) (sp : Span) (hlt : Earlier sp.start sp.stop) :
    ∃ pre mid post, CutAt code sp pre mid post ∧ originalText code sp = mid ∧
      mutatedCode code sp repl =
        pre ++ (List.replicate (placesAt code sp.start) (repl ++ " ".toList ++ markerText)).flatten ++ post := by
  obtain ⟨pre, mid, post, h, h1, h2⟩ := cut_exists (sp := sp) hlt (repl ++ " ".toList ++ markerText) code ⟨1, 1⟩
  refine ⟨pre, mid, post, ⟨h.all, ?_, ?_, ?_⟩, h2, ?_⟩
  · intro a c b e; rw [seenAfter_eq]; exact h.before a c b e
  · intro a c b e; rw [seenAfter_eq, not_earlier_iff]; exact h.inside a c b e
  · intro a c b e; rw [seenAfter_eq, not_earlier_iff]; exact h.after a c b e
  · have : placesAt code sp.start = placesFrom ⟨1, 1⟩ code sp.start := by
      unfold placesAt placesFrom
      simp only [seenAfter_eq]
    rw [this]
    exact h1

/-- The pieces are determined by the text and the span. -/
theorem cutAt_unique {code : Text} {sp : Span} {pre mid post pre' mid' post' : Text} (h : CutAt code sp pre mid post)
    (h' : CutAt code sp pre' mid' post') (hlt : Earlier sp.start sp.stop) : pre = pre' ∧ mid = mid' ∧ post = post' := by
  -- two cuts of a text by what is the case before each character
  have key : ∀ (f : Text → Prop) (a b a' b' : Text), a ++ b = a' ++ b' → (∀ x c y, a = x ++ c :: y → f x) →
      (∀ x c y, b = x ++ c :: y → ¬ f (a ++ x)) → (∀ x c y, a' = x ++ c :: y → f x) →
      (∀ x c y, b' = x ++ c :: y → ¬ f (a' ++ x)) → a = a' ∧ b = b' := by
    intro f a b a' b' he h1 h2 h3 h4
    rcases List.append_eq_append_iff.1 he with ⟨d, e1, e2⟩ | ⟨d, e1, e2⟩
    · cases d with
      | nil => exact ⟨by simpa using e1.symm, by simpa using e2⟩
      | cons c d => exact absurd (h3 a c d e1) (by simpa using h2 [] c (d ++ b') e2)
    · cases d with
      | nil => exact ⟨by simpa using e1, by simpa using e2.symm⟩
      | cons c d => exact absurd (h1 a' c d e1) (by simpa using h4 [] c (d ++ b) e2)
  have later : ∀ {p : LineColumn}, ¬ Earlier p sp.stop → ¬ Earlier p sp.start := by
    intro p; unfold Earlier at *; omega
  have rest : ∀ {pre mid post : Text}, CutAt code sp pre mid post → ∀ x c y, mid ++ post = x ++ c :: y →
      ¬ Earlier (seenAfter (pre ++ x)) sp.start := by
    intro pre mid post h x c y e
    rcases List.append_eq_append_iff.1 e with ⟨d, e1, e2⟩ | ⟨d, e1, e2⟩
    · subst e1
      have := later (h.after d c y e2)
      rwa [← List.append_assoc]
    · cases d with
      | nil =>
        simp only [List.nil_append] at e2
        simp only [List.append_nil] at e1
        subst e1
        have := later (h.after [] c y e2.symm)
        simpa using this
      | cons z d =>
        simp only [List.cons_append, List.cons.injEq] at e2
        obtain ⟨rfl, _⟩ := e2
        exact (h.inside x c d e1).1
  obtain ⟨e1, e2⟩ := key (fun x => Earlier (seenAfter x) sp.start) pre (mid ++ post) pre' (mid' ++ post')
    (by rw [← List.append_assoc, ← h.all, h'.all, List.append_assoc]) h.before (rest h) h'.before (rest h')
  subst e1
  obtain ⟨e3, e4⟩ := key (fun x => Earlier (seenAfter (pre ++ x)) sp.stop) mid post mid' post' e2
    (fun x c y e => (h.inside x c y e).2) (fun x c y e => by rw [← List.append_assoc]; exact h.after x c y e)
    (fun x c y e => (h'.inside x c y e).2) (fun x c y e => by rw [← List.append_assoc]; exact h'.after x c y e)
  exact ⟨rfl, e3, e4⟩

/-- **C05**: the marker is in the mutated file if the text has a place at the start of the span, where carriage returns have no width;
and otherwise nothing is put in the file at all: only characters may be removed. -/
theorem C05_exactly (code repl : Text) (sp : Span) (hlt : Earlier sp.start sp.stop) :
    ((∃ pre, pre <+: code ∧ seenAfter pre = sp.start) → markerText <:+: mutatedCode code sp repl) ∧
    ((¬ ∃ pre, pre <+: code ∧ seenAfter pre = sp.start) → (mutatedCode code sp repl).Sublist code) := by
  obtain ⟨pre, mid, post, h, _, h1⟩ := C01_exactly code repl sp hlt
  have hplaces : (∃ pre, pre <+: code ∧ seenAfter pre = sp.start) ↔ 0 < placesAt code sp.start := by
    unfold placesAt
    rw [List.countP_pos_iff]
    constructor
    · rintro ⟨p, ⟨q, rfl⟩, hp⟩
      exact ⟨p.length, by simp; omega, by simpa using hp⟩
    · rintro ⟨n, _, hn⟩
      exact ⟨code.take n, List.take_prefix n code, by simpa using hn⟩
  rw [hplaces, h1]
  refine ⟨fun hk => ?_, fun hk => ?_⟩
  · obtain ⟨k, hk⟩ : ∃ k, placesAt code sp.start = k + 1 := ⟨placesAt code sp.start - 1, by omega⟩
    rw [hk, List.replicate_succ, List.flatten_cons]
    exact ⟨pre ++ (repl ++ " ".toList), (List.replicate k (repl ++ " ".toList ++ markerText)).flatten ++ post, by simp⟩
  · have : placesAt code sp.start = 0 := by omega
    rw [this, h.all]
    simp

/-- **C02**: for every text, also with lone carriage returns, and every span that is not empty, the original text is the piece of the
text that is taken out when the mutant is applied, whatever is put there. -/
theorem C02_exactly (code : Text) (sp : Span) (hlt : Earlier sp.start sp.stop) :
    ∃ pre post, CutAt code sp pre (originalText code sp) post ∧ ∀ repl, ∃ k,
      mutatedCode code sp repl = pre ++ (List.replicate k (repl ++ " ".toList ++ markerText)).flatten ++ post := by
  obtain ⟨pre, mid, post, h, h1, _⟩ := C01_exactly code [] sp hlt
  subst h1
  refine ⟨pre, post, h, fun repl => ?_⟩
  obtain ⟨pre', mid', post', h', _, h2⟩ := C01_exactly code repl sp hlt
  obtain ⟨rfl, _, rfl⟩ := cutAt_unique h h' hlt
  exact ⟨_, h2⟩

/-- One lone carriage return before the span: the span is moved to the right. Two at the end of a short line: it is not found. -/
example : placesAt "a\rb + c".toList ⟨1, 4⟩ = 1 ∧
    mutatedCode "a\rb + c".toList ⟨⟨1, 4⟩, ⟨1, 5⟩⟩ "-".toList = "a\rb - /* ~ changed by cargo-mutants ~ */ c".toList ∧
    placesAt "\r\r1\n".toList ⟨1, 3⟩ = 0 ∧ mutatedCode "\r\r1\n".toList ⟨⟨1, 3⟩, ⟨1, 4⟩⟩ "0".toList = "\r\r1\n".toList ∧
    placesAt "\ra+b".toList ⟨1, 1⟩ = 2 := by decide

end CM.Props
