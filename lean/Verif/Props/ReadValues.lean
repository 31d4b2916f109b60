import Verif.Props.RoundTrip
import Verif.Props.FnValue
/-! C95: the values that replace functions are read as they are meant. -/
namespace CM.Props
open CM CM.Spec

theorem _root_.CM.Spec.PlainPieces.append {as bs : List Piece} (h1 : PlainPieces as) (h2 : PlainPieces bs)
    (hs : as.getLast? = some (.mark '/') → bs.head? ≠ some (.mark '/') ∧ bs.head? ≠ some (.mark '*'))
    (hp : ∀ w, as.getLast? = some (.word w) → bs.head? = some (.mark '.') → w.getLast? ≠ some '.' ∧
      ∃ c v, bs.tail.head? = some (.word (c :: v)) ∧ wordChar c = true ∧ c.isDigit = false) : PlainPieces (as ++ bs) := by
  refine ⟨?_, ?_, ?_, ?_, ?_⟩
  · intro w hw
    rcases List.mem_append.1 hw with hw | hw
    · exact h1.words w hw
    · exact h2.words w hw
  · intro c hc
    rcases List.mem_append.1 hc with hc | hc
    · exact h1.marks c hc
    · exact h2.marks c hc
  · intro pre post e
    rcases List.append_eq_append_iff.1 e with ⟨a', rfl, e2⟩ | ⟨c', e1, e2⟩
    · exact h2.ticks a' post e2
    · cases c' with
      | nil =>
        refine h2.ticks [] post ?_
        simpa using e2.symm
      | cons x c' =>
        have hx : x = .mark '\'' ∧ post = c' ++ bs := by
          have := List.cons.inj e2
          exact ⟨this.1.symm, this.2⟩
        obtain ⟨rfl, rfl⟩ := hx
        obtain ⟨w, hw, hw2⟩ := h1.ticks pre c' e1
        exact ⟨w, by rw [List.head?_append, hw]; rfl, hw2⟩
  · rintro c ⟨pre, post, e⟩
    have e : pre ++ (.mark '/' :: .mark c :: post) = as ++ bs := by simpa using e
    rcases List.append_eq_append_iff.1 e with ⟨a', rfl, e2⟩ | ⟨c', e1, e2⟩
    · cases a' with
      | nil => exact h2.slashes c ⟨[], post, by simpa using e2⟩
      | cons x a' =>
        obtain ⟨rfl, e3⟩ := List.cons.inj e2
        cases a' with
        | nil =>
          have hb : bs.head? = some (.mark c) := by rw [← show Piece.mark c :: post = bs from e3]; rfl
          obtain ⟨n1, n2⟩ := hs (by simp)
          rw [hb] at n1 n2
          exact ⟨fun h => n1 (by rw [h]), fun h => n2 (by rw [h])⟩
        | cons y a' =>
          obtain ⟨rfl, _⟩ := List.cons.inj e3
          exact h1.slashes c ⟨pre, a', by simp⟩
    · subst e1
      exact h2.slashes c ⟨c', post, by rw [e2]; simp⟩
  · intro pre w post e
    rcases List.append_eq_append_iff.1 e with ⟨a', rfl, e2⟩ | ⟨c', e1, e2⟩
    · exact h2.points a' w post e2
    · cases c' with
      | nil =>
        refine h2.points [] w post ?_
        simpa using e2.symm
      | cons x c' =>
        obtain ⟨hx, e3⟩ := List.cons.inj e2
        subst hx
        cases c' with
        | nil =>
          have e2 : bs = .mark '.' :: post := by simpa using e3.symm
          obtain ⟨n1, c, v, n2, n3, n4⟩ := hp w (by rw [e1]; simp) (by rw [e2]; rfl)
          rw [e2] at n2
          exact ⟨n1, fun _ _ => .inr ⟨c, v, n2, n3, n4⟩⟩
        | cons y c' =>
          obtain ⟨hy, e4⟩ := List.cons.inj e3
          subst hy e4
          obtain ⟨n1, n2⟩ := h1.points pre w c' e1
          refine ⟨n1, fun a b => ?_⟩
          show (c' ++ bs).head? = _ ∨ ∃ c v, (c' ++ bs).head? = _ ∧ _
          rcases n2 a b with h | ⟨c, v, h, hc⟩
          · exact .inl (by rw [List.head?_append, h]; rfl)
          · exact .inr ⟨c, v, by rw [List.head?_append, h]; rfl, hc⟩

theorem plain_nil : PlainPieces [] := by
  refine ⟨?_, ?_, ?_, ?_, ?_⟩
  · intro w h; cases h
  · intro w h; cases h
  · intro pre post e; simp at e
  · rintro c ⟨pre, post, e⟩; simp at e
  · intro pre w post e; simp at e

theorem plain_word {w : Text} (h : PlainWord w) : PlainPieces [.word w] := by
  refine ⟨?_, ?_, ?_, ?_, ?_⟩
  · intro v hv; simp at hv; rw [hv]; exact h
  · intro c hc; simp at hc
  · intro pre post e
    cases pre with
    | nil => simp at e
    | cons x pre => simp at e
  · rintro c ⟨pre, post, e⟩
    have := congrArg List.length e
    simp at this
    omega
  · intro pre w post e
    have := congrArg List.length e
    simp at this
    omega

/-- Marks that go with anything before and after. -/
def quiet (c : Char) : Bool := c ∈ ['(', ')', '[', ']', '{', '}', ',', ';', '&', ':', '!', '-']

theorem plain_quiet {c : Char} (h : quiet c = true) : PlainPieces [.mark c] := by
  have hc : c ≠ '\'' ∧ wordChar c = false ∧ whiteChar c = false ∧ c ≠ '"' := by
    have : ∀ c ∈ ['(', ')', '[', ']', '{', '}', ',', ';', '&', ':', '!', '-'], c ≠ '\'' ∧ wordChar c = false ∧ whiteChar c = false ∧ c ≠ '"' := by
      decide
    exact this c (by simpa [quiet] using h)
  refine ⟨?_, ?_, ?_, ?_, ?_⟩
  · intro v hv; simp at hv
  · intro d hd; simp at hd; rw [hd]; exact hc.2
  · intro pre post e
    cases pre with
    | nil => simp at e; exact absurd e.1 hc.1
    | cons x pre => simp at e
  · rintro d ⟨pre, post, e⟩
    have := congrArg List.length e
    simp at this
    omega
  · intro pre w post e
    have := congrArg List.length e
    simp at this
    omega

theorem quiet_ne {c : Char} (h : quiet c = true) : c ≠ '/' ∧ c ≠ '*' ∧ c ≠ '.' := by
  have : ∀ c ∈ ['(', ')', '[', ']', '{', '}', ',', ';', '&', ':', '!', '-'], c ≠ '/' ∧ c ≠ '*' ∧ c ≠ '.' := by decide
  exact this c (by simpa [quiet] using h)

theorem _root_.CM.Spec.PlainPieces.cons_quiet {c : Char} {ps : List Piece} (hc : quiet c = true) (h : PlainPieces ps) : PlainPieces (.mark c :: ps) := by
  refine (plain_quiet hc).append h ?_ ?_
  · intro e
    simp at e
    exact absurd e (quiet_ne hc).1
  · intro w e
    simp at e

theorem _root_.CM.Spec.PlainPieces.mid {c : Char} {as bs : List Piece} (h1 : PlainPieces as) (hc : quiet c = true) (h2 : PlainPieces bs) :
    PlainPieces (as ++ .mark c :: bs) := by
  refine h1.append (h2.cons_quiet hc) ?_ ?_
  · intro _
    refine ⟨?_, ?_⟩ <;> simp [quiet_ne hc]
  · intro w _ e
    simp at e
    exact absurd e (quiet_ne hc).2.2

theorem _root_.CM.Spec.PlainPieces.cons_word {w : Text} {ps : List Piece} (hw : PlainWord w) (hd : ps.head? ≠ some (.mark '.')) (h : PlainPieces ps) :
    PlainPieces (.word w :: ps) := by
  refine (plain_word hw).append h ?_ ?_
  · intro e; simp at e
  · intro v _ e; exact absurd e hd

/-- A value, of which the last word, if it ends with one, does not end with a point. -/
def Val (ts : Tokens) : Prop := PlainCode ts ∧ ∀ w, (pieces ts).getLast? = some (.word w) → w.getLast? ≠ some '.'

theorem pieces_append (a b : Tokens) : pieces (a ++ b) = pieces a ++ pieces b := by
  induction a with
  | nil => simp [pieces]
  | cons x a ih => simp [pieces, ih]

theorem visible_append {a b : Tokens} (ha : Visible a) (hb : Visible b) : Visible (a ++ b) := by
  induction a with
  | nil => exact hb
  | cons x a ih =>
    rw [Visible] at ha
    rw [List.cons_append, Visible]
    exact ⟨ha.1, ih ha.2⟩

theorem pieces_parens (r : Tokens) : pieces [parens r] = .mark '(' :: (pieces r ++ [.mark ')']) := by
  simp [pieces, piecesOf, parens, brackets]

theorem plain_parens {r : Tokens} (h : PlainCode r) : PlainPieces (pieces [parens r]) := by
  rw [pieces_parens]
  exact (h.2.mid (by decide) plain_nil).cons_quiet (by decide)

theorem plain_square {r : Tokens} (h : PlainCode r) : PlainPieces (pieces (qArray r)) := by
  rw [show pieces (qArray r) = .mark '[' :: (pieces r ++ [.mark ']']) by simp [pieces, piecesOf, qArray, brackets]]
  exact (h.2.mid (by decide) plain_nil).cons_quiet (by decide)

theorem val_array {r : Tokens} (h : PlainCode r) : Val (qArray r) := by
  refine ⟨⟨by simp [Visible, VisibleTree, qArray, h.1], plain_square h⟩, ?_⟩
  intro w e
  have e' : pieces (qArray r) = (.mark '[' :: pieces r) ++ [.mark ']'] := by simp [pieces, piecesOf, qArray, brackets]
  rw [e', List.getLast?_concat] at e
  cases e

theorem val_parens {r : Tokens} (h : PlainCode r) : Val [parens r] := by
  refine ⟨⟨by simp [Visible, VisibleTree, parens, h.1], plain_parens h⟩, ?_⟩
  intro w e
  have e' : pieces [parens r] = (.mark '(' :: pieces r) ++ [.mark ')'] := by simp [pieces_parens]
  rw [e', List.getLast?_concat] at e
  cases e

theorem val_call {n : String} (hn : PlainWord n.toList) {r : Tokens} (h : PlainCode r) : Val (qCall n r) := by
  have e : pieces (qCall n r) = .word n.toList :: pieces [parens r] := by simp [qCall, pieces, piecesOf, qi]
  refine ⟨⟨by simp [Visible, VisibleTree, qCall, qi, parens, h.1], ?_⟩, ?_⟩
  · rw [e]
    exact (plain_parens h).cons_word hn (by rw [pieces_parens]; simp)
  · intro w hw
    rw [e, pieces_parens, show ∀ x : List Piece, (.word n.toList :: .mark '(' :: (x ++ [.mark ')'])) =
      (.word n.toList :: .mark '(' :: x) ++ [.mark ')'] from fun _ => rfl, List.getLast?_concat] at hw
    cases hw

theorem pieces_pathCall (t : Text) (m : String) (r : Tokens) : pieces (qPathCall t m r) =
    .word t :: .mark ':' :: .mark ':' :: pieces (qCall m r) := by
  simp [qPathCall, qCall, pieces, piecesOf, qi, colon2]

theorem val_pathCall {t : Text} (ht : PlainWord t) {m : String} (hm : PlainWord m.toList) {r : Tokens} (h : PlainCode r) :
    Val (qPathCall t m r) := by
  obtain ⟨⟨_, h2⟩, h3⟩ := val_call hm h
  refine ⟨⟨by simp [Visible, VisibleTree, qPathCall, colon2, qi, parens, h.1], ?_⟩, ?_⟩
  · rw [pieces_pathCall]
    exact ((h2.cons_quiet (by decide)).cons_quiet (by decide)).cons_word ht (by simp)
  · intro w hw
    refine h3 w ?_
    have hne : pieces (qCall m r) ≠ [] := by simp [qCall, pieces, piecesOf, qi]
    rw [pieces_pathCall] at hw
    cases hp : pieces (qCall m r) with
    | nil => exact absurd hp hne
    | cons x xs => rw [hp] at hw; simpa using hw

theorem val_vec {r : Tokens} (h : PlainCode r) : Val (qVec r) := by
  have e : pieces (qVec r) = .word "vec".toList :: .mark '!' :: pieces (qArray r) := by simp [qVec, qArray, pieces, piecesOf, qi]
  refine ⟨⟨by simp [Visible, VisibleTree, qVec, qi, h.1], ?_⟩, ?_⟩
  · rw [e]
    exact ((plain_square h).cons_quiet (by decide)).cons_word ⟨by decide, .inl ⟨by decide, by decide⟩⟩ (by simp)
  · intro w hw
    refine (val_array h).2 w ?_
    rw [e] at hw
    cases hp : pieces (qArray r) with
    | nil => simp [qArray, pieces, piecesOf, brackets] at hp
    | cons x xs => rw [hp] at hw; simpa using hw

theorem plainCode_nil : PlainCode [] := ⟨trivial, plain_nil⟩

/-- Names that the code writes. -/
theorem plainWord_of {w : Text} (h : ((modeAfter w).closed && ((lexemes w == [.word w] && w.head? != some '\'') || lexemes w == [.quoted w])) = true) :
    PlainWord w := by
  simp only [Bool.and_eq_true, Bool.or_eq_true, beq_iff_eq, bne_iff_ne] at h
  exact ⟨h.1, h.2⟩

theorem val_word {tok : TokenTree} {w : Text} (ht : tok = .ident w ∨ tok = .literal w) (hw : PlainWord w) (hl : w.getLast? ≠ some '.') : Val [tok] := by
  have e : pieces [tok] = [.word w] := by rcases ht with rfl | rfl <;> simp [pieces, piecesOf]
  refine ⟨⟨by rcases ht with rfl | rfl <;> simp [Visible, VisibleTree], by rw [e]; exact plain_word hw⟩, ?_⟩
  intro v hv
  rw [e] at hv
  have : w = v := by simpa using hv
  rw [← this]; exact hl

theorem val_quiet {c : Char} (hc : quiet c = true) {r : Tokens} (h : Val r) : Val (.punct c :: r) := by
  have e : pieces (.punct c :: r) = .mark c :: pieces r := by simp [pieces, piecesOf]
  refine ⟨⟨by simp [Visible, VisibleTree, h.1.1], by rw [e]; exact h.1.2.cons_quiet hc⟩, ?_⟩
  intro w hw
  rw [e] at hw
  refine h.2 w ?_
  cases hp : pieces r with
  | nil => rw [hp] at hw; simp at hw
  | cons x xs => rw [hp] at hw; simpa using hw

/-- `rep.name()` -/
theorem val_method {r : Tokens} (h : Val r) {n : String} (hn : PlainWord n.toList)
    (hc : ∃ c v, n.toList = c :: v ∧ wordChar c = true ∧ c.isDigit = false) : Val (r ++ [.punct '.', qi n, parens []]) := by
  have e : pieces (r ++ [.punct '.', qi n, parens []]) = pieces r ++ ([.mark '.'] ++ pieces (qCall n [])) := by
    rw [pieces_append]
    simp [pieces, piecesOf, qCall, qi]
  obtain ⟨c, v, hcv, hc1, hc2⟩ := hc
  have hcall := val_call hn plainCode_nil
  have hd : PlainPieces [.mark '.'] := by
    refine ⟨?_, ?_, ?_, ?_, ?_⟩
    · intro v hv; simp at hv
    · intro d hd; simp at hd; rw [hd]; decide
    · intro pre post e
      cases pre with
      | nil => simp at e
      | cons x pre => simp at e
    · rintro d ⟨pre, post, e⟩
      have := congrArg List.length e
      simp at this
      omega
    · intro pre w post e
      have := congrArg List.length e
      simp at this
      omega
  have hfirst : (pieces (qCall n [])).head? = some (.word (c :: v)) := by
    rw [← hcv]; simp [qCall, pieces, piecesOf, qi]
  refine ⟨⟨visible_append h.1.1 (by simp [Visible, VisibleTree, qi, parens]), ?_⟩, ?_⟩
  · rw [e]
    refine h.1.2.append (hd.append hcall.1.2 (by simp) (by simp)) ?_ ?_
    · intro _; simp
    · intro w hw _
      exact ⟨h.2 w hw, c, v, by simpa using hfirst, hc1, hc2⟩
  · intro w hw
    refine hcall.2 w ?_
    rw [e, List.getLast?_append, List.getLast?_append] at hw
    cases hx : (pieces (qCall n [])).getLast? with
    | none =>
      have : pieces (qCall n []) = [] := by simpa using hx
      rw [this] at hfirst; cases hfirst
    | some x => rw [hx] at hw; exact hw

theorem plainCode_sep {c : Char} (hc : quiet c = true) {a b : Tokens} (ha : PlainCode a) (hb : PlainCode b) : PlainCode (a ++ .punct c :: b) := by
  refine ⟨visible_append ha.1 (by simp [Visible, VisibleTree, hb.1]), ?_⟩
  rw [pieces_append, show pieces (.punct c :: b) = .mark c :: pieces b by simp [pieces, piecesOf]]
  exact ha.2.mid hc hb.2

theorem plainCode_commas : ∀ {reps : List Tokens}, (∀ r ∈ reps, PlainCode r) → PlainCode (commaSep reps)
  | [], _ => plainCode_nil
  | [r], h => h r (by simp)
  | r :: s :: rest, h => by
    rw [commaSep, List.append_assoc]
    exact plainCode_sep (by decide) (h r (by simp)) (plainCode_commas fun x hx => h x (by simp [List.mem_cons.1 hx]))

theorem val_iter {n : String} (hn : PlainWord n.toList) {r : Tokens} (h : PlainCode r) : Val (qIter n r) := by
  have e : pieces (qIter n r) = .mark ':' :: .mark ':' :: .word "std".toList :: .mark ':' :: .mark ':' :: pieces (qPathCall "iter".toList n r) := by
    simp [qIter, qPathCall, pieces, piecesOf, qi, colon2]
  have hp := val_pathCall (t := "iter".toList) (plainWord_of (by decide)) hn h
  refine ⟨⟨by simp [Visible, VisibleTree, qIter, colon2, qi, parens, h.1], ?_⟩, ?_⟩
  · rw [e]
    exact ((((hp.1.2.cons_quiet (by decide)).cons_quiet (by decide)).cons_word (plainWord_of (by decide)) (by simp)).cons_quiet
      (by decide)).cons_quiet (by decide)
  · intro w hw
    refine hp.2 w ?_
    rw [e] at hw
    cases hx : pieces (qPathCall "iter".toList n r) with
    | nil => rw [pieces_pathCall] at hx; cases hx
    | cons x xs => rw [hx] at hw; simpa using hw

theorem val_default : Val qDefault := by
  have := val_pathCall (t := "Default".toList) (m := "default") (plainWord_of (by decide)) (plainWord_of (by decide)) plainCode_nil
  exact this

theorem val_lit (s : String) (h : PlainWord s.toList) (hl : s.toList.getLast? ≠ some '.') : Val [ql s] := val_word (.inr rfl) h hl
theorem val_id (s : String) (h : PlainWord s.toList) (hl : s.toList.getLast? ≠ some '.') : Val [qi s] := val_word (.inl rfl) h hl

theorem _root_.CM.Spec.PlainType.arg {p : SynPath Ty} {n : Text} {l : List (GenericArg Ty)} {t : Ty} (h : PlainType (.path p)) (hl : LastSegment p n (.angle l))
    (ht : .type t ∈ l) : PlainType t := by
  obtain ⟨init, hi⟩ := hl
  have hs : (⟨n, .angle l⟩ : PathSegment Ty) ∈ p.segments := by rw [hi]; simp
  exact ⟨fun q hq => h.names q (.arg hs rfl (.inl ht) hq), fun e len hq => h.lengths e len (.arg hs rfl (.inl ht) hq)⟩

theorem _root_.CM.Spec.PlainType.first {p : SynPath Ty} {n : Text} {args : PathArgs Ty} {t : Ty} (h : PlainType (.path p)) (hl : LastSegment p n args)
    (ht : FirstType args t) : PlainType t := by
  obtain ⟨k, rest, rfl⟩ := ht
  exact h.arg hl (by simp)

theorem _root_.CM.Spec.PlainType.name {p : SynPath Ty} {n : Text} {args : PathArgs Ty} (h : PlainType (.path p)) (hl : LastSegment p n args) : PlainWord n := by
  obtain ⟨init, hi⟩ := hl
  exact h.names p .self ⟨n, args⟩ (by rw [hi]; simp)

theorem vals_cons {a : Tokens} {l : List Tokens} (h1 : Val a) (h2 : ∀ v ∈ l, Val v) : ∀ v ∈ a :: l, Val v := by
  intro v hv
  rcases List.mem_cons.1 hv with rfl | hv
  · exact h1
  · exact h2 v hv

theorem vals_map {f : Tokens → Tokens} {l : List Tokens} (h : ∀ v ∈ l, Val v) (hf : ∀ v, Val v → Val (f v)) : ∀ v ∈ l.map f, Val v := by
  intro v hv
  obtain ⟨r, hr, rfl⟩ := List.mem_map.1 hv
  exact hf r (h r hr)

theorem vals_nil : ∀ v ∈ ([] : List Tokens), Val v := fun v hv => by cases hv

theorem vals_slice {l : List Tokens} (h : ∀ v ∈ l, Val v) : ∀ v ∈ sliceReplacements l, Val v := by
  have hl : ∀ {r}, Val r → Val (qLeakVec r) := fun hr => val_pathCall (plainWord_of (by decide)) (plainWord_of (by decide)) hr.1
  refine vals_cons (hl (val_pathCall (plainWord_of (by decide)) (plainWord_of (by decide)) plainCode_nil)) (vals_map h fun v hv => hl (val_vec hv.1))

/-- All values of a type. -/
theorem vals_type (errs : List Tokens) (he : ∀ e ∈ errs, PlainCode e) (t : Ty) (ht : PlainType t) : ∀ v ∈ typeReplacements errs t, Val v := by
  obtain ⟨vs, h⟩ := values_exist (errs.map pretty) t
  have hnew : ∀ {n : Text}, PlainWord n → Val (qPathCall n "new" []) := fun hn => val_pathCall hn (plainWord_of (by decide)) plainCode_nil
  have hiter : ∀ {n : Text} {r : Tokens}, PlainWord n → PlainCode r → Val (qPathCall n "from_iter" (qArray r)) :=
    fun hn hr => val_pathCall hn (plainWord_of (by decide)) (val_array hr).1
  have herr : ∀ v ∈ errs.map (qCall "Err"), Val v := by
    intro v hv
    obtain ⟨r, hr, rfl⟩ := List.mem_map.1 hv
    exact val_call (plainWord_of (by decide)) (he r hr)
  have v0 : Val [ql "0"] := val_lit _ (plainWord_of (by decide)) (by decide)
  have v1 : Val [ql "1"] := val_lit _ (plainWord_of (by decide)) (by decide)
  have v00 : Val [ql "0.0"] := val_lit _ (plainWord_of (by decide)) (by decide)
  have v10 : Val [ql "1.0"] := val_lit _ (plainWord_of (by decide)) (by decide)
  have ve : Val [ql "\"\""] := val_lit _ (plainWord_of (by decide)) (by decide)
  have vx : Val [ql "\"xyzzy\""] := val_lit _ (plainWord_of (by decide)) (by decide)
  induction h with
  | bool hp =>
    rw [path_eq, row_bool (plain_map hp)]
    exact vals_cons (val_id _ (plainWord_of (by decide)) (by decide)) (vals_cons (val_id _ (plainWord_of (by decide)) (by decide)) vals_nil)
  | string hp =>
    rw [path_eq, row_string (plain_map hp)]
    exact vals_cons (hnew (plainWord_of (by decide)))
      (vals_cons (val_method vx (n := "into") (plainWord_of (by decide)) ⟨'i', "nto".toList, by decide, by decide, by decide⟩) vals_nil)
  | str hp => rw [path_eq, row_str (plain_map hp)]; exact vals_cons ve (vals_cons vx vals_nil)
  | unsigned hn hp => rw [path_eq, row_unsigned (plain_map hp) hn]; exact vals_cons v0 (vals_cons v1 vals_nil)
  | signed hn hp =>
    rw [path_eq, row_signed (plain_map hp) hn]; exact vals_cons v0 (vals_cons v1 (vals_cons (val_quiet (by decide) v1) vals_nil))
  | float hn hp =>
    rw [path_eq, row_float (plain_map hp) hn]; exact vals_cons v00 (vals_cons v10 (vals_cons (val_quiet (by decide) v10) vals_nil))
  | nonzeroSigned hn hl =>
    rw [path_eq, row_nonzeroSigned (lastSegment_map hl) hn]; exact vals_cons v1 (vals_cons (val_quiet (by decide) v1) vals_nil)
  | nonzeroUnsigned hn hl => rw [path_eq, row_nonzeroUnsigned (lastSegment_map hl) hn]; exact vals_cons v1 vals_nil
  | @result p args t vs hl hf _ ih =>
    rw [path_eq, row_result (lastSegment_map hl) (firstType_map hf)]
    intro v hv
    rcases List.mem_append.1 hv with hv | hv
    · exact vals_map (ih (ht.first hl hf)) (fun r hr => val_call (plainWord_of (by decide)) hr.1) v hv
    · exact herr v hv
  | bareResult hl hf =>
    rw [path_eq, row_bareResult (lastSegment_map hl) fun t h => by obtain ⟨u, hu⟩ := firstType_of_map h; exact hf u hu]
    exact vals_cons (val_call (plainWord_of (by decide)) val_default.1) herr
  | httpResponse hl =>
    rw [path_eq, row_httpResponse (lastSegment_map hl)]
    refine vals_cons (val_method (val_pathCall (plainWord_of (by decide)) (plainWord_of (by decide)) plainCode_nil) (n := "finish")
      (plainWord_of (by decide)) ⟨'f', "inish".toList, by decide, by decide, by decide⟩) vals_nil
  | option hl hf _ ih =>
    rw [path_eq, row_option (lastSegment_map hl) (firstType_map hf)]
    exact vals_cons (val_id _ (plainWord_of (by decide)) (by decide))
      (vals_map (ih (ht.first hl hf)) fun r hr => val_call (plainWord_of (by decide)) hr.1)
  | vec hl hf _ ih =>
    rw [path_eq, row_vec (lastSegment_map hl) (firstType_map hf)]
    exact vals_cons (val_vec plainCode_nil) (vals_map (ih (ht.first hl hf)) fun r hr => val_vec hr.1)
  | cow hl hf _ ih =>
    rw [path_eq, row_cow (lastSegment_map hl) (firstType_map hf)]
    intro v hv
    obtain ⟨r, hr, hv⟩ := List.mem_flatMap.1 hv
    have hr := ih (ht.first hl hf) r hr
    simp only [List.mem_cons, List.not_mem_nil, or_false] at hv
    rcases hv with rfl | rfl
    · exact val_pathCall (plainWord_of (by decide)) (plainWord_of (by decide)) hr.1
    · exact val_pathCall (plainWord_of (by decide)) (plainWord_of (by decide))
        (val_method hr (n := "to_owned") (plainWord_of (by decide)) ⟨'t', "o_owned".toList, by decide, by decide, by decide⟩).1
  | container hn hl _ ih =>
    rw [path_eq, row_container hn (lastSegment_map hl)]
    exact vals_map (ih (ht.arg hl (by simp))) fun r hr => val_pathCall (ht.name hl) (plainWord_of (by decide)) hr.1
  | collection hn hl _ ih =>
    rw [path_eq, row_collection hn (lastSegment_map hl)]
    exact vals_cons (hnew (ht.name hl)) (vals_map (ih (ht.arg hl (by simp))) fun r hr => hiter (ht.name hl) hr.1)
  | map hn hl _ _ ih1 ih2 =>
    rw [path_eq, row_map hn (lastSegment_map hl)]
    refine vals_cons (hnew (ht.name hl)) fun v hv => ?_
    obtain ⟨k, hk, hv⟩ := List.mem_flatMap.1 hv
    obtain ⟨x, hx, rfl⟩ := List.mem_map.1 hv
    refine hiter (ht.name hl) (val_parens ?_).1
    rw [List.append_assoc]
    exact plainCode_sep (by decide) (ih1 (ht.arg hl (by simp)) k hk).1 (ih2 (ht.arg hl (by simp)) x hx).1
  | oneArgument hL hl ho _ ih =>
    rw [path_eq, row_one (fun h => hL (listed_of_map h)) (lastSegment_map hl) (oneType_map ho)]
    refine vals_cons (hnew (ht.name hl)) fun v hv => ?_
    obtain ⟨r, hr, hv⟩ := List.mem_flatMap.1 hv
    have hn := ht.name hl
    obtain ⟨a, b, rfl, _⟩ := ho
    have hr := ih (ht.arg hl (by simp)) r hr
    simp only [List.mem_cons, List.not_mem_nil, or_false] at hv
    rcases hv with rfl | rfl | rfl
    · exact hiter hn hr.1
    · exact val_pathCall hn (plainWord_of (by decide)) hr.1
    · exact val_pathCall hn (plainWord_of (by decide)) hr.1
  | default hL hl =>
    rw [path_eq, row_default (fun h => hL (listed_of_map h)) fun n a t h1 h2 => by
      obtain ⟨args, u, h3, h4⟩ := oneType_of_map h1 h2; exact hl _ _ _ h3 h4]
    exact vals_cons val_default vals_nil
  | @array t len vs _ ih =>
    rw [typeReplacements]
    refine vals_map (ih ⟨fun p hp => ht.names p (.array hp), fun e l hl => ht.lengths e l (.array hl)⟩) fun r hr => ?_
    rw [List.append_assoc]
    exact val_array (plainCode_sep (by decide) hr.1 (ht.lengths t len .self))
  | slice _ ih =>
    rw [typeReplacements]
    exact vals_slice (ih ⟨fun p hp => ht.names p (.slice hp), fun e l hl => ht.lengths e l (.slice hl)⟩)
  | @sliceRef m t vs _ ih =>
    have e : typeReplacements errs (.reference m (.slice t)) = sliceReplacements (typeReplacements errs t) := by
      cases m <;> rfl
    rw [e]
    exact vals_slice (ih ⟨fun p hp => ht.names p (.reference (.slice hp)), fun e l hl => ht.lengths e l (.reference (.slice hl))⟩)
  | strRef hp =>
    rw [typeReplacements, if_pos (isIdent_iff.2 hp)]
    exact vals_cons ve (vals_cons vx vals_nil)
  | @ref t vs hs hp _ ih =>
    have e : typeReplacements errs (.reference false t) =
        (typeReplacements errs t).map fun rep => .punct '&' :: rep := by
      cases t with
      | path p =>
        show (if p.isIdent "str".toList then _ else _) = _
        rw [if_neg fun h => hp p rfl (isIdent_iff.1 h)]
      | slice e => exact absurd rfl (hs e)
      | _ => rfl
    rw [e]
    exact vals_map (ih ⟨fun p hp => ht.names p (.reference hp), fun e l hl => ht.lengths e l (.reference hl)⟩) fun r hr =>
      val_quiet (by decide) hr
  | @mutRef t vs hs _ ih =>
    have e : typeReplacements errs (.reference true t) = (typeReplacements errs t).map fun rep =>
        qPathCall "Box".toList "leak" (qPathCall "Box".toList "new" rep) := by
      cases t with
      | slice e => exact absurd rfl (hs e)
      | _ => rfl
    rw [e]
    exact vals_map (ih ⟨fun p hp => ht.names p (.reference hp), fun e l hl => ht.lengths e l (.reference hl)⟩) fun r hr =>
      val_pathCall (plainWord_of (by decide)) (plainWord_of (by decide))
        (val_pathCall (plainWord_of (by decide)) (plainWord_of (by decide)) hr.1).1
  | @tuple ts vss hl _ ih =>
    have good : ∀ t ∈ ts, ∀ v ∈ typeReplacements errs t, Val v := by
      intro t hmem
      obtain ⟨i, hi, rfl⟩ := List.mem_iff_getElem.1 hmem
      exact ih i ts[i] vss[i] (List.getElem?_eq_getElem hi) (List.getElem?_eq_getElem (by rw [hl]; exact hi))
        ⟨fun p hp => ht.names p (.tuple hmem hp), fun e l hl => ht.lengths e l (.tuple hmem hl)⟩
    rw [typeReplacements, tupleValues_eq, product_choices]
    intro v hv
    obtain ⟨reps, hreps, rfl⟩ := List.mem_map.1 hv
    refine val_parens (plainCode_commas fun r hr => ?_)
    obtain ⟨xs, hxs, hx⟩ := mem_choices hreps r hr
    obtain ⟨t, hmem, rfl⟩ := List.mem_map.1 hxs
    exact (good t hmem r hx).1
  | @implIterator a b c t vs hb ha _ ih =>
    rw [typeReplacements, boundsValues_eq, matchImpl_map, matchImpl_some.2 ⟨_, _, _, rfl, hb, ha⟩]
    obtain ⟨p, rest, rfl, init, hi⟩ := hb
    have hs : (⟨"Iterator".toList, .angle (.assocType "Item".toList t :: rest)⟩ : PathSegment Ty) ∈ p.segments := by rw [hi]; simp
    have hin : ∀ u, TypeIn u t → TypeIn u (.implTrait (a ++ .trait p :: c)) := fun u hu =>
      .bound (p := p) (by simp) hs rfl (.inr ⟨"Item".toList, List.mem_cons_self⟩) hu
    exact vals_cons (val_iter (plainWord_of (by decide)) plainCode_nil)
      (vals_map (ih ⟨fun p hp => ht.names p (hin _ hp), fun e l hl => ht.lengths e l (hin _ hl)⟩) fun r hr =>
        val_iter (plainWord_of (by decide)) hr.1)
  | implOther hb => rw [typeReplacements, boundsValues_eq, matchImpl_map, matchImpl_none.2 hb]; exact vals_nil
  | never => rw [typeReplacements]; exact vals_nil
  | other => rw [typeReplacements]; exact vals_cons val_default vals_nil

end CM.Props
