import Verif.Proofs.OutputDir
import Verif.Props.Output
/-! Properties C17, C36 and C37: rotation of the output directory and `--iterate`. -/
namespace CM.Props
open CM CM.Spec

/-! ### C17 -/

/-- The files of a new output directory: the lock, two subdirectories and four empty lists. -/
def IsFresh (d : Dir) : Prop :=
  ∀ f t, d f = some t →
    (f = "lock.json".toList ∨
     f ∈ ["log".toList, "diff".toList, "missed.txt".toList, "caught.txt".toList,
       "unviable.txt".toList, "timeout.txt".toList] ∧ t = [])

/-- C17: `OutputDir::new` succeeds from every prior state; `mutants.out` is then fresh;
`mutants.out.old` is what `mutants.out` was, except for the lock file, if there was one, and is
otherwise untouched. -/
theorem C17_rotation (s : FsState) :
    ∃ s', s.applyAll (newOutputDirOps s) = some s' ∧
      (∃ d, s'.out = some d ∧ IsFresh d) ∧
      (s.out = none → s'.old = s.old) ∧
      (∀ d, s.out = some d → ∃ d', s'.old = some d' ∧
        ∀ f, f ≠ "lock.json".toList → d' f = d f) := by
  refine ⟨_, newOutputDir_spec s, ⟨freshDir, rfl, ?_⟩, ?_, ?_⟩
  · intro f t h
    by_cases h1 : f = "lock.json".toList
    · exact .inl h1
    · right
      unfold freshDir Dir.put at h
      by_cases h2 : f = "timeout.txt".toList
      · rw [if_pos h2] at h; simp only [Option.some.injEq] at h; simp [h2, ← h]
      rw [if_neg h2] at h
      by_cases h3 : f = "unviable.txt".toList
      · rw [if_pos h3] at h; simp only [Option.some.injEq] at h; simp [h3, ← h]
      rw [if_neg h3] at h
      by_cases h4 : f = "caught.txt".toList
      · rw [if_pos h4] at h; simp only [Option.some.injEq] at h; simp [h4, ← h]
      rw [if_neg h4] at h
      by_cases h5 : f = "missed.txt".toList
      · rw [if_pos h5] at h; simp only [Option.some.injEq] at h; simp [h5, ← h]
      rw [if_neg h5] at h
      by_cases h6 : f = "diff".toList
      · rw [if_pos h6] at h; simp only [Option.some.injEq] at h; simp [h6, ← h]
      rw [if_neg h6] at h
      by_cases h7 : f = "log".toList
      · rw [if_pos h7] at h; simp only [Option.some.injEq] at h; simp [h7, ← h]
      rw [if_neg h7, if_neg h1] at h
      cases h
  · intro h; simp [rotatedOld, h]
  · intro d h
    refine ⟨d.put "lock.json".toList "lock".toList, by simp [rotatedOld, h], ?_⟩
    intro f hf; simp only [Dir.put]; rw [if_neg hf]

/-- C17: at every point at which the program may be stopped while it creates the output directory,
the results of the previous run are still there, in `mutants.out` or in `mutants.out.old`. -/
theorem C17_results_survive_crash (s s' : FsState) (k : Nat) (d : Dir) (hd : s.out = some d)
    (hp : s.parent = true)
    (ha : s.applyAll ((newOutputDirOps s).take k) = some s') :
    ∃ d', (s'.out = some d' ∨ s'.old = some d') ∧ ∀ f, f ≠ "lock.json".toList → d' f = d f := by
  unfold newOutputDirOps at ha
  rw [hp] at ha
  simp only [if_true, List.nil_append] at ha
  rw [List.take_append, applyAll_append] at ha
  cases h1 : s.applyAll ((rotateOps s).take k) with
  | none => rw [h1] at ha; cases ha
  | some s1 =>
    rw [h1] at ha
    simp only [Option.bind_some] at ha
    rcases rotate_prefix s s1 d hd k h1 with ⟨hk, d', h2, h3⟩ | ⟨hk, _, d', h2, h3⟩
    · rw [show k - (rotateOps s).length = 0 by omega] at ha
      simp only [List.take_zero, FsState.applyAll, Option.some.injEq] at ha
      subst ha
      exact ⟨d', .inl h2, h3⟩
    · refine ⟨d', .inr ?_, h3⟩
      rw [applyAll_keepsOld ?_ ha, h2]
      intro op hop
      have := List.mem_of_mem_take hop
      revert op
      intro op _ hop
      simp only [createOps, List.mem_cons, List.not_mem_nil, or_false] at hop
      rcases hop with rfl | rfl | rfl | rfl | rfl | rfl | rfl | rfl <;> rfl

/-- A previous run and one before it: the older one is dropped. -/
example :
    let s : FsState := ⟨true, some (Dir.put (fun _ => none) "caught.txt".toList "a\n".toList),
      some (Dir.put (fun _ => none) "caught.txt".toList "older\n".toList)⟩
    ((s.applyAll (newOutputDirOps s)).bind fun s' => s'.old.bind fun d => d "caught.txt".toList) =
      some "a\n".toList := by decide

/-! ### C36 -/

/-- A line of a text: it starts at the start or after a line feed, and ends at CR and LF, at LF alone, or, if it is not empty, at
the end. -/
def IsLine (t n : Text) : Prop :=
  ∃ pre post : Text, (pre = [] ∨ pre.getLast? = some '\n') ∧ '\n' ∉ n ∧
    (t = pre ++ n ++ '\r' :: '\n' :: post ∨ (t = pre ++ n ++ '\n' :: post ∧ n.getLast? ≠ some '\r') ∨ (t = pre ++ n ∧ n ≠ []))

theorem cut_unique {l l' r r' : Text} (h : l ++ '\n' :: r = l' ++ '\n' :: r') (hl : '\n' ∉ l) (hl' : '\n' ∉ l') : l = l' ∧ r = r' := by
  induction l generalizing l' with
  | nil =>
    cases l' with
    | nil => simpa using h
    | cons c l' => simp at h; simp [← h.1] at hl'
  | cons c l ih =>
    cases l' with
    | nil => simp at h; simp [h.1] at hl
    | cons c' l' =>
      simp only [List.cons_append, List.cons.injEq] at h
      simp only [List.mem_cons, not_or] at hl hl'
      obtain ⟨h1, h2⟩ := ih h.2 hl.2 hl'.2
      exact ⟨by rw [h.1, h1], h2⟩

theorem first_newline {t : Text} (h : '\n' ∈ t) : ∃ l rest, t = l ++ '\n' :: rest ∧ '\n' ∉ l := by
  induction t with
  | nil => cases h
  | cons c t ih =>
    by_cases hc : c = '\n'
    · subst hc; exact ⟨[], t, rfl, by simp⟩
    · obtain ⟨l, r, rfl, hl⟩ := ih ((List.mem_cons.1 h).resolve_left (Ne.symm hc))
      exact ⟨c :: l, r, rfl, by simp [hl, Ne.symm hc]⟩

theorem linesFrom_last (cur t : Text) (h : '\n' ∉ t) :
    linesFrom cur t = if t.reverse ++ cur = [] then [] else [(t.reverse ++ cur).reverse] := by
  induction t generalizing cur with
  | nil => rfl
  | cons c t ih =>
    simp only [List.mem_cons, not_or] at h
    rw [linesFrom, if_neg (Ne.symm h.1), ih _ h.2]
    simp

theorem strip_eq (l n : Text) : (stripCrRev l.reverse).reverse = n ↔ l = n ++ ['\r'] ∨ (l = n ∧ n.getLast? ≠ some '\r') := by
  rcases List.eq_nil_or_concat l with rfl | ⟨l', c, rfl⟩
  · simp [stripCrRev]
    rintro rfl; simp
  · simp only [List.concat_eq_append, List.reverse_append, List.reverse_cons, List.reverse_nil, List.nil_append, List.singleton_append,
      stripCrRev]
    by_cases hc : c = '\r'
    · subst hc
      simp only [if_true, List.reverse_reverse]
      constructor
      · rintro rfl; exact .inl rfl
      · rintro (h | ⟨rfl, h⟩)
        · exact List.append_cancel_right h
        · simp at h
    · rw [if_neg hc]
      simp only [List.reverse_cons, List.reverse_reverse]
      constructor
      · rintro rfl; right; simpa using hc
      · rintro (h | ⟨rfl, h⟩)
        · have := congrArg List.getLast? h
          simp at this
          exact absurd this hc
        · rfl

/-- The lines that are read are the lines of the text. -/
theorem mem_rustLines (t n : Text) : n ∈ rustLines t ↔ IsLine t n := by
  unfold rustLines
  generalize hk : t.length = k
  induction k using Nat.strongRecOn generalizing t with
  | ind k ih =>
    by_cases ht : '\n' ∈ t
    · obtain ⟨l, rest, rfl, hl⟩ := first_newline ht
      have hlt : rest.length < k := by rw [← hk]; simp; omega
      rw [linesFrom_line _ _ _ hl, List.append_nil, List.mem_cons, ih _ hlt rest rfl, eq_comm, strip_eq]
      constructor
      · rintro ((rfl | ⟨rfl, h⟩) | ⟨pre, post, h1, h2, h3⟩)
        · exact ⟨[], rest, .inl rfl, fun h => hl (by simp [h]), .inl (by simp)⟩
        · exact ⟨[], rest, .inl rfl, hl, .inr (.inl ⟨by simp, h⟩)⟩
        · refine ⟨l ++ '\n' :: pre, post, .inr ?_, h2, ?_⟩
          · rcases h1 with rfl | h1
            · simp
            · rw [List.getLast?_append, List.getLast?_cons, h1]; rfl
          · rcases h3 with rfl | ⟨rfl, h3⟩ | ⟨rfl, h3⟩
            · left; simp
            · right; left; exact ⟨by simp, h3⟩
            · right; right; exact ⟨by simp, h3⟩
      · rintro ⟨pre, post, h1, h2, h3⟩
        by_cases hp : pre = []
        · subst hp
          left
          rcases h3 with h | ⟨h, h3⟩ | ⟨h, h3⟩
          · have : l ++ '\n' :: rest = (n ++ ['\r']) ++ '\n' :: post := by simpa using h
            exact .inl (cut_unique this hl (by simp [h2])).1
          · exact .inr ⟨(cut_unique (l' := n) (by simpa using h) hl h2).1, h3⟩
          · rw [List.nil_append] at h; rw [← h] at h2; simp at h2
        · right
          have hp' : '\n' ∈ pre := by
            rcases h1 with h1 | h1
            · exact absurd h1 hp
            · exact List.mem_of_getLast? h1
          obtain ⟨l2, pre2, rfl, hl2⟩ := first_newline hp'
          have hpre2 : pre2 = [] ∨ pre2.getLast? = some '\n' := by
            cases pre2 with
            | nil => exact .inl rfl
            | cons c p =>
              right
              rcases h1 with h1 | h1
              · simp at h1
              · rw [List.getLast?_append] at h1
                simpa using h1
          rcases h3 with h | ⟨h, h3⟩ | ⟨h, h3⟩
          · obtain ⟨_, e⟩ := cut_unique (l' := l2) (r' := pre2 ++ n ++ '\r' :: '\n' :: post) (by simpa using h) hl hl2
            exact ⟨pre2, post, hpre2, h2, .inl e⟩
          · obtain ⟨_, e⟩ := cut_unique (l' := l2) (r' := pre2 ++ n ++ '\n' :: post) (by simpa using h) hl hl2
            exact ⟨pre2, post, hpre2, h2, .inr (.inl ⟨e, h3⟩)⟩
          · obtain ⟨_, e⟩ := cut_unique (l' := l2) (r' := pre2 ++ n) (by simpa using h) hl hl2
            exact ⟨pre2, post, hpre2, h2, .inr (.inr ⟨e, h3⟩)⟩
    · rw [linesFrom_last _ _ ht]
      simp only [List.append_nil, List.reverse_eq_nil_iff, List.reverse_reverse]
      constructor
      · intro h
        by_cases he : t = []
        · rw [if_pos he] at h; cases h
        · rw [if_neg he] at h
          cases List.mem_singleton.1 h
          exact ⟨[], [], .inl rfl, ht, .inr (.inr ⟨rfl, he⟩)⟩
      · rintro ⟨pre, post, h1, h2, h3⟩
        rcases h3 with rfl | ⟨rfl, _⟩ | ⟨rfl, h3⟩
        · simp at ht
        · simp at ht
        · have hp : pre = [] := by
            rcases h1 with h1 | h1
            · exact h1
            · exact absurd (List.mem_append_left _ (List.mem_of_getLast? h1)) ht
          subst hp
          rw [if_neg (by simpa using h3)]
          simp

/-- A line of one of the files that `--iterate` reads. -/
def ListedAsDone (s : FsState) (n : Text) : Prop :=
  ∃ d f t, s.out = some d ∧
    (f = "caught.txt".toList ∨ f = "unviable.txt".toList ∨ f = "previously_caught.txt".toList) ∧
    d f = some t ∧ n ∈ rustLines t

theorem mem_load {s : FsState} {n : Text} : n ∈ loadPreviouslyCaught s ↔ ListedAsDone s n := by
  unfold loadPreviouslyCaught ListedAsDone
  rw [List.mem_flatMap]
  constructor
  · rintro ⟨f, hf, hn⟩
    cases hb : s.out.bind fun d => d f with
    | none => rw [hb] at hn; cases hn
    | some t =>
      rw [hb] at hn
      rw [Option.bind_eq_some_iff] at hb
      obtain ⟨d, hd, hdf⟩ := hb
      refine ⟨d, f, t, hd, ?_, hdf, hn⟩
      simpa using hf
  · rintro ⟨d, f, t, hd, hf, hdf, hn⟩
    refine ⟨f, by simpa using hf, ?_⟩
    simp [hd, hdf, hn]

/-- C36: with `--iterate`, the mutants left out are exactly those whose full name is a line of
`caught.txt`, `unviable.txt` or `previously_caught.txt` of the last run; the others keep their order
and number. -/
theorem C36_iterate_skips_exactly (s : FsState) (ms kept : List Mutant)
    (h : removePreviouslyCaught (loadPreviouslyCaught s) ms = some kept) :
    ∃ p : Mutant → Bool, kept = ms.filter p ∧
      ∀ m ∈ ms, p m = false ↔ ∃ n, m.name true = some n ∧ ListedAsDone s n := by
  refine ⟨fun m => match m.name true with
    | some n => !decide (n ∈ loadPreviouslyCaught s)
    | none => true, ?_, ?_⟩
  · induction ms generalizing kept with
    | nil => simp only [removePreviouslyCaught, Option.some.injEq] at h; rw [← h]; rfl
    | cons m ms ih =>
      simp only [removePreviouslyCaught, Option.bind_eq_bind, Option.bind_eq_some_iff,
        Option.pure_def, Option.some.injEq] at h
      obtain ⟨n, hn, rest, hr, rfl⟩ := h
      have := ih rest hr
      rw [List.filter_cons, ← this]
      by_cases hm : n ∈ loadPreviouslyCaught s <;> simp [hn, hm]
  · intro m hm
    cases hn : m.name true with
    | none => simp [hn]
    | some n => simp [hn, mem_load]

/-- C36: what is read from the files are their lines, with either kind of line end. -/
theorem C36_lines (s : FsState) (n : Text) : ListedAsDone s n ↔ ∃ d f t, s.out = some d ∧
    (f = "caught.txt".toList ∨ f = "unviable.txt".toList ∨ f = "previously_caught.txt".toList) ∧ d f = some t ∧ IsLine t n := by
  unfold ListedAsDone
  simp only [mem_rustLines]

example : IsLine "a\r\nb".toList "a".toList ∧ IsLine "a\r\nb".toList "b".toList ∧ ¬ IsLine "a\r\nb".toList "a\r".toList := by
  simp only [← mem_rustLines]
  decide

/-- C36: the names can always be computed for mutants that have one. -/
theorem C36_total (previous : List Text) (ms : List Mutant) (h : ∀ m ∈ ms, m.name true ≠ none) :
    ∃ kept, removePreviouslyCaught previous ms = some kept := by
  induction ms with
  | nil => exact ⟨[], rfl⟩
  | cons m ms ih =>
    obtain ⟨rest, hr⟩ := ih fun m hm => h m (by simp [hm])
    cases hn : m.name true with
    | none => exact absurd hn (h m (by simp))
    | some n => exact ⟨_, by simp [removePreviouslyCaught, hn, hr]; rfl⟩

def caughtState : FsState :=
  ⟨true, some (Dir.put (fun _ => none) "caught.txt".toList
    "src/lib.rs:1:18: replace f -> bool with true\n".toList), none⟩

example : removePreviouslyCaught (loadPreviouslyCaught caughtState)
    [sampleMutant, { sampleMutant with replacement := "false".toList }] =
    some [{ sampleMutant with replacement := "false".toList }] := by decide

/-! ### C37 -/

/-- One `--iterate` run: the outcomes recorded, and the number of file operations after which it
stops (more than there are if it ends normally). -/
structure IterRun where
  outcomes : List ScenarioOutcome
  stop : Nat

/-- The state of the output parent after a run. -/
def IterRun.exec (r : IterRun) (s : FsState) : Option FsState :=
  (allWrites r.outcomes).bind fun ws => s.applyAll ((iterateRunOps s ws).take r.stop)

/-- A history of runs. -/
def execAll : List IterRun → FsState → Option FsState
  | [], s => some s
  | r :: rs, s => (r.exec s).bind (execAll rs)

/-- The number of file operations that a run from `s` makes until an outcome list is recorded. -/
def opsUntil (s : FsState) (os : List ScenarioOutcome) : Nat :=
  match allWrites os with
  | some ws => (iterateRunOps s ws).length
  | none => 0

/-- C37 in full: once a run has recorded a mutant as caught or unviable, no later run in any history
of `--iterate` runs, however they are stopped, tests a mutant of that name. -/
def NeverForgets : Prop :=
  ∀ (s s1 s2 : FsState) (r : IterRun) (rs : List IterRun) (pre post : List ScenarioOutcome)
    (o : ScenarioOutcome) (n : Text) (v : SummaryOutcome) (ms kept : List Mutant),
    s.parent = true →
    r.outcomes = pre ++ o :: post → opsUntil s (pre ++ [o]) ≤ r.stop →
    IsOutcomeOf o n v → (v = .caughtMutant ∨ v = .unviable) →
    (∀ m ∈ n, m ≠ '\n' ∧ m ≠ '\r') →
    r.exec s = some s1 → execAll rs s1 = some s2 →
    removePreviouslyCaught (loadPreviouslyCaught s2) ms = some kept →
    ∀ m ∈ kept, m.name true ≠ some n

/-- A run that is not stopped between moving the old directory away and writing
`previously_caught.txt`. -/
def StopsSafely (s : FsState) (r : IterRun) : Prop :=
  s.out = none ∨ r.stop < (rotateOps s).length ∨ (newOutputDirOps s).length < r.stop

/-- Every run of the history is stopped safely and records only names that fit on a line. -/
def SafeHistory : List IterRun → FsState → Prop
  | [], _ => True
  | r :: rs, s => StopsSafely s r ∧ (∀ v, ∀ n ∈ namesWith v r.outcomes, OneLine n) ∧
      ∀ s', r.exec s = some s' → SafeHistory rs s'

theorem allWrites_total {os : List ScenarioOutcome} {ws} (h : allWrites os = some ws) (f : OutputFiles) :
    ∃ g, f.writeAll ws = some g := by
  induction os generalizing f ws with
  | nil => simp only [allWrites, Option.some.injEq] at h; subst h; exact ⟨f, rfl⟩
  | cons o os ih =>
    simp only [allWrites, Option.bind_eq_bind, Option.bind_eq_some_iff, Option.pure_def,
      Option.some.injEq] at h
    obtain ⟨a, ha, b, hb, rfl⟩ := h
    have h1 : ∃ f1, f.writeAll a = some f1 := by
      unfold addOutcomeWrites at ha
      cases hsc : o.scenario with
      | baseline =>
        rw [hsc] at ha; simp only [Option.some.injEq] at ha; subst ha
        simp [OutputFiles.writeAll, OutputFiles.write, LabOutcome.add, hsc, Scenario.isMutant]
      | mutant m =>
        rw [hsc] at ha
        simp only [Option.bind_eq_bind, Option.bind_eq_some_iff] at ha
        obtain ⟨s, hs, ha⟩ := ha
        have hadd : ∃ l, f.lab.add o = some l := by
          unfold LabOutcome.add; simp [hsc, Scenario.isMutant, hs]
        obtain ⟨l, hl⟩ := hadd
        split at ha
        · simp at ha; subst ha; simp [OutputFiles.writeAll, OutputFiles.write, hl]
        · simp only [Option.bind_eq_some_iff, Option.pure_def, Option.some.injEq] at ha
          obtain ⟨n, _, ha⟩ := ha
          subst ha; simp [OutputFiles.writeAll, OutputFiles.write, hl]
    obtain ⟨f1, h1⟩ := h1
    obtain ⟨g, hg⟩ := ih hb f1
    exact ⟨g, by rw [writeAll_append, h1]; exact hg⟩

theorem writeAll_take {f g : OutputFiles} {ws} (h : f.writeAll ws = some g) (j : Nat) :
    ∃ g', f.writeAll (ws.take j) = some g' := by
  rw [← List.take_append_drop j ws, writeAll_append] at h
  cases h1 : f.writeAll (ws.take j) with
  | none => rw [h1] at h; cases h
  | some g' => exact ⟨g', rfl⟩

theorem writeAll_get_prefix {ws : List OutputWrite} {f g : OutputFiles} (h : f.writeAll ws = some g)
    (l : ListFile) : ∃ x, g.get l = f.get l ++ x := by
  induction ws generalizing f with
  | nil => simp only [OutputFiles.writeAll, Option.some.injEq] at h; subst h; exact ⟨[], by simp⟩
  | cons w ws ih =>
    simp only [OutputFiles.writeAll] at h
    cases h1 : f.write w with
    | none => rw [h1] at h; cases h
    | some f1 =>
      rw [h1] at h
      obtain ⟨x, hx⟩ := ih h
      have : ∃ y, f1.get l = f.get l ++ y := by
        cases w <;> simp only [OutputFiles.write, Option.some.injEq, Option.map_eq_some_iff] at h1
        case remember => obtain ⟨_, _, rfl⟩ := h1; exact ⟨[], by cases l <;> simp [OutputFiles.get]⟩
        case truncateJson => subst h1; exact ⟨[], by cases l <;> simp [OutputFiles.get]⟩
        case writeJson => subst h1; exact ⟨[], by cases l <;> simp [OutputFiles.get]⟩
        case appendName => subst h1; exact ⟨_, append_get _ _ _ _⟩
        case appendNewline => subst h1; exact ⟨_, append_get _ _ _ _⟩
      obtain ⟨y, hy⟩ := this
      exact ⟨y ++ x, by rw [hx, hy, List.append_assoc]⟩

theorem rustLines_prefix (ls : List Text) (x : Text) (h : ∀ l ∈ ls, OneLine l) :
    rustLines (ls.flatMap (fun l => l ++ "\n".toList) ++ x) = ls ++ rustLines x := by
  unfold rustLines
  induction ls with
  | nil => rfl
  | cons l ls ih =>
    have h1 := h l (by simp)
    have ih := ih fun x hx => h x (by simp [hx])
    rw [List.flatMap_cons]
    have : l ++ "\n".toList ++ ls.flatMap (fun l => l ++ "\n".toList) ++ x =
      l ++ '\n' :: (ls.flatMap (fun l => l ++ "\n".toList) ++ x) := by simp
    rw [this, linesFrom_clean _ _ h1.1 h1.2, ih]; rfl

/-- The output directory when `previously_caught.txt` has been written. -/
def startedDir (s : FsState) : Dir :=
  freshDir.put "previously_caught.txt".toList
    ((loadPreviouslyCaught s).flatMap fun l => l ++ "\n".toList)

theorem startup_spec (s : FsState) :
    s.applyAll (newOutputDirOps s ++ [writePreviouslyCaughtOp (loadPreviouslyCaught s)]) =
      some ⟨true, some (startedDir s), rotatedOld s⟩ := by
  rw [applyAll_append, newOutputDir_spec]
  simp only [Option.bind_some, FsState.applyAll, writePreviouslyCaughtOp, FsState.apply]
  rw [if_pos (by rfl)]
  rfl

theorem startedDir_lists (s : FsState) : ListsMatch (startedDir s) {} := by
  intro l; cases l <;> rfl

theorem startedDir_prev (s : FsState) : startedDir s "previously_caught.txt".toList =
    some ((loadPreviouslyCaught s).flatMap fun l => l ++ "\n".toList) := by
  unfold startedDir Dir.put; rw [if_pos rfl]

/-- The output directory after a run that got past writing `previously_caught.txt`. -/
theorem late_state (s s' : FsState) (ws : List OutputWrite) (k : Nat)
    (hk : (newOutputDirOps s).length < k) (g0 : OutputFiles) (hg0 : OutputFiles.writeAll {} ws = some g0)
    (h : s.applyAll ((iterateRunOps s ws).take k) = some s') :
    ∃ j g d, OutputFiles.writeAll {} (ws.take j) = some g ∧ s'.parent = true ∧
      (ws.take j).flatMap OutputWrite.toFsOps =
        (ws.flatMap OutputWrite.toFsOps).take (k - (newOutputDirOps s).length - 1) ∧
      s'.out = some d ∧ ListsMatch d g ∧
      d "previously_caught.txt".toList =
        some ((loadPreviouslyCaught s).flatMap fun l => l ++ "\n".toList) := by
  unfold iterateRunOps at h
  rw [List.take_append, List.take_of_length_le (by simp; omega), applyAll_append, startup_spec] at h
  simp only [Option.bind_some, List.length_append, List.length_cons, List.length_nil] at h
  obtain ⟨j, hj⟩ := take_flatMap_writes ws (k - ((newOutputDirOps s).length + (0 + 1)))
  obtain ⟨g, hg⟩ := writeAll_take hg0 j
  rw [hj] at h
  obtain ⟨d, h1, h2, h3⟩ := apply_writes ⟨true, some (startedDir s), rotatedOld s⟩ _ rfl {} g
    (startedDir_lists s) (ws.take j) hg
  rw [h1] at h
  simp only [Option.some.injEq] at h
  subst h
  refine ⟨j, g, d, hg, rfl, ?_, rfl, h2, ?_⟩
  · rw [← hj]; congr 1
  · rw [h3, startedDir_prev]

theorem load_of_out {s : FsState} {d : Dir} (hd : s.out = some d) {c u p : Text}
    (hc : d "caught.txt".toList = some c) (hu : d "unviable.txt".toList = some u)
    (hp : d "previously_caught.txt".toList = some p) :
    loadPreviouslyCaught s = rustLines c ++ (rustLines u ++ rustLines p) := by
  unfold loadPreviouslyCaught
  simp only [List.flatMap_cons, List.flatMap_nil, List.append_nil, hd, Option.bind_some]
  rw [hc, hu, hp]

theorem load_congr {s s' : FsState} {d d' : Dir} (hd : s.out = some d) (hd' : s'.out = some d')
    (h : AgreeExceptLock d d') : loadPreviouslyCaught s' = loadPreviouslyCaught s := by
  unfold loadPreviouslyCaught
  simp only [List.flatMap_cons, List.flatMap_nil, hd, hd', Option.bind_some]
  rw [h "caught.txt".toList (by decide), h "unviable.txt".toList (by decide),
    h "previously_caught.txt".toList (by decide)]

theorem newOps_parent {s : FsState} (hp : s.parent = true) : newOutputDirOps s = rotateOps s ++ createOps := by
  simp [newOutputDirOps, hp]

/-- One run stopped safely keeps every line, and keeps all lines readable. -/
theorem exec_step (s s' : FsState) (r : IterRun) (hp : s.parent = true)
    (hl : ∀ n ∈ loadPreviouslyCaught s, OneLine n) (hr : StopsSafely s r)
    (hn : ∀ v, ∀ n ∈ namesWith v r.outcomes, OneLine n) (he : r.exec s = some s') :
    s'.parent = true ∧ (∀ n ∈ loadPreviouslyCaught s, n ∈ loadPreviouslyCaught s') ∧
    (∀ n ∈ loadPreviouslyCaught s', OneLine n) := by
  unfold IterRun.exec at he
  rw [Option.bind_eq_some_iff] at he
  obtain ⟨ws, hws, he⟩ := he
  by_cases hlate : (newOutputDirOps s).length < r.stop
  · obtain ⟨g0, hg0⟩ := allWrites_total hws {}
    obtain ⟨j, g, d, h1, h2, _, h3, h4, h5⟩ := late_state s s' ws r.stop hlate g0 hg0 he
    have hload := load_of_out h3 (h4 .caught) (h4 .unviable) h5
    rw [rustLines_flatMap _ hl] at hload
    refine ⟨h2, fun n hn => by rw [hload]; simp [hn], ?_⟩
    intro n hmem
    obtain ⟨pre, post, hos, hlines⟩ := crash_lines r.outcomes ws hws j g h1 hn
    have hline : ∀ l, ∀ n ∈ rustLines (g.get l), OneLine n := by
      intro l n hmem
      rcases hlines with ⟨hx, _⟩ | ⟨o, ho, _, hx⟩
      · rw [hx] at hmem
        apply hn (verdictOf l); rw [hos, namesWith_append]; simp [hmem]
      · rw [hx] at hmem
        apply hn (verdictOf l)
        cases post with
        | nil => cases ho
        | cons a p =>
          simp only [List.head?_cons, Option.some.injEq] at ho
          subst ho
          rw [hos, show pre ++ a :: p = (pre ++ [a]) ++ p by simp, namesWith_append]
          simp [hmem]
    rw [hload] at hmem
    rcases List.mem_append.1 hmem with hmem | hmem
    · exact hline .caught n hmem
    rcases List.mem_append.1 hmem with hmem | hmem
    · exact hline .unviable n hmem
    · exact hl n hmem
  · have htake : (iterateRunOps s ws).take r.stop = (newOutputDirOps s).take r.stop := by
      unfold iterateRunOps
      rw [List.append_assoc, List.take_append_of_le_length (by omega)]
    rw [htake, newOps_parent hp] at he
    cases hout : s.out with
    | none =>
      obtain ⟨p, o, l⟩ := s
      simp only at hp hout
      subst hp hout
      have hro : rotateOps ⟨true, none, l⟩ = [] := rfl
      rw [hro, List.nil_append] at he
      rw [newOps_parent rfl, hro, List.nil_append] at hlate
      have hk : r.stop ≤ 8 := by simpa [createOps] using hlate
      have hload0 : ∀ n, n ∉ loadPreviouslyCaught ⟨true, none, l⟩ := by
        intro n hn; cases hn
      have hres : s'.parent = true ∧ loadPreviouslyCaught s' = [] := by
        generalize r.stop = k at he hk
        match k, hk with
        | 0, _ => cases he; exact ⟨rfl, rfl⟩
        | 1, _ => cases he; exact ⟨rfl, rfl⟩
        | 2, _ => cases he; exact ⟨rfl, rfl⟩
        | 3, _ => cases he; exact ⟨rfl, rfl⟩
        | 4, _ => cases he; exact ⟨rfl, rfl⟩
        | 5, _ => cases he; exact ⟨rfl, rfl⟩
        | 6, _ => cases he; exact ⟨rfl, rfl⟩
        | 7, _ => cases he; exact ⟨rfl, rfl⟩
        | 8, _ => cases he; exact ⟨rfl, rfl⟩
        | k + 9, h => omega
      refine ⟨hres.1, fun n hn => absurd hn (hload0 n), ?_⟩
      rw [hres.2]; intro n hn; cases hn
    | some d =>
      have hearly : r.stop < (rotateOps s).length := by
        rcases hr with h | h | h
        · rw [hout] at h; cases h
        · exact h
        · exact absurd h hlate
      rw [List.take_append_of_le_length (by omega)] at he
      rcases rotate_prefix s s' d hout r.stop he with ⟨_, d', h1, h2⟩ | ⟨h, _⟩
      · have hload := load_congr hout h1 h2
        refine ⟨?_, fun n hn => by rw [hload]; exact hn, by rw [hload]; exact hl⟩
        -- the parent stays
        have hkeep : ∀ (ops : List FsOp) (a b : FsState), a.parent = true → a.applyAll ops = some b →
            (∀ op ∈ ops, op ∈ [FsOp.writeLock, .removeOld, .rotate]) → b.parent = true := by
          intro ops
          induction ops with
          | nil => intro a b ha hab _; simp only [FsState.applyAll, Option.some.injEq] at hab; rw [← hab]; exact ha
          | cons op ops ih =>
            intro a b ha hab hop
            simp only [FsState.applyAll] at hab
            cases h1 : a.apply op with
            | none => rw [h1] at hab; cases hab
            | some a1 =>
              rw [h1] at hab
              refine ih a1 b ?_ hab fun op ho => hop op (by simp [ho])
              have := hop op (by simp)
              simp only [List.mem_cons, List.not_mem_nil, or_false] at this
              rcases this with rfl | rfl | rfl
              · simp only [FsState.apply, Option.map_eq_some_iff] at h1
                obtain ⟨_, _, rfl⟩ := h1; exact ha
              · simp only [FsState.apply] at h1
                split at h1 <;> simp at h1; rw [← h1]; exact ha
              · simp only [FsState.apply] at h1
                split at h1 <;> simp at h1; rw [← h1]; exact ha
        refine hkeep _ s s' hp he ?_
        intro op hop
        have := List.mem_of_mem_take hop
        unfold rotateOps at this
        rw [if_pos (by rw [hout]; rfl)] at this
        simp only [List.mem_append, List.mem_cons, List.not_mem_nil, or_false] at this
        rcases this with (h | h) | h
        · simp [h]
        · by_cases ho : s.old.isSome = true
          · rw [if_pos ho] at h; simp at h; simp [h]
          · rw [if_neg ho] at h; cases h
        · simp [h]
      · omega

theorem execAll_keeps (rs : List IterRun) (s s' : FsState) (hp : s.parent = true)
    (hl : ∀ n ∈ loadPreviouslyCaught s, OneLine n) (hr : SafeHistory rs s)
    (he : execAll rs s = some s') : ∀ n ∈ loadPreviouslyCaught s, n ∈ loadPreviouslyCaught s' := by
  induction rs generalizing s with
  | nil => simp only [execAll, Option.some.injEq] at he; subst he; exact fun n hn => hn
  | cons r rs ih =>
    simp only [execAll, Option.bind_eq_some_iff] at he
    obtain ⟨s1, h1, h2⟩ := he
    obtain ⟨a, b, c⟩ := exec_step s s1 r hp hl hr.1 hr.2.1 h1
    intro n hn
    exact ih s1 a c (hr.2.2 s1 h1) h2 n (b n hn)

/-- C37: the full statement is false. A run records a mutant as caught; the next one is stopped just
after it has created its empty output directory; the one after that tests the mutant again. -/
theorem C37_never_forgets_false : ¬ NeverForgets := by
  intro h
  let s : FsState := ⟨true, none, none⟩
  let o : ScenarioOutcome :=
    ⟨.mutant sampleMutant, [⟨.build, 1, .success, []⟩, ⟨.test, 1, .failure 101, []⟩]⟩
  let r : IterRun := ⟨[o], 1000⟩
  let rs : List IterRun := [⟨[], 3⟩]
  have hfinal : ((r.exec s).bind fun s1 => (execAll rs s1).bind fun s2 =>
      removePreviouslyCaught (loadPreviouslyCaught s2) [sampleMutant]) = some [sampleMutant] := by decide
  rw [Option.bind_eq_some_iff] at hfinal
  obtain ⟨s1, h1, hfinal⟩ := hfinal
  rw [Option.bind_eq_some_iff] at hfinal
  obtain ⟨s2, h2, h3⟩ := hfinal
  exact h s s1 s2 r rs [] [] o "src/lib.rs:1:18: replace f -> bool with true".toList .caughtMutant
    [sampleMutant] [sampleMutant] rfl rfl (by decide) ⟨sampleMutant, rfl, by decide, by decide⟩ (.inl rfl)
    (by decide) h1 h2 h3 sampleMutant (by simp) (by decide)

/-- C37 for runs that are not stopped within the few operations between moving the old output
directory away and writing `previously_caught.txt`, and for names that fit on one line: a mutant
recorded as caught or unviable is never tested again, over any history of `--iterate` runs. What is
missing from the full statement is the case of a run stopped in that window, for which it is false. -/
theorem C37_never_forgets_partial
    (s s1 s2 : FsState) (r : IterRun) (rs : List IterRun) (pre post : List ScenarioOutcome)
    (o : ScenarioOutcome) (n : Text) (v : SummaryOutcome) (ms kept : List Mutant)
    (hp : s.parent = true) (hl : ∀ n, ListedAsDone s n → OneLine n)
    (hro : r.outcomes = pre ++ o :: post) (hstop : opsUntil s (pre ++ [o]) ≤ r.stop)
    (hio : IsOutcomeOf o n v) (hv : v = .caughtMutant ∨ v = .unviable)
    (hnames : ∀ v, ∀ n ∈ namesWith v r.outcomes, OneLine n)
    (he : r.exec s = some s1) (hs : SafeHistory rs s1) (hes : execAll rs s1 = some s2)
    (hk : removePreviouslyCaught (loadPreviouslyCaught s2) ms = some kept) :
    ∀ m ∈ kept, m.name true ≠ some n := by
  have hl' : ∀ n ∈ loadPreviouslyCaught s, OneLine n := fun n hn => hl n (mem_load.1 hn)
  -- the run got past its start
  have hsplit : ∃ wa wb, allWrites (pre ++ [o]) = some wa ∧ allWrites r.outcomes = some (wa ++ wb) := by
    have hx : ∀ a b ws, allWrites (a ++ b) = some ws →
        ∃ wa wb, allWrites a = some wa ∧ ws = wa ++ wb := by
      intro a
      induction a with
      | nil => intro b ws h; exact ⟨[], ws, rfl, rfl⟩
      | cons x a ih =>
        intro b ws h
        simp only [List.cons_append, allWrites, Option.bind_eq_bind, Option.bind_eq_some_iff,
          Option.pure_def, Option.some.injEq] at h ⊢
        obtain ⟨w1, h1, w2, h2, rfl⟩ := h
        obtain ⟨wa, wb, h3, rfl⟩ := ih b w2 h2
        exact ⟨w1 ++ wa, wb, ⟨w1, h1, wa, h3, rfl⟩, by simp⟩
    unfold IterRun.exec at he
    rw [Option.bind_eq_some_iff] at he
    obtain ⟨ws, hws, _⟩ := he
    rw [hro, show pre ++ o :: post = (pre ++ [o]) ++ post by simp] at hws
    obtain ⟨wa, wb, h1, rfl⟩ := hx _ _ _ hws
    exact ⟨wa, wb, h1, by rw [hro, show pre ++ o :: post = (pre ++ [o]) ++ post by simp]; exact hws⟩
  obtain ⟨wa, wb, hwa, hws⟩ := hsplit
  have hst : (newOutputDirOps s).length + 1 + (wa.flatMap OutputWrite.toFsOps).length ≤ r.stop := by
    unfold opsUntil at hstop
    rw [hwa] at hstop
    simp only [iterateRunOps, List.length_append, List.length_cons, List.length_nil] at hstop
    omega
  have hsafe : StopsSafely s r := .inr (.inr (by omega))
  obtain ⟨q1, _, q3⟩ := exec_step s s1 r hp hl' hsafe hnames he
  have hin : n ∈ loadPreviouslyCaught s1 := by
    unfold IterRun.exec at he
    rw [hws] at he
    simp only [Option.bind_some] at he
    obtain ⟨g0, hg0⟩ := allWrites_total hws {}
    -- split the operations after the first part
    have hcat : (iterateRunOps s (wa ++ wb)).take r.stop =
        iterateRunOps s wa ++ (wb.flatMap OutputWrite.toFsOps).take (r.stop - (iterateRunOps s wa).length) := by
      have : iterateRunOps s (wa ++ wb) = iterateRunOps s wa ++ wb.flatMap OutputWrite.toFsOps := by
        simp [iterateRunOps]
      rw [this, List.take_append, List.take_of_length_le]
      simp only [iterateRunOps, List.length_append, List.length_cons, List.length_nil]
      omega
    rw [hcat, applyAll_append] at he
    cases hA : s.applyAll (iterateRunOps s wa) with
    | none => rw [hA] at he; cases he
    | some sa =>
      rw [hA] at he
      simp only [Option.bind_some] at he
      obtain ⟨ga, hga⟩ := allWrites_total hwa {}
      obtain ⟨j, g, d, h1, h2, h2', h3, h4, h5⟩ := late_state s sa wa
        ((newOutputDirOps s).length + 1 + (wa.flatMap OutputWrite.toFsOps).length) (by omega) ga hga (by
          rw [List.take_of_length_le]
          · exact hA
          · simp [iterateRunOps]; omega)
      have hgfull : OutputFiles.writeAll {} wa = some ga := hga
      -- the state with all of `wa` written
      have hfull : ∃ d, sa.out = some d ∧ ListsMatch d ga ∧ ∃ p, d "previously_caught.txt".toList = some p := by
        unfold iterateRunOps at hA
        rw [applyAll_append, startup_spec] at hA
        simp only [Option.bind_some] at hA
        obtain ⟨d, e1, e2, e3⟩ := apply_writes ⟨true, some (startedDir s), rotatedOld s⟩ _ rfl {} ga
          (startedDir_lists s) wa hga
        rw [e1] at hA
        simp only [Option.some.injEq] at hA
        subst hA
        exact ⟨d, rfl, e2, _, by rw [e3, startedDir_prev]⟩
      obtain ⟨da, f1, f2, p, f3⟩ := hfull
      obtain ⟨jb, hjb⟩ := take_flatMap_writes wb (r.stop - (iterateRunOps s wa).length)
      rw [hjb] at he
      have hwb : ∃ gb, ga.writeAll (wb.take jb) = some gb := by
        rw [writeAll_append, hga] at hg0
        exact writeAll_take hg0 jb
      obtain ⟨gb, hgb⟩ := hwb
      obtain ⟨db, e1, e2, e3⟩ := apply_writes sa da f1 ga gb f2 (wb.take jb) hgb
      rw [e1] at he
      simp only [Option.some.injEq] at he
      subst he
      have hload := load_of_out (s := { sa with out := some db }) rfl (e2 .caught) (e2 .unviable)
        (by rw [e3]; exact f3)
      -- the text of the lists
      obtain ⟨ga', hga'⟩ : ∃ g, OutputFiles.addOutcomes {} (pre ++ [o]) = some g :=
        ⟨ga, by rw [addOutcomes_eq_writeAll {} _ hwa]; exact hga⟩
      have hgg : ga' = ga := by
        rw [addOutcomes_eq_writeAll {} _ hwa, hga] at hga'
        exact (Option.some.inj hga').symm
      subst hgg
      have htext : ∀ l, ga'.get l = (namesWith (verdictOf l) (pre ++ [o])).flatMap fun n => n ++ "\n".toList := by
        intro l
        rw [(addOutcomes_spec hga').2.1 l, ← flatMap_lineFor]
        cases l <;> rfl
      have hpo : ∀ v, ∀ n ∈ namesWith v (pre ++ [o]), OneLine n := by
        intro v n hn; apply hnames v
        rw [hro, show pre ++ o :: post = (pre ++ [o]) ++ post by simp, namesWith_append]
        exact List.mem_append.2 (.inl hn)
      have hmem : ∀ l, v = verdictOf l → n ∈ rustLines (gb.get l) := by
        intro l hvl
        obtain ⟨x, hx⟩ := writeAll_get_prefix hgb l
        rw [hx, htext, rustLines_prefix _ _ (hpo _)]
        refine List.mem_append.2 (.inl ?_)
        exact mem_namesWith.2 ⟨o, by simp, by rw [← hvl]; exact hio⟩
      rw [hload]
      rcases hv with hv | hv
      · exact List.mem_append.2 (.inl (hmem .caught hv))
      · exact List.mem_append.2 (.inr (List.mem_append.2 (.inl (hmem .unviable hv))))
  have hlast := execAll_keeps rs s1 s2 q1 q3 hs hes n hin
  intro m hm hname
  obtain ⟨p, hp1, hp2⟩ := C36_iterate_skips_exactly s2 ms kept hk
  rw [hp1, List.mem_filter] at hm
  have := (hp2 m hm.1).2 ⟨n, hname, mem_load.1 hlast⟩
  rw [this] at hm
  exact absurd hm.2 (by simp)

/-- A history that meets the hypotheses: one complete run, one stopped early, one complete. -/
example : let r : IterRun := ⟨[⟨.mutant sampleMutant,
      [⟨.build, 1, .success, []⟩, ⟨.test, 1, .failure 101, []⟩]⟩], 1000⟩
    let rs : List IterRun := [⟨[], 1⟩, ⟨[], 1000⟩]
    ((execAll (r :: rs) ⟨true, none, none⟩).bind fun s2 =>
      removePreviouslyCaught (loadPreviouslyCaught s2)
        [sampleMutant, { sampleMutant with replacement := "false".toList }]) =
      some [{ sampleMutant with replacement := "false".toList }] := by decide

end CM.Props
