import Verif.Spec.Logs
import Verif.Proofs.History
/-! What the logs hold at each moment. -/
namespace CM.Logs
open CM CM.Spec

theorem exitDebug_eq (e : Exit) : exitDebug e = (ending e).toList := by
  have key : ∀ n : Int, intText n = (toString n).toList := by
    intro n
    cases n with
    | ofNat n =>
      show decimal n = (Int.repr (.ofNat n)).toList
      simp [Int.repr, Nat.repr, decimal]
    | negSucc n =>
      show '-' :: decimal (n + 1) = (Int.repr (.negSucc n)).toList
      simp [Int.repr, Nat.repr, decimal]
  cases e with
  | success => rfl
  | timeout => rfl
  | other => rfl
  | failure n =>
    show "Failure(".toList ++ intText n ++ ")".toList = ("Failure(" ++ toString n ++ ")").toList
    rw [key, String.toList_append, String.toList_append]
  | signalled n =>
    show "Signalled(".toList ++ intText n ++ ")".toList = ("Signalled(" ++ toString n ++ ")").toList
    rw [key, String.toList_append, String.toList_append]

theorem result_eq (e : Exit) : "result: ".toList ++ exitDebug e = ("result: " ++ ending e).toList := by
  rw [exitDebug_eq, String.toList_append]

theorem messagesOf_append (a b : List Chunk) : messagesOf (a ++ b) = messagesOf a ++ messagesOf b :=
  List.filterMap_append

/-- What a thread at this point has done for its scenario: whether the diff is written, and the results. -/
def claim : Lab.Pc → Option (Scenario × Bool × List PhaseResult)
  | .logged _ sc | .started _ sc => some (sc, false, [])
  | .diffed _ sc => some (sc, sc.isMutant, [])
  | .ready _ sc _ rs | .command _ sc _ _ rs | .reverted _ sc rs => some (sc, sc.isMutant, rs)
  | _ => none

/-- What has been said about the command that is running. -/
def procSaid (argv : List Text) : Proc.Pc → List Text
  | .spawn => []
  | .done (.ok e) => [quoteArgv argv, ("result: " ++ ending e).toList]
  | _ => [quoteArgv argv]

def pending (cfg : Run.Config) : Option Lab.Pc → Option Proc.State → List Text
  | some (.command _ sc p _ _), some q => procSaid (cfg.lab.argv sc p) q.pc
  | _, _ => []

/-- The first messages. -/
def intro (diff : Mutant → Text) : Scenario → Bool → List Text
  | .mutant m, true => logHeading diff (.mutant m)
  | sc, _ => [title sc]

theorem intro_isMutant (diff : Mutant → Text) (sc : Scenario) : intro diff sc sc.isMutant = logHeading diff sc := by
  cases sc <;> rfl

def diffNow (diff : Mutant → Text) : Scenario → Bool → Option Text
  | .mutant m, true => some (diff m)
  | _, _ => none

theorem diffNow_isMutant (diff : Mutant → Text) (sc : Scenario) : diffNow diff sc sc.isMutant = diffFile diff sc := by
  cases sc <;> rfl

/-- The files of base name `b` tell exactly this. -/
def Holds (diff : Mutant → Text) (f : Files) (b : Text) (c : Scenario × Bool × List PhaseResult) (extra : List Text) :
    Prop :=
  ∃ body, f.logs b = some ((intro diff c.1 c.2.1).map Chunk.said ++ body) ∧
    messagesOf body = commands c.2.2 ++ extra ∧ (∀ t, body.head? ≠ some (.printed t)) ∧
    f.diffs b = diffNow diff c.1 c.2.1 ∧ (body = [] → b ∉ f.handles)

theorem Holds.frame {diff f f' b c extra} (h : Holds diff f b c extra) (hl : f'.logs b = f.logs b)
    (hd : f'.diffs b = f.diffs b) (hh : b ∈ f'.handles → b ∈ f.handles) : Holds diff f' b c extra := by
  obtain ⟨body, h1, h2, h3, h4, h5⟩ := h
  exact ⟨body, by rw [hl, h1], h2, h3, by rw [hd, h4], fun h h' => h5 h (hh h')⟩

theorem put_same {β} (f : Text → β) (b : Text) (x : β) : put f b x b = x := if_pos rfl
theorem put_other {β} (f : Text → β) {b c : Text} (x : β) (h : c ≠ b) : put f b x c = f c := if_neg h

/-- A message is appended. -/
theorem Holds.append_said {diff f b sc d rs extra} (h : Holds diff f b (sc, d, rs) extra) (m : Text) {hs : List Text} :
    Holds diff { f.append b (.said m) with handles := hs } b (sc, d, rs) (extra ++ [m]) := by
  obtain ⟨body, h1, h2, h3, h4, h5⟩ := h
  refine ⟨body ++ [.said m], ?_, ?_, ?_, h4, by simp⟩
  · simp [Files.append, put_same, h1]
  · rw [messagesOf_append, h2]; simp [messagesOf]
  · intro t
    cases body with
    | nil => simp
    | cons x xs => simpa using h3 t

/-- A command prints. -/
theorem Holds.append_printed {diff f b c extra} (h : Holds diff f b c extra) (hb : b ∈ f.handles) (t : Text) :
    Holds diff (f.append b (.printed t)) b c extra := by
  obtain ⟨body, h1, h2, h3, h4, h5⟩ := h
  have hne : body ≠ [] := fun h => h5 h hb
  refine ⟨body ++ [.printed t], ?_, ?_, ?_, h4, by simp⟩
  · simp [Files.append, put_same, h1]
  · rw [messagesOf_append, h2]; simp [messagesOf]
  · intro t
    cases body with
    | nil => exact absurd rfl hne
    | cons x xs => simpa using h3 t

structure Inv (cfg : Run.Config) (diff : Mutant → Text) (s : State) : Prop where
  run : Run.Reachable cfg s.run
  made : ∀ b, (s.files.logs b).isSome = true ↔ logPath b ∈ s.run.lab.sh.logs
  diffs : ∀ b, s.files.logs b = none → s.files.diffs b = none
  handles : ∀ b ∈ s.files.handles, (s.files.logs b).isSome = true
  active : ∀ (i : Nat) pc c, s.run.lab.workers[i]? = some pc → claim pc = some c →
    ∃ b, s.files.current i = some b ∧ Holds diff s.files b c (pending cfg (some pc) (s.run.procs i)) ∧
      ∀ o, (o, b) ∉ s.files.recorded
  apart : ∀ (i j : Nat) pc pc' c c', s.run.lab.workers[i]? = some pc → claim pc = some c →
    s.run.lab.workers[j]? = some pc' → claim pc' = some c' → s.files.current i = s.files.current j → i = j
  same : s.files.recorded.map Prod.fst = s.run.lab.sh.out.lab.outcomes
  kept : ∀ x ∈ s.files.recorded, Holds diff s.files x.2 (x.1.scenario, x.1.scenario.isMutant, x.1.phaseResults) []
  nodup : (s.files.recorded.map Prod.snd).Nodup

theorem inv_init (cfg : Run.Config) (diff : Mutant → Text) : Inv cfg diff (init cfg) where
  run := ⟨[], rfl⟩
  made := by intro b; simp [init, Run.init, Lab.init]
  diffs := fun _ _ => rfl
  handles := by simp [init]
  active := by simp [init, Run.init, Lab.init]
  apart := by simp [init, Run.init, Lab.init]
  same := by simp [init, Run.init, Lab.init]
  kept := by simp [init]
  nodup := by simp [init]

theorem Inv.lives {cfg diff s} (h : Inv cfg diff s) {x} (hx : x ∈ s.files.recorded) : (s.files.logs x.2).isSome = true := by
  obtain ⟨_, h1, _⟩ := h.kept x hx
  simp [h1]

/-- A thread goes on with its scenario, or gives it up; it may write to its own files. -/
theorem Inv.touch {cfg diff s} (h : Inv cfg diff s) (r' : Run.State) (f' : Files) (hreach : Run.Reachable cfg r') (i : Nat)
    (hlogs : r'.lab.sh.logs = s.run.lab.sh.logs) (hout : r'.lab.sh.out.lab.outcomes = s.run.lab.sh.out.lab.outcomes)
    (hw : ∀ j, j ≠ i → r'.lab.workers[j]? = s.run.lab.workers[j]?)
    (hp : ∀ j, j ≠ i → ∀ pc, s.run.lab.workers[j]? = some pc →
      pending cfg (some pc) (r'.procs j) = pending cfg (some pc) (s.run.procs j))
    (hcur : f'.current = s.files.current) (hrec : f'.recorded = s.files.recorded)
    (hmade : ∀ b, (f'.logs b).isSome = (s.files.logs b).isSome)
    (hframe : ∀ b, f'.logs b = s.files.logs b ∧ f'.diffs b = s.files.diffs b ∧ (b ∈ f'.handles → b ∈ s.files.handles) ∨
      s.files.current i = some b ∧ ∃ pc c, s.run.lab.workers[i]? = some pc ∧ claim pc = some c)
    (hi : ∀ pc' c', r'.lab.workers[i]? = some pc' → claim pc' = some c' → ∃ pc c, s.run.lab.workers[i]? = some pc ∧
      claim pc = some c ∧ ∀ b, s.files.current i = some b →
        Holds diff s.files b c (pending cfg (some pc) (s.run.procs i)) →
        Holds diff f' b c' (pending cfg (some pc') (r'.procs i))) :
    Inv cfg diff ⟨r', f'⟩ := by
  have back : ∀ (j : Nat) pc c, r'.lab.workers[j]? = some pc → claim pc = some c →
      ∃ pc c, s.run.lab.workers[j]? = some pc ∧ claim pc = some c := by
    intro j pc c h1 h2
    by_cases hj : j = i
    · subst hj
      obtain ⟨pc0, c0, h3, h4, _⟩ := hi pc c h1 h2
      exact ⟨pc0, c0, h3, h4⟩
    · rw [hw j hj] at h1
      exact ⟨pc, c, h1, h2⟩
  refine ⟨hreach, ?_, ?_, ?_, ?_, ?_, ?_, ?_, ?_⟩
  · intro b
    rw [hmade b, hlogs]
    exact h.made b
  · intro b hb
    have hn : s.files.logs b = none := by
      have := hmade b
      simp only [] at hb
      rw [hb] at this
      simpa using this.symm
    rcases hframe b with ⟨_, h2, _⟩ | ⟨h1, pc, c, h2, h3⟩
    · exact h2.trans (h.diffs b hn)
    · obtain ⟨b', h4, ⟨_, h5, _⟩, _⟩ := h.active i pc c h2 h3
      rw [h1] at h4
      cases h4
      rw [hn] at h5
      cases h5
  · intro b hb
    rw [hmade b]
    rcases hframe b with ⟨_, _, h3⟩ | ⟨h1, pc, c, h2, h3⟩
    · exact h.handles b (h3 hb)
    · obtain ⟨b', h4, ⟨_, h5, _⟩, _⟩ := h.active i pc c h2 h3
      rw [h1] at h4
      cases h4
      simp [h5]
  · intro j pc c h1 h2
    by_cases hj : j = i
    · subst hj
      obtain ⟨pc0, c0, h3, h4, h5⟩ := hi pc c h1 h2
      obtain ⟨b, h6, h7, h8⟩ := h.active j pc0 c0 h3 h4
      exact ⟨b, by rw [hcur]; exact h6, h5 b h6 h7, by rw [hrec]; exact h8⟩
    · simp only [hw j hj] at h1
      obtain ⟨b, h6, h7, h8⟩ := h.active j pc c h1 h2
      refine ⟨b, by rw [hcur]; exact h6, ?_, by rw [hrec]; exact h8⟩
      show Holds diff f' b c (pending cfg (some pc) (r'.procs j))
      rw [hp j hj pc h1]
      rcases hframe b with ⟨h9, h10, h11⟩ | ⟨h9, pc', c', h10, h11⟩
      · exact h7.frame h9 h10 h11
      · exact absurd (h.apart j i pc pc' c c' h1 h2 h10 h11 (by rw [h6, h9])) hj
  · intro j k pc pc' c c' h1 h2 h3 h4 h5
    obtain ⟨pc0, c0, h6, h7⟩ := back j pc c h1 h2
    obtain ⟨pc1, c1, h8, h9⟩ := back k pc' c' h3 h4
    simp only [hcur] at h5
    exact h.apart j k pc0 pc1 c0 c1 h6 h7 h8 h9 h5
  · show f'.recorded.map Prod.fst = r'.lab.sh.out.lab.outcomes
    rw [hrec, hout]
    exact h.same
  · intro x hx
    simp only [hrec] at hx
    rcases hframe x.2 with ⟨h9, h10, h11⟩ | ⟨h9, pc', c', h10, h11⟩
    · exact (h.kept x hx).frame h9 h10 h11
    · obtain ⟨b, h12, _, h13⟩ := h.active i pc' c' h10 h11
      rw [h9] at h12
      cases h12
      exact absurd hx (h13 x.1)
  · show (f'.recorded.map Prod.snd).Nodup
    rw [hrec]
    exact h.nodup

/-- A command, or something that it started, prints. -/
theorem Inv.prints {cfg diff s b} (h : Inv cfg diff s) (hb : b ∈ s.files.handles) (t : Text) :
    Inv cfg diff { s with files := s.files.append b (.printed t) } := by
  have hold : ∀ {b' c extra}, Holds diff s.files b' c extra → Holds diff (s.files.append b (.printed t)) b' c extra := by
    intro b' c extra h1
    by_cases hb' : b' = b
    · subst hb'
      exact h1.append_printed hb t
    · exact h1.frame (put_other _ _ hb') rfl id
  have some_iff : ∀ b', ((s.files.append b (.printed t)).logs b').isSome = (s.files.logs b').isSome := by
    intro b'
    by_cases hb' : b' = b
    · subst hb'
      simp [Files.append, put_same]
    · simp [Files.append, put_other _ _ hb']
  refine ⟨h.run, ?_, ?_, ?_, ?_, h.apart, h.same, fun x hx => hold (h.kept x hx), h.nodup⟩
  · intro b'
    rw [← h.made b', ← some_iff b']
  · intro b' hb'
    refine h.diffs b' ?_
    have := some_iff b'
    simp only [] at hb'
    rw [hb'] at this
    simpa using this.symm
  · intro b' hb'
    rw [← h.handles b' hb']
    exact some_iff b'
  · intro i pc c h1 h2
    obtain ⟨b', h3, h4, h5⟩ := h.active i pc c h1 h2
    exact ⟨b', h3, hold h4, h5⟩

theorem logPath_injective {a b} (h : logPath a = logPath b) : a = b := log_path_injective h

/-- A thread starts a scenario. -/
theorem Inv.create {cfg diff s} (h : Inv cfg diff s) (r' : Run.State) (hreach : Run.Reachable cfg r') (i : Nat) (b : Text)
    (d : Nat) (sc : Scenario) (hn : s.run.procs i = none)
    (hfresh : logPath b ∉ s.run.lab.sh.logs)
    (hlogs : r'.lab.sh.logs = logPath b :: s.run.lab.sh.logs)
    (hout : r'.lab.sh.out.lab.outcomes = s.run.lab.sh.out.lab.outcomes)
    (hw : ∀ j, j ≠ i → r'.lab.workers[j]? = s.run.lab.workers[j]?) (hi : r'.lab.workers[i]? = some (.logged d sc))
    (hp : ∀ j, j ≠ i → r'.procs j = s.run.procs j) :
    Inv cfg diff ⟨r', s.files.create i b (title sc)⟩ := by
  have hnone : s.files.logs b = none := by
    have := h.made b
    cases hb : s.files.logs b with
    | none => rfl
    | some x => exact absurd (this.1 (by simp [hb])) hfresh
  have hbh : b ∉ s.files.handles := fun hb => by have := h.handles b hb; simp [hnone] at this
  have hold : ∀ {b' c extra}, Holds diff s.files b' c extra → Holds diff (s.files.create i b (title sc)) b' c extra := by
    intro b' c extra h1
    have hne : b' ≠ b := by
      rintro rfl
      obtain ⟨_, h2, _⟩ := h1
      rw [hnone] at h2
      cases h2
    exact h1.frame (put_other _ _ hne) rfl id
  have new : ∀ {j b'}, j ≠ i → (s.files.create i b (title sc)).current j = some b' → s.files.current j = some b' := by
    intro j b' hj h1
    simpa [Files.create, Run.setAt, hj] using h1
  have mine : (s.files.create i b (title sc)).current i = some b := by simp [Files.create, Run.setAt]
  have other : ∀ {j pc c}, j ≠ i → r'.lab.workers[j]? = some pc → claim pc = some c →
      (s.files.create i b (title sc)).current j ≠ some b := by
    intro j pc c hj h1 h2 h3
    rw [hw j hj] at h1
    obtain ⟨b', h4, ⟨_, h5, _⟩, _⟩ := h.active j pc c h1 h2
    rw [new hj h3] at h4
    cases h4
    rw [hnone] at h5
    cases h5
  refine ⟨hreach, ?_, ?_, ?_, ?_, ?_, ?_, fun x hx => hold (h.kept x hx), h.nodup⟩
  · intro b'
    rw [hlogs]
    by_cases hb : b' = b
    · subst hb
      simp [Files.create, put_same]
    · have h1 : (s.files.create i b (title sc)).logs b' = s.files.logs b' := put_other _ _ hb
      simp only [h1, h.made b', List.mem_cons]
      exact ⟨.inr, fun h => h.elim (fun h => absurd (logPath_injective h) hb) id⟩
  · intro b' hb
    by_cases hb' : b' = b
    · subst hb'
      simp [Files.create, put_same] at hb
    · have h1 : (s.files.create i b (title sc)).logs b' = s.files.logs b' := put_other _ _ hb'
      simp only [h1] at hb
      exact h.diffs b' hb
  · intro b' hb
    have hb' : b' ≠ b := by rintro rfl; exact hbh hb
    have h1 : (s.files.create i b (title sc)).logs b' = s.files.logs b' := put_other _ _ hb'
    simp only [h1]
    exact h.handles b' hb
  · intro j pc c h1 h2
    by_cases hj : j = i
    · subst hj
      simp only [hi, Option.some.injEq] at h1
      subst h1
      cases h2
      refine ⟨b, mine, ⟨[], ?_, ?_, by simp, ?_, fun _ => hbh⟩, ?_⟩
      · cases sc <;> simp [Files.create, put_same, intro]
      · rfl
      · show s.files.diffs b = _
        rw [h.diffs b hnone]
        cases sc <;> rfl
      · intro o ho
        have := h.lives (x := (o, b)) ho
        simp [hnone] at this
    · have h3 := h1
      simp only [hw j hj] at h3
      obtain ⟨b', h4, h5, h6⟩ := h.active j pc c h3 h2
      refine ⟨b', by simpa [Files.create, Run.setAt, hj] using h4, ?_, h6⟩
      simp only [hp j hj]
      exact hold h5
  · intro j k pc pc' c c' h1 h2 h3 h4 h5
    by_cases hj : j = i
    · by_cases hk : k = i
      · rw [hj, hk]
      · subst hj
        exact absurd (h5.symm.trans mine) (other hk h3 h4)
    · by_cases hk : k = i
      · subst hk
        exact absurd (h5.trans mine) (other hj h1 h2)
      · simp only [hw j hj] at h1
        simp only [hw k hk] at h3
        refine h.apart j k pc pc' c c' h1 h2 h3 h4 ?_
        simpa [Files.create, Run.setAt, hj, hk] using h5
  · exact h.same.trans hout.symm

/-- A thread records the outcome of its scenario. -/
theorem Inv.record {cfg diff s} (h : Inv cfg diff s) (r' : Run.State) (hreach : Run.Reachable cfg r') (i : Nat)
    (d : Nat) (sc : Scenario) (rs : List PhaseResult) (hpc : s.run.lab.workers[i]? = some (.reverted d sc rs))
    (hlogs : r'.lab.sh.logs = s.run.lab.sh.logs)
    (hout : r'.lab.sh.out.lab.outcomes = s.run.lab.sh.out.lab.outcomes ++ [⟨sc, rs⟩])
    (hw : ∀ j, j ≠ i → r'.lab.workers[j]? = s.run.lab.workers[j]?)
    (hi : ∀ pc, r'.lab.workers[i]? = some pc → claim pc = none)
    (hp : ∀ j, j ≠ i → r'.procs j = s.run.procs j) :
    Inv cfg diff ⟨r', s.files.record i ⟨sc, rs⟩⟩ := by
  obtain ⟨b, h1, h2, h3⟩ := h.active i _ _ hpc rfl
  have hrec : (s.files.record i ⟨sc, rs⟩).recorded = s.files.recorded ++ [(⟨sc, rs⟩, b)] := by
    simp [Files.record, h1]
  have hold : ∀ {b' c extra}, Holds diff s.files b' c extra → Holds diff (s.files.record i ⟨sc, rs⟩) b' c extra :=
    fun h => h.frame rfl rfl id
  have ne : ∀ {j pc c}, r'.lab.workers[j]? = some pc → claim pc = some c → j ≠ i := by
    rintro j pc c h4 h5 rfl
    rw [hi pc h4] at h5
    cases h5
  refine ⟨hreach, ?_, h.diffs, h.handles, ?_, ?_, ?_, ?_, ?_⟩
  · intro b
    rw [hlogs]
    exact h.made b
  · intro j pc c h4 h5
    have hj := ne h4 h5
    simp only [hw j hj] at h4
    obtain ⟨b', h6, h7, h8⟩ := h.active j pc c h4 h5
    refine ⟨b', h6, ?_, ?_⟩
    · simp only [hp j hj]
      exact hold h7
    · intro o ho
      rw [hrec] at ho
      rcases List.mem_append.1 ho with ho | ho
      · exact h8 o ho
      · simp only [List.mem_singleton, Prod.mk.injEq] at ho
        exact hj (h.apart j i pc _ c _ h4 h5 hpc rfl (by rw [h6, h1, ho.2]))
  · intro j k pc pc' c c' h4 h5 h6 h7 h8
    have hj := ne h4 h5
    have hk := ne h6 h7
    simp only [hw j hj] at h4
    simp only [hw k hk] at h6
    exact h.apart j k pc pc' c c' h4 h5 h6 h7 h8
  · rw [hrec, hout, ← h.same]
    simp
  · intro x hx
    rw [hrec] at hx
    rcases List.mem_append.1 hx with hx | hx
    · exact hold (h.kept x hx)
    · simp only [List.mem_singleton] at hx
      subst hx
      exact hold h2
  · rw [hrec]
    simp only [List.map_append, List.map_cons, List.map_nil]
    rw [List.nodup_append]
    refine ⟨h.nodup, by simp, ?_⟩
    intro x hx y hy
    simp only [List.mem_singleton] at hy
    subst hy
    rintro rfl
    obtain ⟨z, hz, rfl⟩ := List.mem_map.1 hx
    exact h3 z.1 hz

/-- The files do not change, and the threads with a scenario stay where they are. -/
theorem Inv.quiet {cfg diff s} (h : Inv cfg diff s) (r' : Run.State) (hreach : Run.Reachable cfg r')
    (hlogs : r'.lab.sh.logs = s.run.lab.sh.logs) (hout : r'.lab.sh.out.lab.outcomes = s.run.lab.sh.out.lab.outcomes)
    (hw : ∀ (j : Nat) pc c, r'.lab.workers[j]? = some pc → claim pc = some c → s.run.lab.workers[j]? = some pc ∧
      pending cfg (some pc) (r'.procs j) = pending cfg (some pc) (s.run.procs j)) :
    Inv cfg diff ⟨r', s.files⟩ := by
  refine ⟨hreach, fun b => by rw [hlogs]; exact h.made b, h.diffs, h.handles, ?_, ?_, h.same.trans hout.symm, h.kept, h.nodup⟩
  · intro j pc c h1 h2
    obtain ⟨h3, h4⟩ := hw j pc c h1 h2
    simp only [h4]
    exact h.active j pc c h3 h2
  · intro j k pc pc' c c' h1 h2 h3 h4 h5
    exact h.apart j k pc pc' c c' (hw j pc c h1 h2).1 h2 (hw k pc' c' h3 h4).1 h4 h5

theorem mstep_claims {cfg s s'} (h : Lab.MStep cfg s s') : s'.sh.logs = s.sh.logs ∧ s'.sh.out = s.sh.out ∧
    ∀ (j : Nat) pc c, s'.workers[j]? = some pc → claim pc = some c → s.workers[j]? = some pc := by
  have new : ∀ d (j : Nat) pc c, (Lab.spawn cfg s d).workers[j]? = some pc → claim pc = some c → s.workers[j]? = some pc := by
    intro d j pc c h1 h2
    have := (List.mem_replicate.1 (List.mem_of_getElem? h1)).2
    subst this
    cases h2
  cases h with
  | skipBaseline _ d => exact ⟨rfl, rfl, new d⟩
  | passed _ d => exact ⟨rfl, rfl, new d⟩
  | prepare h he =>
    refine ⟨rfl, rfl, ?_⟩
    intro j pc c h1 h2
    have := List.mem_of_getElem? h1
    simp only [List.mem_singleton] at this
    subst this
    split at h2 <;> cases h2
  | baseline h d hw hb =>
    refine ⟨rfl, rfl, ?_⟩
    intro j pc c h1 h2
    have := List.mem_of_getElem? h1
    simp only [List.mem_singleton] at this
    subst this
    cases h2
  | _ => exact ⟨rfl, rfl, fun _ _ _ h _ => h⟩

/-- What a step of a thread means for its scenario. -/
inductive Turn (cfg : Lab.Config) (sh sh' : Lab.Shared) (c : Lab.Choice) (pc pc' : Lab.Pc) : Prop
  | create (d sc used) (h1 : pc = .taken d sc) (h2 : pc' = .logged d sc)
      (h3 : startScenario sh.used sh.logs sc = some (used, sh'.logs)) (h4 : sh'.out = sh.out)
  | record (d sc rs) (h1 : pc = .reverted d sc rs) (h2 : claim pc' = none) (h3 : sh'.logs = sh.logs)
      (h4 : sh'.out.lab.outcomes = sh.out.lab.outcomes ∨ sh'.out.lab.outcomes = sh.out.lab.outcomes ++ [⟨sc, rs⟩])
  | diff (d sc) (h1 : pc = .started d sc) (h2 : pc' = .diffed d sc) (h3 : sh'.logs = sh.logs) (h4 : sh'.out = sh.out)
  | exits (d sc p todo rs dur status todo') (h1 : pc = .command d sc p todo rs) (hc : c = .exits dur status)
      (h2 : pc' = .ready d sc todo' (rs ++ [{ phase := p, duration := dur, status := status, argv := cfg.argv sc p }]))
      (h3 : sh'.logs = sh.logs) (h4 : sh'.out = sh.out)
  | ends (h1 : claim pc' = none) (h2 : ∀ d sc rs, pc ≠ .reverted d sc rs) (h3 : sh'.logs = sh.logs) (h4 : sh'.out = sh.out)
  | on (x) (h1 : claim pc = some x) (h2 : claim pc' = some x) (h3 : pc.inCommand = false)
      (h5 : ∀ d sc rs, pc ≠ .reverted d sc rs) (h6 : ∀ d sc, pc' ≠ .diffed d sc) (h7 : ∀ d sc, pc' ≠ .logged d sc)
      (h4 : sh'.logs = sh.logs) (h8 : sh'.out = sh.out)

theorem overwrite_turn {cfg sh d p t next c sh' pc' pc} (h : Lab.Overwrite sh d p t next c sh' pc') (x)
    (h1 : claim next = none ∨ claim pc = some x ∧ claim next = some x) (h3 : pc.inCommand = false)
    (h5 : ∀ d sc rs, pc ≠ .reverted d sc rs) (h6 : ∀ d sc, next ≠ .diffed d sc) (h7 : ∀ d sc, next ≠ .logged d sc) :
    Turn cfg sh sh' c pc pc' := by
  cases h with
  | ok hc h =>
    rcases h1 with h1 | ⟨h1, h2⟩
    · exact .ends h1 h5 rfl rfl
    · exact .on x h1 h2 h3 h5 h6 h7 rfl rfl
  | _ => exact .ends rfl h5 rfl rfl

theorem turn {cfg sh c pc sh' pc'} (h : Lab.WStep cfg sh c pc sh' pc') : Turn cfg sh sh' c pc pc' := by
  cases h with
  | log d sc used logs h => exact .create d sc used rfl rfl h rfl
  | copied b d con h => cases b <;> exact .ends rfl (by intros; nofun) rfl rfl
  | tell d sc =>
    cases sc with
    | baseline => exact .on _ rfl rfl rfl (by intros; nofun) (by intros; nofun) (by intros; nofun) rfl rfl
    | mutant m => exact .on _ rfl rfl rfl (by intros; nofun) (by intros; nofun) (by intros; nofun) rfl rfl
  | diff d sc => exact .diff d sc rfl rfl rfl rfl
  | apply d m _ _ h =>
    exact overwrite_turn h (.mutant m, true, []) (.inr ⟨rfl, rfl⟩) rfl (by intros; nofun) (by intros; nofun) (by intros; nofun)
  | startPhase d sc p todo rs con h =>
    exact .on _ rfl rfl rfl (by intros; nofun) (by intros; nofun) (by intros; nofun) rfl rfl
  | revert d m rs _ _ h =>
    exact overwrite_turn h (.mutant m, true, rs) (.inr ⟨rfl, rfl⟩) rfl (by intros; nofun) (by intros; nofun) (by intros; nofun)
  | noRevert d rs => exact .on _ rfl rfl rfl (by intros; nofun) (by intros; nofun) (by intros; nofun) rfl rfl
  | exits d sc p todo rs dur status con hc h hp => exact .exits d sc p todo rs dur status _ rfl hc rfl rfl rfl
  | failRevert d m _ _ h =>
    exact overwrite_turn h (.mutant m, true, []) (.inl rfl) rfl (by intros; nofun) (by intros; nofun) (by intros; nofun)
  | record d sc rs out h => exact .record d sc rs rfl rfl rfl (.inr (Lab.add_outcomes (addOutcome_spec h).1))
  | recordErr d sc rs out ws k hw h hc =>
    exact .record d sc rs rfl rfl rfl
      ((Lab.writeAll_take hw h).imp (fun h => by rw [h]) Lab.add_outcomes)
  | recordPanic d sc rs h => exact .record d sc rs rfl rfl rfl (.inl rfl)
  | tellFinished d sc rs text hm =>
    cases sc <;> exact .ends rfl (by intros; nofun) rfl rfl
  | _ => exact .ends rfl (by intros; nofun) rfl rfl

theorem pending_congr {cfg pc q q'} (h : Option.map Proc.State.pc q' = Option.map Proc.State.pc q) :
    pending cfg pc q' = pending cfg pc q := by
  cases pc with
  | none => rfl
  | some pc =>
    cases q with
    | none =>
      cases q' with
      | none => rfl
      | some q' => cases h
    | some q =>
      cases q' with
      | none => cases h
      | some q' =>
        simp only [Option.map_some, Option.some.injEq] at h
        cases pc
        case command => simp only [pending, h]
        all_goals rfl

theorem pending_none {cfg pc} : pending cfg pc none = [] := by
  cases pc with
  | none => rfl
  | some pc => cases pc <;> rfl

theorem Holds.say {diff f i b sc d rs extra} (h : Holds diff f b (sc, d, rs) extra) (hc : f.current i = some b) (m : Text) :
    Holds diff (f.say i m) b (sc, d, rs) (extra ++ [m]) := by
  simp only [Files.say, hc]
  exact h.append_said m (hs := f.handles)

theorem say_frame (f : Files) (i : Nat) (m : Text) : (f.say i m).current = f.current ∧ (f.say i m).recorded = f.recorded ∧
    (∀ b, ((f.say i m).logs b).isSome = (f.logs b).isSome) ∧ (f.say i m).diffs = f.diffs ∧ (f.say i m).handles = f.handles ∧
    ∀ b, (f.say i m).logs b = f.logs b ∨ f.current i = some b := by
  unfold Files.say
  split
  · exact ⟨rfl, rfl, fun _ => rfl, rfl, rfl, fun _ => .inl rfl⟩
  · rename_i b hb
    refine ⟨rfl, rfl, ?_, rfl, rfl, ?_⟩
    · intro b'
      by_cases h : b' = b
      · subst h; simp [Files.append, put_same]
      · simp [Files.append, put_other _ _ h]
    · intro b'
      by_cases h : b' = b
      · subst h; exact .inr hb
      · exact .inl (put_other _ _ h)

theorem started_logged {used used' logs logs' sc} (h : startScenario used logs sc = some (used', logs')) :
    logPath (chooseLogName used sc).2 ∉ logs ∧ logs' = logPath (chooseLogName used sc).2 :: logs := by
  unfold startScenario at h
  simp only at h
  split at h
  · cases h
  · rename_i hn
    cases h
    exact ⟨hn, rfl⟩

/-- The step of a thread that is not in a command. -/
theorem Inv.worker {cfg diff s i c pc sh' pc' r'} (h : Inv cfg diff s) (hreach : Run.Reachable cfg r')
    (hpc : s.run.lab.workers[i]? = some pc) (hn : s.run.procs i = none)
    (hw : Lab.WStep cfg.lab s.run.lab.sh c pc sh' pc')
    (he : r'.lab = { s.run.lab with sh := sh', workers := s.run.lab.workers.set i pc' })
    (hp : ∀ j, j ≠ i → r'.procs j = s.run.procs j)
    (hq : pending cfg (some pc') (r'.procs i) = []) :
    Inv cfg diff ⟨r', effect cfg diff s.run r' s.files (.worker i c)⟩ := by
  have hlen : i < s.run.lab.workers.length := (List.getElem?_eq_some_iff.1 hpc).1
  have hi : r'.lab.workers[i]? = some pc' := by rw [he]; simp [hlen]
  have hj : ∀ j, j ≠ i → r'.lab.workers[j]? = s.run.lab.workers[j]? := by
    intro j hj
    rw [he]
    simp [List.getElem?_set, Ne.symm hj]
  have hsh : r'.lab.sh = sh' := by rw [he]
  have hncmd : ∀ d sc p todo rs, pc ≠ .command d sc p todo rs := by
    rintro d sc p todo rs rfl
    obtain ⟨_, h1, _⟩ : Run.ProcOk cfg s.run.timeouts s.run.lab.sh.interrupted (some (.command d sc p todo rs)) (s.run.procs i) :=
      hpc ▸ (Run.reachable_inv h.run).procs i
    rw [hn] at h1
    cases h1
  cases turn hw with
  | create d sc used h1 h2 h3 h4 =>
    subst h1; subst h2
    obtain ⟨h5, h6⟩ := started_logged h3
    have : effect cfg diff s.run r' s.files (.worker i c) =
        s.files.create i (chooseLogName s.run.lab.sh.used sc).2 (title sc) := by
      simp only [effect, hpc, hi]
    rw [this]
    exact h.create r' hreach i _ d sc hn h5 (by rw [hsh, h6]) (by rw [hsh, h4]) hj hi hp
  | record d sc rs h1 h2 h3 h4 =>
    subst h1
    have hout : r'.lab.sh.out.lab.outcomes = sh'.out.lab.outcomes := by rw [hsh]
    have heff : effect cfg diff s.run r' s.files (.worker i c) =
        if r'.lab.sh.out.lab.outcomes.length = s.run.lab.sh.out.lab.outcomes.length then s.files
        else s.files.record i ⟨sc, rs⟩ := by
      simp only [effect, hpc, hi]
    rw [heff]
    rcases h4 with h4 | h4
    · rw [if_pos (by rw [hout, h4])]
      refine h.quiet r' hreach (by rw [hsh, h3]) (by rw [hout, h4]) ?_
      intro j pcj x h5 h6
      by_cases hji : j = i
      · subst hji
        rw [hi] at h5
        cases h5
        rw [h2] at h6
        cases h6
      · rw [hj j hji] at h5
        exact ⟨h5, by rw [hp j hji]⟩
    · rw [if_neg (by rw [hout, h4]; simp)]
      refine h.record r' hreach i d sc rs hpc (by rw [hsh, h3]) (by rw [hout, h4]) hj ?_ hp
      intro pcj h5
      rw [hi] at h5
      cases h5
      exact h2
  | diff d sc h1 h2 h3 h4 =>
    subst h1; subst h2
    obtain ⟨b, hb, hold, hnrec⟩ := h.active i _ _ hpc rfl
    cases sc with
    | baseline =>
      have : effect cfg diff s.run r' s.files (.worker i c) = s.files := by simp only [effect, hpc, hi]
      rw [this]
      refine h.touch r' s.files hreach i (by rw [hsh, h3]) (by rw [hsh, h4]) hj (fun j hji _ _ => by rw [hp j hji]) rfl rfl
        (fun _ => rfl) (fun b => .inl ⟨rfl, rfl, id⟩) ?_
      intro pcj x h5 h6
      rw [hi] at h5
      cases h5
      cases h6
      refine ⟨_, _, hpc, rfl, fun b _ hb => ?_⟩
      rw [hq]
      exact hb
    | mutant m =>
      have : effect cfg diff s.run r' s.files (.worker i c) = s.files.writeDiff i (diff m) := by simp only [effect, hpc, hi]
      rw [this]
      obtain ⟨f1, f2, f3, f4, f5, f6⟩ := say_frame s.files i ("mutation diff:\n".toList ++ diff m)
      have hw : s.files.writeDiff i (diff m) =
          { s.files.say i ("mutation diff:\n".toList ++ diff m) with diffs := put s.files.diffs b (some (diff m)) } := by
        simp only [Files.writeDiff, f1, hb, f4]
      rw [hw]
      refine h.touch r' _ hreach i (by rw [hsh, h3]) (by rw [hsh, h4]) hj (fun j hji _ _ => by rw [hp j hji]) f1 f2 f3 ?_ ?_
      · intro b'
        by_cases hbb : b' = b
        · subst hbb
          exact .inr ⟨hb, _, _, hpc, rfl⟩
        · refine .inl ⟨(f6 b').resolve_right fun h => hbb ?_, put_other _ _ hbb, fun h => by rw [f5] at h; exact h⟩
          rw [hb] at h
          cases h
          rfl
      · intro pcj x h5 h6
        rw [hi] at h5
        cases h5
        cases h6
        refine ⟨_, _, hpc, rfl, fun b' hb' hold => ?_⟩
        rw [hb] at hb'
        cases hb'
        rw [hq]
        obtain ⟨body, g1, g2, g3, g4, g5⟩ := hold
        have hbody : body = [] := by
          cases body with
          | nil => rfl
          | cons y ys =>
            cases y with
            | printed t => exact absurd rfl (g3 t)
            | said t => simp [messagesOf, commands, pending] at g2
        subst hbody
        refine ⟨[], ?_, rfl, by simp, put_same _ _ _, fun _ => ?_⟩
        · show (s.files.say i _).logs b = _
          rw [List.append_nil] at g1
          simp only [Files.say, hb, Files.append, put_same, g1]
          rfl
        · show b ∉ (s.files.say i _).handles
          rw [f5]
          exact g5 rfl
  | exits d sc p todo rs dur status todo' h1 => exact (hncmd _ _ _ _ _ h1).elim
  | ends h1 h2 h3 h4 =>
    have : effect cfg diff s.run r' s.files (.worker i c) = s.files := by
      simp only [effect, hpc, hi]
      split
      · rename_i e1 e2; cases e2; cases h1
      · rename_i e1 e2; cases e2; cases h1
      · rename_i e1; cases e1; exact (h2 _ _ _ rfl).elim
      · rfl
    rw [this]
    refine h.quiet r' hreach (by rw [hsh, h3]) (by rw [hsh, h4]) ?_
    intro j pcj x h5 h6
    by_cases hji : j = i
    · subst hji
      rw [hi] at h5
      cases h5
      rw [h1] at h6
      cases h6
    · rw [hj j hji] at h5
      exact ⟨h5, by rw [hp j hji]⟩
  | on x h1 h2 h3 h5 h6 h7 h4 h8 =>
    have : effect cfg diff s.run r' s.files (.worker i c) = s.files := by
      simp only [effect, hpc, hi]
      split
      · rename_i e1 e2; cases e2; exact (h7 _ _ rfl).elim
      · rename_i e1 e2; cases e2; exact (h6 _ _ rfl).elim
      · rename_i e1; cases e1; exact (h5 _ _ _ rfl).elim
      · rfl
    rw [this]
    refine h.touch r' s.files hreach i (by rw [hsh, h4]) (by rw [hsh, h8]) hj (fun j hji _ _ => by rw [hp j hji]) rfl rfl
      (fun _ => rfl) (fun b => .inl ⟨rfl, rfl, id⟩) ?_
    intro pcj y h9 h10
    rw [hi] at h9
    cases h9
    rw [h2] at h10
    cases h10
    refine ⟨_, _, hpc, h1, fun b _ hb => ?_⟩
    rw [hn, pending_none] at hb
    rw [hq]
    exact hb

theorem proc_said {q e q'} (argv : List Text) (h : Proc.step q e = some q') :
    (∃ ok, e = .spawn ok ∧ q.pc = .spawn ∧ procSaid argv q'.pc = [quoteArgv argv]) ∨
    (∃ x, e = .log true ∧ q.pc = .log x ∧ q'.pc = .done (.ok x)) ∨
    ((∀ ok, e ≠ .spawn ok) ∧ e ≠ .log true ∧ procSaid argv q'.pc = procSaid argv q.pc) := by
  cases e with
  | tick n => cases h; exact .inr (.inr ⟨by intros; nofun, nofun, rfl⟩)
  | ctrlC => cases h; exact .inr (.inr ⟨by intros; nofun, nofun, rfl⟩)
  | childExits st =>
    simp only [Proc.step] at h
    split at h <;> cases h
    exact .inr (.inr ⟨by intros; nofun, nofun, rfl⟩)
  | spawn ok =>
    simp only [Proc.step] at h
    split at h
    · rename_i hpc
      cases ok <;> cases h <;> exact .inl ⟨_, rfl, hpc, rfl⟩
    · cases h
  | checkTime =>
    simp only [Proc.step] at h
    split at h
    · rename_i hpc
      split at h <;> cases h <;> exact .inr (.inr ⟨by intros; nofun, nofun, by rw [hpc]; rfl⟩)
    · cases h
  | checkInterrupt =>
    simp only [Proc.step] at h
    split at h
    · rename_i hpc
      split at h <;> cases h <;> exact .inr (.inr ⟨by intros; nofun, nofun, by rw [hpc]; rfl⟩)
    · cases h
  | tryWait ok =>
    simp only [Proc.step] at h
    split at h
    · rename_i hpc
      split at h
      · cases h; exact .inr (.inr ⟨by intros; nofun, nofun, by rw [hpc]; rfl⟩)
      · split at h <;> cases h <;> exact .inr (.inr ⟨by intros; nofun, nofun, by rw [hpc]; rfl⟩)
    · cases h
  | wake =>
    simp only [Proc.step] at h
    split at h
    · rename_i hpc
      split at h <;> cases h
      exact .inr (.inr ⟨by intros; nofun, nofun, by rw [hpc]; rfl⟩)
    · cases h
  | kill r =>
    simp only [Proc.step] at h
    split at h
    · rename_i hpc
      split at h
      · cases h; exact .inr (.inr ⟨by intros; nofun, nofun, by rw [hpc]; rfl⟩)
      · split at h <;> cases h
        exact .inr (.inr ⟨by intros; nofun, nofun, by rw [hpc]; rfl⟩)
      · cases h; exact .inr (.inr ⟨by intros; nofun, nofun, by rw [hpc]; rfl⟩)
    · cases h
  | wait ok =>
    simp only [Proc.step] at h
    split at h
    · rename_i why hpc
      split at h
      · split at h <;> first | cases h | skip
        all_goals cases why <;> exact .inr (.inr ⟨by intros; nofun, nofun, by rw [hpc]; rfl⟩)
      · cases h
        cases why <;> exact .inr (.inr ⟨by intros; nofun, nofun, by rw [hpc]; rfl⟩)
    · cases h
  | log ok =>
    simp only [Proc.step] at h
    split at h
    · rename_i x hpc
      cases ok
      · cases h; exact .inr (.inr ⟨by intros; nofun, nofun, by rw [hpc]; rfl⟩)
      · cases h; exact .inr (.inl ⟨x, rfl, hpc, rfl⟩)
    · cases h

/-- A step of `Process::run`. -/
theorem Inv.proc {cfg diff s i e q q'} (h : Inv cfg diff s) (hreach : Run.Reachable cfg { s.run with procs := Run.setAt s.run.procs i (some q') })
    (hq : s.run.procs i = some q) (hst : Proc.step q e = some q') :
    Inv cfg diff ⟨{ s.run with procs := Run.setAt s.run.procs i (some q') },
      effect cfg diff s.run { s.run with procs := Run.setAt s.run.procs i (some q') } s.files (.proc i e)⟩ := by
  have hp := (Run.reachable_inv h.run).procs i
  rw [hq] at hp
  obtain ⟨d, sc, p, todo, rs, hpc, _, _⟩ := hp.some
  obtain ⟨b, hb, _, _⟩ := h.active i _ _ hpc rfl
  have hj : ∀ j, j ≠ i → ∀ pc, s.run.lab.workers[j]? = some pc →
      pending cfg (some pc) (Run.setAt s.run.procs i (some q') j) = pending cfg (some pc) (s.run.procs j) := by
    intro j hji pc _
    simp [Run.setAt, hji]
  have go : ∀ f' : Files, f'.current = s.files.current → f'.recorded = s.files.recorded →
      (∀ b, (f'.logs b).isSome = (s.files.logs b).isSome) →
      (∀ b', b' ≠ b → f'.logs b' = s.files.logs b' ∧ f'.diffs b' = s.files.diffs b' ∧ (b' ∈ f'.handles → b' ∈ s.files.handles)) →
      (Holds diff s.files b (sc, sc.isMutant, rs) (procSaid (cfg.lab.argv sc p) q.pc) →
        Holds diff f' b (sc, sc.isMutant, rs) (procSaid (cfg.lab.argv sc p) q'.pc)) →
      Inv cfg diff ⟨{ s.run with procs := Run.setAt s.run.procs i (some q') }, f'⟩ := by
    intro f' h1 h2 h3 h4 h5
    refine h.touch { s.run with procs := Run.setAt s.run.procs i (some q') } f' hreach i rfl rfl (fun _ _ => rfl) hj h1 h2 h3 ?_ ?_
    · intro b'
      by_cases hbb : b' = b
      · subst hbb
        exact .inr ⟨hb, _, _, hpc, rfl⟩
      · exact .inl (h4 b' hbb)
    · intro pc' c' h6 h7
      simp only [hpc, Option.some.injEq] at h6
      subst h6
      cases h7
      refine ⟨_, _, hpc, rfl, fun b' hb' hold => ?_⟩
      rw [hb] at hb'
      cases hb'
      rw [hq] at hold
      simpa [Run.setAt, pending] using h5 hold
  have same : ∀ {f' : Files}, f' = s.files → procSaid (cfg.lab.argv sc p) q'.pc = procSaid (cfg.lab.argv sc p) q.pc →
      Inv cfg diff ⟨{ s.run with procs := Run.setAt s.run.procs i (some q') }, f'⟩ := by
    rintro f' rfl h1
    exact go s.files rfl rfl (fun _ => rfl) (fun _ _ => ⟨rfl, rfl, id⟩) (by rw [h1]; exact id)
  rcases proc_said (cfg.lab.argv sc p) hst with ⟨ok, rfl, h1, h2⟩ | ⟨x, rfl, h1, h2⟩ | ⟨h1, h2, h3⟩
  · have heff : effect cfg diff s.run { s.run with procs := Run.setAt s.run.procs i (some q') } s.files (.proc i (.spawn ok)) =
        if ok then (s.files.say i (quoteArgv (cfg.lab.argv sc p))).handOver i else s.files.say i (quoteArgv (cfg.lab.argv sc p)) := by
      simp only [effect, hpc]
    rw [heff]
    obtain ⟨f1, f2, f3, f4, f5, f6⟩ := say_frame s.files i (quoteArgv (cfg.lab.argv sc p))
    have f6 : ∀ b', b' ≠ b → (s.files.say i (quoteArgv (cfg.lab.argv sc p))).logs b' = s.files.logs b' :=
      fun b' hbb => (f6 b').resolve_right fun h => hbb (by rw [hb] at h; cases h; rfl)
    have hs : Holds diff s.files b (sc, sc.isMutant, rs) (procSaid (cfg.lab.argv sc p) q.pc) → ∀ hs : List Text,
        Holds diff { s.files.say i (quoteArgv (cfg.lab.argv sc p)) with handles := hs } b (sc, sc.isMutant, rs)
          (procSaid (cfg.lab.argv sc p) q'.pc) := by
      intro hold hs
      rw [h1] at hold
      rw [h2]
      have := hold.append_said (quoteArgv (cfg.lab.argv sc p)) (hs := hs)
      simp only [Files.say, hb]
      exact this
    cases ok with
    | true =>
      refine go _ f1 f2 f3 ?_ fun hold => hs hold _
      intro b' hbb
      refine ⟨f6 b' hbb, by simp [Files.handOver, f4], ?_⟩
      intro h3
      simp only [if_true, Files.handOver, f5, f1, hb, Option.toList_some, List.mem_append, List.mem_singleton] at h3
      exact h3.resolve_right hbb
    | false =>
      refine go _ f1 f2 f3 ?_ fun hold => hs hold _
      intro b' hbb
      exact ⟨f6 b' hbb, by simp [f4], by simp [f5]⟩
  · have heff : effect cfg diff s.run { s.run with procs := Run.setAt s.run.procs i (some q') } s.files (.proc i (.log true)) =
        s.files.say i ("result: ".toList ++ exitDebug x) := by
      simp only [effect, hq, Option.map_some, h1]
    rw [heff]
    obtain ⟨f1, f2, f3, f4, f5, f6⟩ := say_frame s.files i ("result: ".toList ++ exitDebug x)
    refine go _ f1 f2 f3 ?_ ?_
    · intro b' hbb
      exact ⟨(f6 b').resolve_right fun h => hbb (by rw [hb] at h; cases h; rfl), by rw [f4], by rw [f5]; exact id⟩
    · intro hold
      rw [h1] at hold
      rw [h2]
      have := hold.say hb ("result: ".toList ++ exitDebug x)
      rw [result_eq] at this ⊢
      exact this
  · refine same ?_ h3
    cases e with
    | spawn ok => exact absurd rfl (h1 ok)
    | log ok =>
      cases ok with
      | true => exact absurd rfl h2
      | false => rfl
    | _ => rfl

/-- A thread leaves a command. -/
theorem Inv.leave {cfg diff s i dur q r sh' pc' d sc p todo rs r'} (h : Inv cfg diff s) (hreach : Run.Reachable cfg r')
    (hpc : s.run.lab.workers[i]? = some (.command d sc p todo rs)) (hq : s.run.procs i = some q) (hr : q.pc = .done r)
    (hw : Lab.WStep cfg.lab s.run.lab.sh (Run.choiceOf dur r) (.command d sc p todo rs) sh' pc')
    (he : r'.lab = { s.run.lab with sh := sh', workers := s.run.lab.workers.set i pc' })
    (hp : ∀ j, j ≠ i → r'.procs j = s.run.procs j) (hpi : r'.procs i = none) :
    Inv cfg diff ⟨r', s.files⟩ := by
  have hlen : i < s.run.lab.workers.length := (List.getElem?_eq_some_iff.1 hpc).1
  have hi : r'.lab.workers[i]? = some pc' := by rw [he]; simp [hlen]
  have hj : ∀ j, j ≠ i → r'.lab.workers[j]? = s.run.lab.workers[j]? := by
    intro j hj
    rw [he]
    simp [List.getElem?_set, Ne.symm hj]
  have hsh : r'.lab.sh = sh' := by rw [he]
  cases turn hw with
  | create _ _ _ h1 => cases h1
  | record _ _ _ h1 => cases h1
  | diff _ _ h1 => cases h1
  | on _ _ _ h3 => cases h3
  | ends h1 h2 h3 h4 =>
    refine h.quiet r' hreach (by rw [hsh, h3]) (by rw [hsh, h4]) ?_
    intro j pcj x h5 h6
    by_cases hji : j = i
    · subst hji
      rw [hi] at h5
      cases h5
      rw [h1] at h6
      cases h6
    · rw [hj j hji] at h5
      exact ⟨h5, by rw [hp j hji]⟩
  | exits d sc p todo rs dur' status todo' h1 hc h2 h3 h4 =>
    cases h1
    have hres : r = .ok status ∧ dur' = dur := by
      cases r <;> cases hc
      exact ⟨rfl, rfl⟩
    obtain ⟨rfl, rfl⟩ := hres
    refine h.touch r' s.files hreach i (by rw [hsh, h3]) (by rw [hsh, h4]) hj (fun j hji _ _ => by rw [hp j hji]) rfl rfl
      (fun _ => rfl) (fun b => .inl ⟨rfl, rfl, id⟩) ?_
    intro pcj y h9 h10
    rw [hi, h2] at h9
    cases h9
    cases h10
    refine ⟨_, _, hpc, rfl, fun b _ hb => ?_⟩
    rw [hq] at hb
    rw [hpi, pending_none]
    obtain ⟨body, g1, g2, g3, g4, g5⟩ := hb
    refine ⟨body, g1, ?_, g3, g4, g5⟩
    rw [g2]
    simp [pending, hr, procSaid, commands]

theorem Inv.step {cfg diff s e s'} (h : Inv cfg diff s) (hst : step cfg diff s e = some s') : Inv cfg diff s' := by
  cases e with
  | prints b t =>
    simp only [Logs.step] at hst
    split at hst
    · cases hst
      exact h.prints ‹_› t
    · cases hst
  | run e =>
    obtain ⟨r', hr, rfl⟩ := Option.map_eq_some_iff.1 hst
    have hinv := Run.reachable_inv h.run
    have hreach : Run.Reachable cfg r' := by
      obtain ⟨es, hes⟩ := h.run
      exact ⟨es ++ [e], by rw [Run.exec_append, hes]; simp [Run.exec, hr]⟩
    cases e with
    | tick n =>
      cases hr
      refine h.quiet _ hreach rfl rfl fun j pc c h1 h2 => ⟨h1, pending_congr ?_⟩
      show ((s.run.procs j).bind fun p => Proc.step p (.tick n)).map _ = _
      cases s.run.procs j <;> rfl
    | interrupt =>
      obtain ⟨l, h1, rfl⟩ := Option.map_eq_some_iff.1 hr
      rcases Lab.step_cases h1 with ⟨_, _, rfl⟩ | ⟨_, h, _⟩ | ⟨_, _, _, _, _, h, _⟩
      · refine h.quiet _ hreach rfl rfl fun j pc c h1 h2 => ⟨h1, pending_congr ?_⟩
        show ((s.run.procs j).bind fun p => Proc.step p .ctrlC).map _ = _
        cases s.run.procs j <;> rfl
      · cases h
      · cases h
    | childExits i st =>
      obtain ⟨q, hq, h1⟩ := Option.bind_eq_some_iff.1 hr
      obtain ⟨q', hq', rfl⟩ := Option.map_eq_some_iff.1 h1
      refine h.quiet _ hreach rfl rfl fun j pc c h1 h2 => ⟨h1, pending_congr ?_⟩
      simp only [Proc.step] at hq'
      split at hq' <;> cases hq'
      by_cases hj : j = i
      · subst hj
        simp [Run.setAt, hq]
      · simp [Run.setAt, hj]
    | main ok =>
      have key : ∀ {l' ok}, Lab.step cfg.lab s.run.lab (.main ok) = some l' → Lab.MStep cfg.lab s.run.lab l' := by
        intro l' ok h
        rcases Lab.step_cases h with ⟨h, _⟩ | ⟨_, _, h⟩ | ⟨_, _, _, _, _, h, _⟩
        · cases h
        · exact Lab.mstep_rel h
        · cases h
      have go : ∀ {r'}, Run.Reachable cfg r' → Lab.MStep cfg.lab s.run.lab r'.lab → r'.procs = s.run.procs →
          Inv cfg diff ⟨r', s.files⟩ := by
        intro r' hreach hm hp
        obtain ⟨h1, h2, h3⟩ := mstep_claims hm
        exact h.quiet r' hreach h1 (by rw [h2]) fun j pc c h4 h5 => ⟨h3 j pc c h4 h5, by rw [hp]⟩
      simp only [CM.Run.step] at hr
      split at hr
      · obtain ⟨l, h1, rfl⟩ := Option.map_eq_some_iff.1 hr
        exact go hreach (key h1) rfl
      · split at hr
        · obtain ⟨l, h1, rfl⟩ := Option.map_eq_some_iff.1 hr
          exact go hreach (key h1) rfl
        · obtain ⟨l, h1, rfl⟩ := Option.map_eq_some_iff.1 hr
          exact go hreach (key h1) rfl
    | worker i c =>
      simp only [CM.Run.step] at hr
      split at hr
      · cases hr
      rename_i hq
      obtain ⟨l, h1, rfl⟩ := Option.map_eq_some_iff.1 hr
      rcases Lab.step_cases h1 with ⟨h, _⟩ | ⟨_, h, _⟩ | ⟨i', c', pc, sh', pc', he, hpc, hw, rfl⟩
      · cases h
      · cases h
      cases he
      refine h.worker hreach hpc (by simpa using hq) hw rfl (fun j hj => by simp [Run.setAt, hj]) ?_
      have hlen : i < s.run.lab.workers.length := (List.getElem?_eq_some_iff.1 hpc).1
      simp only [Run.setAt, if_true, List.getElem?_set_self hlen]
      cases pc' <;> rfl
    | proc i e =>
      simp only [CM.Run.step] at hr
      split at hr
      · obtain ⟨q, hq, h1⟩ := Option.bind_eq_some_iff.1 hr
        obtain ⟨q', hq', rfl⟩ := Option.map_eq_some_iff.1 h1
        exact h.proc hreach hq hq'
      · cases hr
    | leave i dur =>
      simp only [CM.Run.step] at hr
      obtain ⟨q, hq, h1⟩ := Option.bind_eq_some_iff.1 hr
      split at h1
      · rename_i r hrr
        split at h1
        · obtain ⟨l, h2, rfl⟩ := Option.map_eq_some_iff.1 h1
          have hp := hinv.procs i
          rw [hq] at hp
          obtain ⟨d, sc, p, todo, rs, hpc, _, _⟩ := hp.some
          rcases Lab.step_cases h2 with ⟨h, _⟩ | ⟨_, h, _⟩ | ⟨i', c', pc, sh', pc', he, hpc', hw, rfl⟩
          · cases h
          · cases h
          cases he
          rw [hpc] at hpc'
          cases hpc'
          exact h.leave hreach hpc hq hrr hw rfl (fun j hj => by simp [Run.setAt, hj]) (by simp [Run.setAt])
        · cases h1
      · cases h1

theorem reachable_inv {cfg diff s} (h : Reachable cfg diff s) : Inv cfg diff s := by
  obtain ⟨es, h⟩ := h
  have key : ∀ (es : List Event) s s', Inv cfg diff s → exec cfg diff s es = some s' → Inv cfg diff s' := by
    intro es
    induction es with
    | nil => intro s s' h1 h2; cases h2; exact h1
    | cons e es ih =>
      intro s s' h1 h2
      obtain ⟨s1, h3, h4⟩ := Option.bind_eq_some_iff.1 h2
      exact ih s1 s' (h1.step h3) h4
  exact key es _ s (inv_init cfg diff) h

end CM.Logs
