import Verif.Spec.Dirt
import Verif.Proofs.LabContent
import Verif.Proofs.LabFine
/-! Runs in which commands write files correspond to runs in which they do not. -/
namespace CM.Dirt
open CM.Lab

/-- The same with other directories. -/
def withDirs (s : Lab.State) (c : DirId → Tree) : Lab.State := { s with sh := { s.sh with dirs := c } }

/-- Steps of the main thread do not look at directories. -/
theorem mstep_dirs (cfg : Config) (s : Lab.State) (ok : Bool) (c : DirId → Tree) :
    mstep cfg (withDirs s c) ok = (mstep cfg s ok).map (withDirs · c) ∧
    ∀ s', mstep cfg s ok = some s' → s'.sh.dirs = s.sh.dirs := by
  obtain ⟨sh, main, workers⟩ := s
  unfold mstep withDirs
  dsimp only
  split
  · split
    · exact ⟨rfl, by rintro _ ⟨⟩; rfl⟩
    · split
      · exact ⟨rfl, by rintro _ ⟨⟩; rfl⟩
      · exact ⟨rfl, by rintro _ ⟨⟩; rfl⟩
  · split
    · split
      · exact ⟨rfl, by rintro _ ⟨⟩; rfl⟩
      · split
        · exact ⟨rfl, by rintro _ ⟨⟩; rfl⟩
        · exact ⟨rfl, by rintro _ ⟨⟩; rfl⟩
    · exact ⟨rfl, by rintro _ ⟨⟩; rfl⟩
    · exact ⟨rfl, by rintro _ ⟨⟩⟩
  · split
    · split
      · split
        · exact ⟨rfl, by rintro _ ⟨⟩; rfl⟩
        · exact ⟨rfl, by rintro _ ⟨⟩; rfl⟩
      · exact ⟨rfl, by rintro _ ⟨⟩; rfl⟩
    · exact ⟨rfl, by rintro _ ⟨⟩; rfl⟩
    · exact ⟨rfl, by rintro _ ⟨⟩⟩
  · split
    · split
      · exact ⟨rfl, by rintro _ ⟨⟩; rfl⟩
      · exact ⟨rfl, by rintro _ ⟨⟩; rfl⟩
    · exact ⟨rfl, by rintro _ ⟨⟩⟩
  · exact ⟨rfl, by rintro _ ⟨⟩⟩

def dirsOf (c : DirId → Tree) (x : Shared × Pc) : Shared × Pc := ({ x.1 with dirs := c }, x.2)

def isCopying : Pc → Bool
  | .copying _ _ => true
  | _ => false

/-- Nor do steps of threads that neither copy nor write a source file. -/
theorem wstep_dirs (cfg : Config) (sh : Shared) (pc : Pc) (ch : Choice) (c : DirId → Tree) (hc : isCopying pc = false)
    (ht : target pc = none) :
    wstep cfg { sh with dirs := c } pc ch = (wstep cfg sh pc ch).map (dirsOf c) ∧
    ∀ x, wstep cfg sh pc ch = some x → x.1.dirs = sh.dirs := by
  cases pc
  case copying => cases hc
  case new =>
    obtain ⟨x1, x2, dir0, x3, x4, x5, x6, x7, x8, x9, x10⟩ := sh
    cases dir0 <;> exact ⟨rfl, by rintro _ ⟨⟩; rfl⟩
  case mustCopy b =>
    unfold wstep; dsimp only
    cases ch <;> exact ⟨rfl, by rintro _ ⟨⟩ <;> rfl⟩
  case idle d =>
    obtain ⟨x1, queue, x2, x3, x4, x5, x6, x7, x8, x9, x10⟩ := sh
    cases queue <;> exact ⟨rfl, by rintro _ ⟨⟩; rfl⟩
  case taken d sc =>
    unfold wstep; dsimp only
    cases ch
    case ok => cases startScenario sh.used sh.logs sc <;> exact ⟨rfl, by rintro _ ⟨⟩; rfl⟩
    all_goals exact ⟨rfl, by rintro _ ⟨⟩ <;> rfl⟩
  case logged d sc =>
    unfold wstep; dsimp only
    cases ch <;> exact ⟨rfl, by rintro _ ⟨⟩ <;> rfl⟩
  case started d sc =>
    unfold wstep; dsimp only
    cases ch <;> exact ⟨rfl, by rintro _ ⟨⟩ <;> rfl⟩
  case diffed d sc =>
    cases sc with
    | baseline => exact ⟨rfl, by rintro _ ⟨⟩⟩
    | mutant m => cases ht
  case ready d sc todo rs =>
    cases todo with
    | nil =>
      cases sc with
      | baseline => exact ⟨rfl, by rintro _ ⟨⟩; rfl⟩
      | mutant m => cases ht
    | cons p todo =>
      unfold wstep; dsimp only
      cases sh.console.phaseStarted d p <;> exact ⟨rfl, by rintro _ ⟨⟩; rfl⟩
  case command d sc p todo rs =>
    unfold wstep; dsimp only
    cases ch
    case exits dur st =>
      dsimp only
      split
      · exact ⟨rfl, by rintro _ ⟨⟩; rfl⟩
      · cases sh.console.phaseFinished d p <;> exact ⟨rfl, by rintro _ ⟨⟩; rfl⟩
    all_goals exact ⟨rfl, by rintro _ ⟨⟩ <;> rfl⟩
  case failing d sc =>
    cases sc with
    | baseline => exact ⟨rfl, by rintro _ ⟨⟩; rfl⟩
    | mutant m => cases ht
  case reverted d sc rs =>
    unfold wstep recordOutcome
    cases ch
    case ok =>
      dsimp only
      cases (addOutcomeWrites ⟨sc, rs⟩).bind sh.out.writeAll <;> exact ⟨rfl, by rintro _ ⟨⟩; rfl⟩
    case stopAfter k =>
      dsimp only
      cases (addOutcomeWrites ⟨sc, rs⟩).bind fun ws => sh.out.writeAll (ws.take k) <;> exact ⟨rfl, by rintro _ ⟨⟩; rfl⟩
    all_goals exact ⟨rfl, by rintro _ ⟨⟩⟩
  case recorded d sc rs =>
    unfold wstep tellFinished
    cases ch
    case ok =>
      dsimp only
      cases ScenarioOutcome.message cfg.print ⟨sc, rs⟩ <;> exact ⟨rfl, by rintro _ ⟨⟩; rfl⟩
    case logUnreadable =>
      dsimp only
      split <;> exact ⟨rfl, by rintro _ ⟨⟩ <;> rfl⟩
    all_goals exact ⟨rfl, by rintro _ ⟨⟩⟩
  all_goals exact ⟨rfl, by rintro _ ⟨⟩⟩

/-- A step that writes a source file. -/
theorem wstep_target (cfg : Config) (pc : Pc) (d : DirId) (p : Path) (h : target pc = some (d, p)) :
    ∃ m t next, p = m.sourceFile.path ∧ pc.scenario = some (.mutant m) ∧ pc.dir = some d ∧ (∀ d' sc p todo rs, next ≠ .command d' sc p todo rs) ∧
      (∀ strict t, ContentOk strict cfg t pc → Clean cfg t ∨ Mutated cfg m t) ∧
      ∀ sh ch, wstep cfg sh pc ch = overwrite sh d p t next ch := by
  unfold target at h
  split at h
  · cases h
    exact ⟨_, _, _, rfl, rfl, rfl, by simp, fun _ _ h => .inl h, fun _ _ => rfl⟩
  · cases h
    exact ⟨_, _, _, rfl, rfl, rfl, by simp, fun _ _ h => .inr h, fun _ _ => rfl⟩
  · cases h
    exact ⟨_, _, _, rfl, rfl, rfl, by simp, fun _ _ h => .inr h, fun _ _ => rfl⟩
  · cases h

/-- A run in which commands write, and one with the same steps in which they do not. -/
structure Sim (cfg : Config) (s : State) (c : Lab.State) : Prop where
  eq : c = withDirs s.lab c.sh.dirs
  same : ∀ d p, s.byCommand d p = false → s.lab.sh.dirs d p = c.sh.dirs d p
  ran : 0 ∈ s.ran → cfg.inPlace = true
  only : ∀ d p, s.byCommand d p = true → d ∈ s.ran
  reach : Lab.Reachable cfg c

theorem sim_init (cfg : Config) : Sim cfg (init cfg) (Lab.init cfg) :=
  ⟨rfl, fun _ _ _ => rfl, by simp [init], by simp [init], ⟨[], rfl⟩⟩

theorem writeFile_eq (dirs : DirId → Tree) (d : DirId) (p : Path) (t : Text) (d' p') :
    writeFile dirs d p t d' p' = setFile dirs d p (some t) d' p' := by
  unfold writeFile setFile
  by_cases h : d' = d
  · subst h
    by_cases h2 : p' = p <;> simp [h2]
  · simp [h]

theorem mem_started {s : State} {o d} (h : d ∈ s.started o) : d ∈ s.ran ∨ ∃ sc p todo rs, o = some (.command d sc p todo rs) := by
  unfold State.started at h
  split at h
  · rcases List.mem_cons.1 h with rfl | h
    · exact .inr ⟨_, _, _, _, rfl⟩
    · exact .inl h
  · exact .inl h

theorem ran_started {s : State} {o d} (h : d ∈ s.ran) : d ∈ s.started o := by
  unfold State.started
  split
  · exact List.mem_cons_of_mem _ h
  · exact h

/-- The step of the other run: a source file that a command has removed is one that cannot be written. -/
def translate (s : State) : Lab.Event → Lab.Event
  | .worker i .ok =>
    match s.lab.workers[i]?.bind target with
    | some (d, p) => if (s.lab.sh.dirs d p).isSome then .worker i .ok else .worker i (.writeFails none)
    | none => .worker i .ok
  | e => e

theorem scenario_known {cfg : Config} {main pc m} (h : Fits cfg main pc) (hs : pc.scenario = some (.mutant m)) :
    m ∈ cfg.mutants := by
  cases main <;> cases pc <;> simp [Fits, Pc.scenario] at h hs
  all_goals first
    | (subst hs; cases h; done)
    | (subst hs; obtain ⟨m', h1, h2⟩ := h; cases h2; exact h1)

/-- A step of a thread. -/
theorem Sim.thread {cfg s c} {i : Nat} {ch ch' pc sh' pc' cd} (hj : cfg.JobsOk) (h : Sim cfg s c) (hpc : s.lab.workers[i]? = some pc)
    (hw : wstep cfg c.sh pc ch' = some ({ sh' with dirs := cd }, pc'))
    (hsame : ∀ d p, s.written pc ch d p = false → sh'.dirs d p = cd d p)
    (hwr : ∀ d p, s.written pc ch d p = true → s.byCommand d p = true) :
    ∃ c', Lab.step cfg c (.worker i ch') = some c' ∧
      Sim cfg { lab := { s.lab with sh := sh', workers := s.lab.workers.set i pc' },
                ran := s.started (s.lab.workers.set i pc')[i]?, byCommand := s.written pc ch } c' := by
  have hcw : c.workers = s.lab.workers := by rw [h.eq]; rfl
  have hst : Lab.step cfg c (.worker i ch') =
      some { c with sh := { sh' with dirs := cd }, workers := c.workers.set i pc' } := by
    simp only [Lab.step, hcw, hpc, Option.bind_eq_bind, Option.bind_some, hw, Option.pure_def]
  have hreach := h.reach.step hst
  refine ⟨_, hst, ?_, hsame, ?_, ?_, hreach⟩
  · rw [h.eq]; rfl
  · intro hm
    rcases mem_started hm with hm | ⟨sc, p, todo, rs, hm⟩
    · exact h.ran hm
    · have := (reachable_dirs hj hreach).ok i _ 0 (hcw ▸ hm) rfl
      unfold DirOk at this
      split at this
      · assumption
      · omega
  · intro d p hb
    exact ran_started (h.only d p (hwr d p hb))

theorem written_none {s : State} {pc ch} (hc : isCopying pc = false) (h : target pc = none) : s.written pc ch = s.byCommand := by
  unfold State.written
  split
  · cases hc
  · rw [h]

theorem written_some {s : State} {pc ch d p} (h : target pc = some (d, p)) :
    s.written pc ch = if isWritten s.lab.sh.dirs d p ch then setFile s.byCommand d p false else s.byCommand := by
  unfold State.written
  split
  · cases h
  · rw [h]

/-- Both runs write the same text. -/
theorem same_after {s : State} {c : DirId → Tree} (h : ∀ d p, s.byCommand d p = false → s.lab.sh.dirs d p = c d p) (d : DirId) (p : Path) (t : Text) :
    ∀ d' p', setFile s.byCommand d p false d' p' = false →
      writeFile s.lab.sh.dirs d p t d' p' = writeFile c d p t d' p' := by
  intro d' p' hb
  rw [writeFile_eq, writeFile_eq]
  unfold setFile at *
  by_cases hx : d' = d ∧ p' = p
  · rw [if_pos hx, if_pos hx]
  · rw [if_neg hx] at hb
    rw [if_neg hx, if_neg hx]
    exact h d' p' hb

theorem setFile_false {f : DirId → Path → Bool} {d p d' p'} (h : setFile f d p false d' p' = true) : f d' p' = true := by
  unfold setFile at h
  by_cases hx : d' = d ∧ p' = p
  · rw [if_pos hx] at h; cases h
  · rw [if_neg hx] at h; exact h

theorem Sim.lab {cfg s c e s'} (hj : cfg.JobsOk) (hcons : cfg.Consistent)
    (hfiles : ∀ m ∈ cfg.mutants, (cfg.base m.sourceFile.path).isSome) (h : Sim cfg s c) (hst : step cfg s (.lab e) = some s') :
    ∃ c', Lab.step cfg c (translate s e) = some c' ∧ Sim cfg s' c' := by
  obtain ⟨l, hl, hs'⟩ := Option.map_eq_some_iff.1 (show (Lab.step cfg s.lab e).map _ = some s' from hst)
  cases e with
  | interrupt =>
    subst hs'
    dsimp only [Lab.step] at hl
    split at hl
    · cases hl
    · rename_i hi
      cases hl
      have hci : c.sh.interrupted = s.lab.sh.interrupted := by rw [h.eq]; rfl
      have hc : Lab.step cfg c .interrupt = some { c with sh := { c.sh with interrupted := true } } := by
        unfold Lab.step
        rw [hci]
        exact if_neg hi
      refine ⟨_, hc, ?_, h.same, h.ran, h.only, h.reach.step hc⟩
      show ({ c with sh := { c.sh with interrupted := true } } : Lab.State) = _
      rw [h.eq]; rfl
  | main ok =>
    subst hs'
    obtain ⟨h1, h2⟩ := mstep_dirs cfg s.lab ok c.sh.dirs
    have hl' : mstep cfg s.lab ok = some l := hl
    rw [hl', Option.map_some, ← h.eq] at h1
    have h1' : Lab.step cfg c (.main ok) = some (withDirs l c.sh.dirs) := h1
    refine ⟨_, h1', ?_, ?_, h.ran, h.only, h.reach.step h1'⟩
    · rfl
    · intro d p hb
      show l.sh.dirs d p = c.sh.dirs d p
      rw [h2 l hl']
      exact h.same d p hb
  | worker i ch =>
    unfold Lab.step at hl
    simp only [Option.bind_eq_bind, Option.bind_eq_some_iff, Option.pure_def, Option.some.injEq] at hl
    obtain ⟨pc, hpc, ⟨sh', pc'⟩, hw, rfl⟩ := hl
    simp only [hpc] at hs'
    subst hs'
    have hcsh : c.sh = { s.lab.sh with dirs := c.sh.dirs } := by rw [h.eq]; rfl
    have hcw : c.workers = s.lab.workers := by rw [h.eq]; rfl
    cases ht : target pc with
    | none =>
      have htr : translate s (.worker i ch) = .worker i ch := by
        unfold translate
        cases ch <;> simp [hpc, ht]
      rw [htr]
      cases hcp : isCopying pc with
      | false =>
        obtain ⟨h1, h2⟩ := wstep_dirs cfg s.lab.sh pc ch c.sh.dirs hcp ht
        rw [← hcsh, hw] at h1
        refine h.thread hj hpc h1 ?_ ?_
        · intro d p hb
          rw [written_none hcp ht] at hb
          rw [h2 _ hw]
          exact h.same d p hb
        · intro d p hb
          rwa [written_none hcp ht] at hb
      | true =>
        cases pc <;> first | (cases hcp; done) | skip
        rename_i b d
        have hplace : cfg.inPlace = false := by
          cases hp : cfg.inPlace with
          | false => rfl
          | true => exact absurd rfl ((((reachable_dirs hj h.reach).inPlace hp i _ (hcw ▸ hpc)).2 b).2 d)
        have h0 : s.lab.sh.dirs 0 = c.sh.dirs 0 := by
          funext p
          refine h.same 0 p ?_
          cases hb : s.byCommand 0 p with
          | false => rfl
          | true =>
            have := h.ran (h.only 0 p hb)
            rw [hplace] at this
            cases this
        have hwn : s.written (.copying b d) .ok = if (s.lab.sh.console.finishCopy d).isSome then
            fun d' p => if d' = d then false else s.byCommand d' p else s.byCommand := rfl
        have hcon : c.sh.console = s.lab.sh.console := by rw [hcsh]
        cases ch with
        | ok =>
          unfold wstep at hw
          dsimp only at hw
          cases hfin : s.lab.sh.console.finishCopy d with
          | none =>
            rw [hfin] at hw
            cases hw
            rw [hfin, if_neg (by simp)] at hwn
            refine h.thread (cd := c.sh.dirs) hj hpc ?_ (by rw [hwn]; exact h.same) (by rw [hwn]; exact fun _ _ => id)
            unfold wstep
            dsimp only
            rw [hcon, hfin]
            dsimp only
            rw [hcsh]
          | some con =>
            rw [hfin] at hw
            cases hw
            rw [hfin, if_pos (by rfl)] at hwn
            refine h.thread (cd := fun d' => if d' = d then cfg.copy (c.sh.dirs 0) else c.sh.dirs d') hj hpc ?_ ?_ ?_
            · unfold wstep
              dsimp only
              rw [hcon, hfin]
              dsimp only
              rw [hcsh]
            · intro d' p' hb
              rw [hwn] at hb
              dsimp only at hb ⊢
              rw [h0]
              split
              · rfl
              · rename_i hd
                rw [if_neg hd] at hb
                exact h.same d' p' hb
            · intro d' p' hb
              rw [hwn] at hb
              dsimp only at hb
              split at hb
              · cases hb
              · exact hb
        | fail =>
          cases hw
          refine h.thread (cd := c.sh.dirs) (ch := .fail) hj hpc ?_ h.same (fun _ _ => id)
          rw [← hcsh]; rfl
        | writeFails _ => cases hw
        | exits _ _ => cases hw
        | stopAfter _ => cases hw
        | logUnreadable => cases hw
    | some x =>
      obtain ⟨d, p⟩ := x
      obtain ⟨m, t, next, rfl, hsc, hdir, hnext, hcont, hov⟩ := wstep_target cfg pc d p ht
      have hinv := Lab.reachable_inv hj hcons h.reach
      have hm := scenario_known (hinv.shape.fits i pc (hcw ▸ hpc)) hsc
      have hsome : (c.sh.dirs d m.sourceFile.path).isSome := by
        rcases hcont _ _ (hinv.content.workers i pc d (hcw ▸ hpc) hdir) with hcl | hmu
        · rcases hcl m.sourceFile.path with h | ⟨_, h⟩ <;> rw [h] <;> have := hfiles m hm
          · exact this
          · simpa using this
        · exact hmu.isSome
      rw [hov] at hw
      cases ch with
      | ok =>
        unfold overwrite at hw
        dsimp only at hw
        split at hw
        · rename_i hd
          cases hw
          have htr : translate s (.worker i .ok) = .worker i .ok := by
            unfold translate
            simp [hpc, ht, hd]
          rw [htr]
          refine h.thread (cd := writeFile c.sh.dirs d m.sourceFile.path t) hj hpc ?_ ?_ ?_
          · rw [hov]
            unfold overwrite
            dsimp only
            rw [if_pos hsome, hcsh]
          · rw [written_some ht, if_pos (show isWritten s.lab.sh.dirs d m.sourceFile.path .ok = true from hd)]
            exact same_after h.same d _ t
          · rw [written_some ht, if_pos (show isWritten s.lab.sh.dirs d m.sourceFile.path .ok = true from hd)]
            intro d' p' hb
            exact setFile_false hb
        · rename_i hd
          cases hw
          have htr : translate s (.worker i .ok) = .worker i (.writeFails none) := by
            unfold translate
            simp only [hpc, Option.bind_some, ht]
            rw [if_neg hd]
          rw [htr]
          refine h.thread (cd := c.sh.dirs) hj hpc ?_ ?_ ?_
          · rw [hov, ← hcsh]; rfl
          · rw [written_some ht, if_neg (show ¬ isWritten s.lab.sh.dirs d m.sourceFile.path .ok = true from hd)]
            exact h.same
          · rw [written_some ht, if_neg (show ¬ isWritten s.lab.sh.dirs d m.sourceFile.path .ok = true from hd)]
            exact fun _ _ => id
      | writeFails t' =>
        cases t' with
        | none =>
          cases hw
          refine h.thread (cd := c.sh.dirs) hj hpc ?_ ?_ ?_
          · rw [hov, ← hcsh]; rfl
          · rw [written_some ht]
            exact h.same
          · rw [written_some ht]
            exact fun _ _ => id
        | some t' =>
          cases hw
          refine h.thread (cd := writeFile c.sh.dirs d m.sourceFile.path t') hj hpc ?_ ?_ ?_
          · rw [hov]
            unfold overwrite
            dsimp only
            rw [hcsh]
          · rw [written_some ht]
            exact same_after h.same d _ t'
          · rw [written_some ht]
            intro d' p' hb
            exact setFile_false hb
      | fail => cases hw
      | exits _ _ => cases hw
      | stopAfter _ => cases hw
      | logUnreadable => cases hw

theorem setFile_true {f : DirId → Path → Bool} {d p d' p'} (h : setFile f d p true d' p' = false) :
    ¬ (d' = d ∧ p' = p) ∧ f d' p' = false := by
  unfold setFile at h
  by_cases hx : d' = d ∧ p' = p
  · rw [if_pos hx] at h; cases h
  · rw [if_neg hx] at h; exact ⟨hx, h⟩

theorem setFile_ne {α} (f : DirId → Path → α) {d p d' p'} (a : α) (h : ¬ (d' = d ∧ p' = p)) :
    setFile f d p a d' p' = f d' p' := if_neg h

theorem Sim.writes {cfg s c d p t s'} (h : Sim cfg s c) (hst : step cfg s (.writes d p t) = some s') : Sim cfg s' c := by
  dsimp only [step] at hst
  split at hst
  · rename_i hd
    cases hst
    refine ⟨h.eq, fun d' p' hb => ?_, h.ran, fun d' p' hb => ?_, h.reach⟩
    · obtain ⟨h1, h2⟩ := setFile_true hb
      exact (setFile_ne s.lab.sh.dirs t h1).trans (h.same d' p' h2)
    · by_cases hx : d' = d ∧ p' = p
      · rw [hx.1]; exact hd
      · exact h.only d' p' ((setFile_ne s.byCommand true hx).symm.trans hb)
  · cases hst

theorem exec_append {cfg : Config} {s : State} {a b : List Event} :
    exec cfg s (a ++ b) = (exec cfg s a).bind fun s => exec cfg s b := by
  induction a generalizing s with
  | nil => rfl
  | cons e es ih =>
    simp only [List.cons_append, exec, Option.bind_assoc]
    cases step cfg s e with
    | none => rfl
    | some s1 => exact ih

/-- Every run in which commands write corresponds to one in which they do not. -/
theorem reachable_sim {cfg s} (hj : cfg.JobsOk) (hcons : cfg.Consistent)
    (hfiles : ∀ m ∈ cfg.mutants, (cfg.base m.sourceFile.path).isSome) (h : Reachable cfg s) : ∃ c, Sim cfg s c := by
  obtain ⟨es, h⟩ := h
  suffices ∀ s0 c0, Sim cfg s0 c0 → exec cfg s0 es = some s → ∃ c, Sim cfg s c from this _ _ (sim_init cfg) h
  clear h
  induction es with
  | nil => rintro s0 c0 h0 ⟨⟩; exact ⟨c0, h0⟩
  | cons e es ih =>
    intro s0 c0 h0 hex
    obtain ⟨s1, h1, hex'⟩ := Option.bind_eq_some_iff.1 hex
    cases e with
    | lab e =>
      obtain ⟨c1, _, hs⟩ := h0.lab hj hcons hfiles h1
      exact ih _ _ hs hex'
    | writes d p t => exact ih _ _ (h0.writes h1) hex'

/-- A file that a command wrote last is not changed by the program. -/
theorem wstep_keeps {cfg : Config} {s : State} {pc ch sh' pc' d p} (h : wstep cfg s.lab.sh pc ch = some (sh', pc'))
    (hb : s.written pc ch d p = true) : sh'.dirs d p = s.lab.sh.dirs d p ∧ s.byCommand d p = true := by
  cases ht : target pc with
  | none =>
    cases hcp : isCopying pc with
    | false =>
      rw [written_none hcp ht] at hb
      rw [(wstep_dirs cfg s.lab.sh pc ch s.lab.sh.dirs hcp ht).2 _ h]
      exact ⟨rfl, hb⟩
    | true =>
      cases pc <;> first | (cases hcp; done) | skip
      rename_i b d0
      cases ch with
      | ok =>
        have hwn : s.written (.copying b d0) .ok = if (s.lab.sh.console.finishCopy d0).isSome then
            fun d' p => if d' = d0 then false else s.byCommand d' p else s.byCommand := rfl
        rw [hwn] at hb
        unfold wstep at h
        dsimp only at h
        cases hfin : s.lab.sh.console.finishCopy d0 with
        | none =>
          rw [hfin] at h hb
          cases h
          exact ⟨rfl, hb⟩
        | some con =>
          rw [hfin] at h hb
          rw [if_pos (by rfl)] at hb
          cases h
          dsimp only at hb ⊢
          split at hb
          · cases hb
          · rename_i hd
            rw [if_neg hd]
            exact ⟨rfl, hb⟩
      | fail => cases h; exact ⟨rfl, hb⟩
      | writeFails _ => cases h
      | exits _ _ => cases h
      | stopAfter _ => cases h
      | logUnreadable => cases h
  | some x =>
    obtain ⟨d0, p0⟩ := x
    obtain ⟨m, t, next, rfl, _, _, _, _, hov⟩ := wstep_target cfg pc d0 p0 ht
    rw [hov] at h
    rw [written_some ht] at hb
    have key : ∀ t', setFile s.byCommand d0 m.sourceFile.path false d p = true →
        writeFile s.lab.sh.dirs d0 m.sourceFile.path t' d p = s.lab.sh.dirs d p ∧ s.byCommand d p = true := by
      intro t' hb
      refine ⟨?_, setFile_false hb⟩
      rw [writeFile_eq]
      refine setFile_ne _ _ fun hx => ?_
      unfold setFile at hb
      rw [if_pos hx] at hb
      cases hb
    cases ch with
    | ok =>
      unfold overwrite at h
      dsimp only at h
      split at h
      · rename_i hd
        cases h
        rw [if_pos (show isWritten s.lab.sh.dirs d0 m.sourceFile.path .ok = true from hd)] at hb
        exact key _ hb
      · rename_i hd
        cases h
        rw [if_neg (show ¬ isWritten s.lab.sh.dirs d0 m.sourceFile.path .ok = true from hd)] at hb
        exact ⟨rfl, hb⟩
    | writeFails t' =>
      cases t' with
      | none => cases h; exact ⟨rfl, hb⟩
      | some t' => cases h; exact key _ hb
    | fail => cases h
    | exits _ _ => cases h
    | stopAfter _ => cases h
    | logUnreadable => cases h

/-- Induction over a run. -/
theorem exec_snoc_ind (cfg : Config) (P : List Event → State → Prop) (h0 : P [] (init cfg))
    (hstep : ∀ es s e s', exec cfg (init cfg) es = some s → P es s → step cfg s e = some s' → P (es ++ [e]) s') :
    ∀ es s, exec cfg (init cfg) es = some s → P es s := by
  have gen : ∀ es2 es1 s1, exec cfg (init cfg) es1 = some s1 → P es1 s1 →
      ∀ s, exec cfg s1 es2 = some s → P (es1 ++ es2) s := by
    intro es2
    induction es2 with
    | nil => rintro es1 s1 h1 hp s ⟨⟩; rwa [List.append_nil]
    | cons e es2 ih =>
      intro es1 s1 h1 hp s h
      obtain ⟨s2, h2, h3⟩ := Option.bind_eq_some_iff.1 h
      have := ih (es1 ++ [e]) s2 (by rw [exec_append, h1, Option.bind_some, exec, h2]; rfl) (hstep es1 s1 e s2 h1 hp h2) s h3
      rwa [List.append_assoc] at this
  exact fun es s h => gen es [] (init cfg) rfl h0 s h

/-- A file that a command wrote last holds what it wrote. -/
theorem byCommand_text {cfg : Config} (es : List Event) (s : State) (h : exec cfg (init cfg) es = some s) :
    ∀ d p, s.byCommand d p = true → Event.writes d p (s.lab.sh.dirs d p) ∈ es := by
  refine exec_snoc_ind cfg (fun es s => ∀ d p, s.byCommand d p = true → Event.writes d p (s.lab.sh.dirs d p) ∈ es)
    (fun d p hb => by cases hb) ?_ es s h
  intro es s e s' _ ih hst d p hb
  cases e with
  | writes d0 p0 t =>
    dsimp only [step] at hst
    split at hst
    · cases hst
      dsimp only at hb ⊢
      by_cases hx : d = d0 ∧ p = p0
      · obtain ⟨rfl, rfl⟩ := hx
        simp [setFile]
      · rw [setFile_ne _ _ hx] at hb ⊢
        exact List.mem_append_left _ (ih d p hb)
    · cases hst
  | lab e =>
    refine List.mem_append_left _ ?_
    obtain ⟨l, hl, hs'⟩ := Option.map_eq_some_iff.1 (show (Lab.step cfg s.lab e).map _ = some s' from hst)
    cases e with
    | interrupt =>
      subst hs'
      dsimp only [Lab.step] at hl
      split at hl
      · cases hl
      · cases hl; exact ih d p hb
    | main ok =>
      subst hs'
      show Event.writes d p (l.sh.dirs d p) ∈ es
      rw [(mstep_dirs cfg s.lab ok s.lab.sh.dirs).2 l hl]
      exact ih d p hb
    | worker i ch =>
      unfold Lab.step at hl
      simp only [Option.bind_eq_bind, Option.bind_eq_some_iff, Option.pure_def, Option.some.injEq] at hl
      obtain ⟨pc, hpc, ⟨sh', pc'⟩, hw, rfl⟩ := hl
      simp only [hpc] at hs'
      subst hs'
      obtain ⟨h1, h2⟩ := wstep_keeps hw hb
      show Event.writes d p (sh'.dirs d p) ∈ es
      rw [h1]
      exact ih d p h2

open CM.Spec in
/-- What the program has written last, after a step. -/
theorem own_step {cfg sh c pc sh' pc'} (h : WStep cfg sh c pc sh' pc') {x} (hx : ownText pc' = some x) :
    sh'.dirs x.1 x.2.1 = some x.2.2 ∨ ownText pc = some x ∧ sh'.dirs = sh.dirs := by
  have hov : ∀ {d p t next} (_ : Overwrite sh d p t next c sh' pc'), ownText next = some (d, p, t) →
      sh'.dirs x.1 x.2.1 = some x.2.2 := by
    intro d p t next ho hn
    cases ho with
    | ok _ _ =>
      rw [hn] at hx
      cases hx
      simp [writeFile, withFile]
    | missing _ _ => cases hx
    | failed _ => cases hx
    | torn _ _ => cases hx
  cases h
  case apply h => exact .inl (hov h rfl)
  case revert h => exact .inl (hov h rfl)
  case failRevert h => cases h <;> cases hx
  case copied b _ _ _ => cases b <;> cases hx
  case tell d sc => cases sc <;> cases hx
  case tellFinished d sc rs _ _ => cases sc <;> cases hx
  case startPhase d sc _ _ _ _ _ => exact .inr ⟨by cases sc <;> exact hx, rfl⟩
  case exits d sc _ _ _ _ _ _ _ _ _ => exact .inr ⟨by cases sc <;> exact hx, rfl⟩
  case interrupted d sc _ _ _ _ => exact .inr ⟨by cases sc <;> exact hx, rfl⟩
  case commandErr d sc _ _ _ _ => exact .inr ⟨by cases sc <;> exact hx, rfl⟩
  case record d sc _ _ _ => exact .inr ⟨by cases sc <;> exact hx, rfl⟩
  all_goals cases hx

open CM.Spec in
theorem own_dir {pc x} (h : ownText pc = some x) : pc.dir = some x.1 := by
  unfold ownText at h
  split at h <;> cases h <;> rfl

open CM.Spec in
/-- The main thread starts no thread in the middle of a mutant. -/
theorem own_main {cfg s s'} (h : MStep cfg s s') {i : Nat} {pc x} (hpc : s'.workers[i]? = some pc) (hx : ownText pc = some x) :
    s.workers[i]? = some pc := by
  have hsp : ∀ d, (spawn cfg s d).workers[i]? = some pc → False := by
    intro d hm
    have hm := List.mem_of_getElem? hm
    simp only [spawn, List.mem_replicate] at hm
    obtain ⟨_, rfl⟩ := hm
    cases hx
  have hone : ∀ q, ownText q = none → [q][i]? = some pc → False := by
    intro q hq hm
    have hm := List.mem_of_getElem? hm
    simp only [List.mem_singleton] at hm
    subst hm
    rw [hq] at hx
    cases hx
  cases h
  case prepare =>
    refine (hone _ ?_ hpc).elim
    split <;> rfl
  case baseline => exact (hone _ rfl hpc).elim
  case skipBaseline => exact (hsp _ hpc).elim
  case passed => exact (hsp _ hpc).elim
  all_goals exact hpc

end CM.Dirt
