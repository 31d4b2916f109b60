import Verif.Spec.Lab
/-! The steps of a worker, as a relation, and what a step leaves unchanged. -/
namespace CM.Lab

/-- `overwrite`, as a relation. -/
inductive Overwrite (sh : Shared) (d : DirId) (p : Path) (t : Text) (next : Pc) (c : Choice) :
    Shared → Pc → Prop
  | ok (hc : c = .ok) (h : (sh.dirs d p).isSome) :
      Overwrite sh d p t next c { sh with dirs := writeFile sh.dirs d p t } next
  | missing (hc : c = .ok) (h : sh.dirs d p = none) : Overwrite sh d p t next c sh (.failed (some d))
  | failed (hc : c = .writeFails none) : Overwrite sh d p t next c sh (.failed (some d))
  | torn (t' : Text) (hc : c = .writeFails (some t')) :
      Overwrite sh d p t next c { sh with dirs := writeFile sh.dirs d p t' } (.failed (some d))

theorem overwrite_rel {sh d p t next c sh' pc'} (h : overwrite sh d p t next c = some (sh', pc')) :
    Overwrite sh d p t next c sh' pc' := by
  unfold overwrite at h
  split at h
  · split at h
    · rename_i hs
      injection h with h; injection h with h1 h2; subst h1; subst h2; exact .ok rfl hs
    · rename_i hs
      injection h with h; injection h with h1 h2; subst h1; subst h2
      exact .missing rfl (by simpa using hs)
  · injection h with h; injection h with h1 h2; subst h1; subst h2; exact .failed rfl
  · injection h with h; injection h with h1 h2; subst h1; subst h2; exact .torn _ rfl
  · cases h

/-- `wstep`, as a relation. -/
inductive WStep (cfg : Config) (sh : Shared) (c : Choice) : Pc → Shared → Pc → Prop
  | takeDir0 (d) (h : sh.dir0 = some d) : WStep cfg sh c .new { sh with dir0 := none } (.idle d)
  | noDir0 (h : sh.dir0 = none) : WStep cfg sh c .new sh (.mustCopy false)
  | startCopy (b) : WStep cfg sh c (.mustCopy b)
      { sh with nextDir := sh.nextDir + 1, console := sh.console.startCopy sh.nextDir }
      (.copying b sh.nextDir)
  | startCopyErr (b) : WStep cfg sh c (.mustCopy b) sh (.failed none)
  | copied (b d con) (h : sh.console.finishCopy d = some con) : WStep cfg sh c (.copying b d)
      { sh with console := con,
                dirs := fun d' => if d' = d then cfg.copy (sh.dirs 0) else sh.dirs d' }
      (if b then .prepared d else .idle d)
  | copyPanic (b d) (h : sh.console.finishCopy d = none) : WStep cfg sh c (.copying b d)
      { sh with panicked := some .console } (.failed none)
  | copyErr (b d) : WStep cfg sh c (.copying b d) sh (.failed none)
  | finish (d) (h : sh.queue = []) : WStep cfg sh c (.idle d) sh (.finished d)
  | take (d m q) (h : sh.queue = m :: q) :
      WStep cfg sh c (.idle d) { sh with queue := q } (.taken d (.mutant m))
  | log (d sc used logs) (h : startScenario sh.used sh.logs sc = some (used, logs)) :
      WStep cfg sh c (.taken d sc) { sh with used := used, logs := logs } (.logged d sc)
  | logErr (d sc) (h : startScenario sh.used sh.logs sc = none ∨ c = .fail) :
      WStep cfg sh c (.taken d sc) { sh with used := (chooseLogName sh.used sc).1 } (.failed (some d))
  | tell (d sc) : WStep cfg sh c (.logged d sc) { sh with console := sh.console.scenarioStarted d }
      (if sc.isMutant then .started d sc else .ready d sc cfg.phases [])
  | tellErr (d sc) : WStep cfg sh c (.logged d sc) sh (.failed (some d))
  | diff (d sc) : WStep cfg sh c (.started d sc) sh (.diffed d sc)
  | diffErr (d sc) : WStep cfg sh c (.started d sc) sh (.failed (some d))
  | apply (d m sh' pc')
      (h : Overwrite sh d m.sourceFile.path m.mutated (.ready d (.mutant m) cfg.phases []) c sh' pc') :
      WStep cfg sh c (.diffed d (.mutant m)) sh' pc'
  | startPhase (d sc p todo rs con) (h : sh.console.phaseStarted d p = some con) :
      WStep cfg sh c (.ready d sc (p :: todo) rs) { sh with console := con } (.command d sc p todo rs)
  | startPhasePanic (d sc p todo rs) (h : sh.console.phaseStarted d p = none) :
      WStep cfg sh c (.ready d sc (p :: todo) rs) { sh with panicked := some .console }
        (.failed (some d))
  | revert (d m rs sh' pc')
      (h : Overwrite sh d m.sourceFile.path m.sourceFile.code (.reverted d (.mutant m) rs) c sh' pc') :
      WStep cfg sh c (.ready d (.mutant m) [] rs) sh' pc'
  | noRevert (d rs) : WStep cfg sh c (.ready d .baseline [] rs) sh (.reverted d .baseline rs)
  | interrupted (d sc p todo rs) (h : sh.interrupted = true) :
      WStep cfg sh c (.command d sc p todo rs) sh (.failing d sc)
  | exits (d sc p todo rs dur status con) (hc : c = .exits dur status) (h : sh.interrupted = false)
      (hp : sh.console.phaseFinished d p = some con) :
      WStep cfg sh c (.command d sc p todo rs) { sh with console := con }
        (.ready d sc (if status.isSuccess then todo else [])
          (rs ++ [{ phase := p, duration := dur, status := status, argv := cfg.argv sc p }]))
  | exitsPanic (d sc p todo rs) (h : sh.interrupted = false)
      (hp : sh.console.phaseFinished d p = none) :
      WStep cfg sh c (.command d sc p todo rs) { sh with panicked := some .console } (.failed (some d))
  | commandErr (d sc p todo rs) (hc : c = .fail) :
      WStep cfg sh c (.command d sc p todo rs) sh (.failing d sc)
  | failRevert (d m sh' pc')
      (h : Overwrite sh d m.sourceFile.path m.sourceFile.code (.failed (some d)) c sh' pc') :
      WStep cfg sh c (.failing d (.mutant m)) sh' pc'
  | failBaseline (d) : WStep cfg sh c (.failing d .baseline) sh (.failed (some d))
  | record (d sc rs out) (h : sh.out.addOutcome ⟨sc, rs⟩ = some out) :
      WStep cfg sh c (.reverted d sc rs) { sh with out := out } (.recorded d sc rs)
  | recordErr (d sc rs out ws k) (hw : addOutcomeWrites ⟨sc, rs⟩ = some ws)
      (h : sh.out.writeAll (ws.take k) = some out) (hc : c = .stopAfter k) :
      WStep cfg sh c (.reverted d sc rs) { sh with out := out } (.failed (some d))
  | recordPanic (d sc rs)
      (h : addOutcomeWrites ⟨sc, rs⟩ = none ∨
        ∃ ws k, addOutcomeWrites ⟨sc, rs⟩ = some ws ∧ sh.out.writeAll (ws.take k) = none) :
      WStep cfg sh c (.reverted d sc rs) { sh with panicked := some .outcome } (.failed (some d))
  | tellFinished (d sc rs text) (hm : ScenarioOutcome.message cfg.print ⟨sc, rs⟩ = some text) : WStep cfg sh c (.recorded d sc rs)
      { sh with console := sh.console.scenarioFinished d sc.isMutant, stdout := sh.stdout ++ text.toList }
      (if sc.isMutant then .idle d else .baselineDone d ⟨sc, rs⟩)
  | tellPanic (d sc rs) (hm : ScenarioOutcome.message cfg.print ⟨sc, rs⟩ = none) : WStep cfg sh c (.recorded d sc rs)
      { sh with console := sh.console.scenarioFinished d sc.isMutant, panicked := some .outcome }
      (.failed (some d))
  | unreadable (d sc rs) (hc : c = .logUnreadable) : WStep cfg sh c (.recorded d sc rs)
      { sh with console := sh.console.scenarioFinished d sc.isMutant,
                panicked := some .unreadableLog }
      (.failed (some d))

theorem wstep_rel {cfg sh pc c sh' pc'} (h : wstep cfg sh pc c = some (sh', pc')) :
    WStep cfg sh c pc sh' pc' := by
  cases pc <;> simp only [wstep] at h
  case new =>
    split at h <;> (injection h with h; injection h with h1 h2; subst h1; subst h2)
    · exact .takeDir0 _ ‹_›
    · exact .noDir0 ‹_›
  case mustCopy b =>
    split at h <;> first | cases h | skip
    · exact .startCopy b
    · exact .startCopyErr b
  case copying b d =>
    split at h <;> first | cases h | skip
    · split at h <;> cases h
      · exact .copyPanic b d ‹_›
      · exact .copied b d _ ‹_›
    · exact .copyErr b d
  case idle d =>
    split at h <;> cases h
    · exact .finish d ‹_›
    · exact .take d _ _ ‹_›
  case taken d sc =>
    split at h <;> first | cases h | skip
    · split at h <;> cases h
      · exact .logErr d sc (.inl ‹_›)
      · exact .log d sc _ _ ‹_›
    · exact .logErr d sc (.inr rfl)
  case logged d sc =>
    split at h <;> cases h
    · exact .tell d sc
    · exact .tellErr d sc
  case started d sc =>
    split at h <;> cases h
    · exact .diff d sc
    · exact .diffErr d sc
  case diffed d sc =>
    split at h
    · cases h
    · exact .apply _ _ _ _ (overwrite_rel h)
  case ready d sc todo rs =>
    split at h
    · split at h <;> cases h
      · exact .startPhasePanic _ _ _ _ _ ‹_›
      · exact .startPhase _ _ _ _ _ _ ‹_›
    · unfold Lab.revert at h
      split at h
      · cases h; exact .noRevert _ _
      · exact .revert _ _ _ _ _ (overwrite_rel h)
  case command d sc p todo rs =>
    split at h
    · split at h
      · cases h; exact .interrupted _ _ _ _ _ ‹_›
      · rename_i hi
        split at h <;> cases h
        · exact .exitsPanic _ _ _ _ _ (by simpa using hi) ‹_›
        · exact .exits _ _ _ _ _ _ _ _ rfl (by simpa using hi) ‹_›
    · cases h; exact .commandErr _ _ _ _ _ rfl
    · cases h
  case failing d sc =>
    unfold Lab.revert at h
    split at h
    · cases h; exact .failBaseline _
    · exact .failRevert _ _ _ _ (overwrite_rel h)
  case reverted d sc rs =>
    unfold recordOutcome at h
    split at h
    · split at h <;> cases h
      · rename_i hn
        refine .recordPanic _ _ _ ?_
        cases hw : addOutcomeWrites ⟨sc, rs⟩ with
        | none => exact .inl rfl
        | some ws =>
          rw [hw] at hn
          exact .inr ⟨ws, ws.length, rfl, by simpa using hn⟩
      · exact .record _ _ _ _ ‹_›
    · split at h <;> cases h
      · rename_i k _ hn
        refine .recordPanic _ _ _ ?_
        cases hw : addOutcomeWrites ⟨sc, rs⟩ with
        | none => exact .inl rfl
        | some ws =>
          rw [hw] at hn
          exact .inr ⟨ws, k, rfl, by simpa using hn⟩
      · rename_i k _ _ hs
        obtain ⟨ws, hw, hs⟩ := Option.bind_eq_some_iff.1 hs
        exact .recordErr _ _ _ _ ws k hw hs rfl
    · cases h
  case recorded d sc rs =>
    unfold Lab.tellFinished at h
    split at h
    · split at h <;> cases h
      · exact .tellPanic _ _ _ ‹_›
      · exact .tellFinished _ _ _ _ ‹_›
    · split at h <;> cases h
      exact .unreadable _ _ _ rfl
    · cases h
  all_goals cases h

/-- What a step of the whole system does. -/
theorem step_cases {cfg s e s'} (h : step cfg s e = some s') :
    (e = .interrupt ∧ s.sh.interrupted = false ∧
      s' = { s with sh := { s.sh with interrupted := true } }) ∨
    (∃ ok, e = .main ok ∧ mstep cfg s ok = some s') ∨
    (∃ i c pc sh' pc', e = .worker i c ∧ s.workers[i]? = some pc ∧ WStep cfg s.sh c pc sh' pc' ∧
      s' = { s with sh := sh', workers := s.workers.set i pc' }) := by
  unfold step at h
  split at h
  · split at h
    · cases h
    · rename_i hi; cases h; exact .inl ⟨rfl, by simpa using hi, rfl⟩
  · exact .inr (.inl ⟨_, rfl, h⟩)
  · simp only [Option.bind_eq_bind, Option.bind_eq_some_iff, Option.pure_def] at h
    obtain ⟨pc, hpc, ⟨sh', pc'⟩, hw, he⟩ := h
    cases he
    exact .inr (.inr ⟨_, _, pc, sh', pc', rfl, hpc, wstep_rel hw, rfl⟩)

/-- `mstep`, as a relation. -/
inductive MStep (cfg : Config) (s : State) : State → Prop
  | setupErr (h : s.main = .setup) : MStep cfg s { s with main := .returned none }
  | empty (h : s.main = .setup) (he : cfg.mutants = []) :
      MStep cfg s { s with sh := { s.sh with stdout := s.sh.stdout ++ [foundMessage 0] }, main := .returned (some {}) }
  | prepare (h : s.main = .setup) (he : cfg.mutants ≠ []) : MStep cfg s
      { sh := { s.sh with
          stdout := s.sh.stdout ++ [foundMessage cfg.mutants.length],
          console := { s.sh.console with labStarted := true, nMutants := cfg.mutants.length } },
        main := .preparing,
        workers := [if cfg.inPlace then .prepared 0 else .mustCopy true] }
  | prepareErr (h : s.main = .preparing) (d) (hw : s.workers = [.prepared d]) :
      MStep cfg s { s with main := .returned none }
  | baseline (h : s.main = .preparing) (d) (hw : s.workers = [.prepared d])
      (hb : cfg.runBaseline = true) :
      MStep cfg s { s with main := .baseline, workers := [.taken d .baseline] }
  | skipBaseline (h : s.main = .preparing) (d) (hw : s.workers = [.prepared d])
      (hb : cfg.runBaseline = false) : MStep cfg s (spawn cfg s d)
  | prepareFailed (h : s.main = .preparing) (d) (hw : s.workers = [.failed d]) :
      MStep cfg s { s with main := .returned none }
  | passed (h : s.main = .baseline) (d o) (hw : s.workers = [.baselineDone d o])
      (ho : o.success = some true) : MStep cfg s (spawn cfg s d)
  | passedErr (h : s.main = .baseline) (d o) (hw : s.workers = [.baselineDone d o]) :
      MStep cfg s { s with main := .returned none }
  | baselineFailed (h : s.main = .baseline) (d o) (hw : s.workers = [.baselineDone d o])
      (ho : o.success ≠ some true) : MStep cfg s { s with main := .returned (some s.sh.out.lab) }
  | baselineErr (h : s.main = .baseline) (d) (hw : s.workers = [.failed d]) :
      MStep cfg s { s with main := .returned none }
  | workerFailed (h : s.main = .testing) (hw : ∀ pc ∈ s.workers, pc.isFinished ∨ pc.isFailed)
      (hf : ∃ pc ∈ s.workers, pc.isFailed) : MStep cfg s { s with main := .returned none }
  | tested (h : s.main = .testing) (hw : ∀ pc ∈ s.workers, pc.isFinished) :
      MStep cfg s { s with
        sh := { s.sh with stdout := s.sh.stdout ++ [finishedMessage cfg.print s.sh.out.lab] },
        main := .returned (some s.sh.out.lab) }

theorem mstep_rel {cfg s ok s'} (h : mstep cfg s ok = some s') : MStep cfg s s' := by
  unfold mstep at h
  split at h
  · rename_i hm
    split at h
    · cases h; exact .setupErr hm
    split at h
    · rename_i he; cases h; exact .empty hm (by simpa using he)
    · rename_i he; cases h; exact .prepare hm (by simpa using he)
  · rename_i hm
    split at h
    · rename_i hw
      split at h
      · cases h; exact .prepareErr hm _ hw
      split at h
      · cases h; exact .baseline hm _ hw ‹_›
      · rename_i hb; cases h; exact .skipBaseline hm _ hw (by simpa using hb)
    · rename_i hw; cases h; exact .prepareFailed hm _ hw
    · cases h
  · rename_i hm
    split at h
    · rename_i hw
      split at h
      · split at h
        · cases h; exact .passedErr hm _ _ hw
        · cases h; exact .passed hm _ _ hw ‹_›
      · cases h; exact .baselineFailed hm _ _ hw ‹_›
    · rename_i hw; cases h; exact .baselineErr hm _ hw
    · cases h
  · rename_i hm
    split at h
    · rename_i hw
      split at h
      · rename_i hf
        cases h
        exact .workerFailed hm (by simpa using hw) (by simpa using hf)
      · rename_i hf
        cases h
        refine .tested hm fun pc hpc => ?_
        have h1 : ∀ pc ∈ s.workers, pc.isFinished = true ∨ pc.isFailed = true := by simpa using hw
        have h2 : ∀ pc ∈ s.workers, pc.isFailed = false := by simpa using hf
        simpa [h2 pc hpc] using h1 pc hpc
    · cases h
  · cases h

/-- The induction principle for reachable states. -/
theorem exec_invariant {cfg : Config} {P : State → Prop} (ok : Event → Prop)
    (hstep : ∀ s e s', ok e → P s → step cfg s e = some s' → P s') {es s s'}
    (hs : P s) (he : ∀ e ∈ es, ok e) (h : exec cfg s es = some s') : P s' := by
  induction es generalizing s with
  | nil => cases h; exact hs
  | cons e es ih =>
    obtain ⟨s1, h1, h2⟩ := Option.bind_eq_some_iff.1 h
    exact ih (hstep _ _ _ (he e (by simp)) hs h1) (fun e he' => he e (by simp [he'])) h2

theorem reachable_invariant {cfg : Config} {P : State → Prop} (hinit : P (init cfg))
    (hstep : ∀ s e s', P s → step cfg s e = some s' → P s') {s} (h : Reachable cfg s) : P s := by
  obtain ⟨es, h⟩ := h
  exact exec_invariant (fun _ => True) (fun s e s' _ => hstep s e s') hinit (by simp) h

theorem exec_append {cfg : Config} {s : State} {a b : List Event} :
    exec cfg s (a ++ b) = (exec cfg s a).bind fun s => exec cfg s b := by
  induction a generalizing s with
  | nil => rfl
  | cons e es ih =>
    simp only [List.cons_append, exec, Option.bind_assoc]
    congr 1
    funext s
    exact ih

theorem Reachable.step {cfg s e s'} (h : Reachable cfg s) (hs : Lab.step cfg s e = some s') :
    Reachable cfg s' := by
  obtain ⟨es, h⟩ := h
  exact ⟨es ++ [e], by simp [exec_append, h, exec, hs]⟩

theorem Reachable.exec {cfg s es s'} (h : Reachable cfg s) (hs : Lab.exec cfg s es = some s') :
    Reachable cfg s' := by
  obtain ⟨es', h⟩ := h
  exact ⟨es' ++ es, by simp [exec_append, h, hs]⟩

/-! ### Lists with one element replaced -/

theorem getElem?_set_cases {α} {l : List α} {i j : Nat} {a b : α} (h : (l.set i a)[j]? = some b) :
    (j = i ∧ b = a) ∨ (j ≠ i ∧ l[j]? = some b) := by
  by_cases hij : j = i
  · subst hij
    left
    refine ⟨rfl, ?_⟩
    rw [List.getElem?_set_self (by
      have := (List.getElem?_eq_some_iff.1 h).1
      simpa using this)] at h
    exact (Option.some.inj h).symm
  · right
    exact ⟨hij, by rwa [List.getElem?_set_ne (Ne.symm hij)] at h⟩

theorem filterMap_set_perm {α β} (f : α → Option β) {l : List α} {i : Nat} {a : α} (b : α)
    (h : l[i]? = some a) : ∃ rest : List β,
      (l.filterMap f).Perm ((f a).toList ++ rest) ∧
      ((l.set i b).filterMap f).Perm ((f b).toList ++ rest) := by
  induction l generalizing i with
  | nil => cases h
  | cons x l ih =>
    cases i with
    | zero =>
      simp only [List.getElem?_cons_zero, Option.some.injEq] at h
      subst h
      refine ⟨l.filterMap f, ?_, ?_⟩
      · cases hf : f x <;> simp [hf]
      · cases hf : f b <;> simp [hf]
    | succ i =>
      simp only [List.getElem?_cons_succ] at h
      obtain ⟨rest, h1, h2⟩ := ih h
      refine ⟨(f x).toList ++ rest, ?_, ?_⟩
      · cases hf : f x with
        | none => simpa [hf] using h1
        | some y =>
          simp only [List.filterMap_cons, hf, Option.toList_some]
          refine (h1.cons y).trans ?_
          simpa using (List.perm_middle (a := y) (l₁ := (f a).toList) (l₂ := rest)).symm
      · cases hf : f x with
        | none => simpa [hf] using h2
        | some y =>
          simp only [List.set_cons_succ, List.filterMap_cons, hf, Option.toList_some]
          refine (h2.cons y).trans ?_
          simpa using (List.perm_middle (a := y) (l₁ := (f b).toList) (l₂ := rest)).symm

theorem sum_set {α} (f : α → Nat) {l : List α} {i : Nat} {a : α} (b : α) (h : l[i]? = some a) :
    ((l.set i b).map f).sum + f a = (l.map f).sum + f b := by
  induction l generalizing i with
  | nil => cases h
  | cons x l ih =>
    cases i with
    | zero =>
      simp only [List.getElem?_cons_zero, Option.some.injEq] at h
      subst h
      simp; omega
    | succ i =>
      simp only [List.getElem?_cons_succ] at h
      have := ih h
      simp only [List.set_cons_succ, List.map_cons, List.sum_cons]
      omega

end CM.Lab
