import Verif.Proofs.Run
import Verif.Proofs.LabEnd
import Verif.Spec.Run
/-! What a run with processes can still do after an interrupt. -/
namespace CM.Run
open CM

/-- What a step after an interrupt means for thread `i`. -/
inductive Seen (cfg : Config) (i : Nat) (s : State) (e : Event) (s' : State) : Prop
  /-- it is not a step of the main thread nor of this thread -/
  | other (h : ∀ ok, e ≠ .main ok) (h1 : ∀ c, e ≠ .worker i c) (h2 : ∀ p, e ≠ .proc i p) (h3 : ∀ d, e ≠ .leave i d)
      (hm : s'.lab.main = s.lab.main)
      (hw : s'.lab.workers[i]? = s.lab.workers[i]?) (hq : (s'.procs i).map (·.pc) = (s.procs i).map (·.pc))
  | main (ok) (he : e = .main ok) (h : Lab.MStep cfg.lab s.lab s'.lab) (hn : s.procs i = none) (hn' : s'.procs i = none)
  | worker (c pc sh' pc') (he : e = .worker i c) (hpc : s.lab.workers[i]? = some pc)
      (hw : Lab.WStep cfg.lab s.lab.sh c pc sh' pc') (hm : s'.lab.main = s.lab.main)
      (hpc' : s'.lab.workers[i]? = some pc') (hn : s.procs i = none)
      (hq : s'.procs i = started cfg s.timeouts true (some pc'))
  | proc (pe q q') (he : e = .proc i pe) (hp : pe.isProgram = true) (hq : s.procs i = some q) (hi : q.interrupted = true)
      (hst : Proc.step q pe = some q') (hq' : s'.procs i = some q') (hl : s'.lab = s.lab)
  | leave (dur c q d sc p todo rs sh' pc') (he : e = .leave i dur) (hq : s.procs i = some q)
      (hpc : s.lab.workers[i]? = some (.command d sc p todo rs))
      (hw : Lab.WStep cfg.lab s.lab.sh c (.command d sc p todo rs) sh' pc') (hm : s'.lab.main = s.lab.main)
      (hpc' : s'.lab.workers[i]? = some pc') (hn : s'.procs i = none)

theorem seen {cfg s e s'} (hs : Inv cfg s) (hi : s.lab.sh.interrupted = true) (hst : step cfg s e = some s') (i : Nat) :
    Seen cfg i s e s' := by
  have main : ∀ ok ok' l t, e = .main ok → Lab.step cfg.lab s.lab (.main ok') = some l →
      s' = { s with lab := l, timeouts := t } → Seen cfg i s e s' := by
    rintro ok ok' l t rfl h1 rfl
    have hm : Lab.MStep cfg.lab s.lab l := Lab.mstep_rel h1
    have hn : s.procs i = none := (hs.procs i).none fun pc hpc =>
      (hm.idle (Lab.reachable_shape hs.lab)).2.1 pc (List.mem_of_getElem? hpc)
    exact .main ok rfl hm hn hn
  cases e with
  | tick n =>
    cases hst
    refine .other nofun nofun nofun nofun rfl rfl ?_
    show ((s.procs i).bind _).map _ = _
    cases s.procs i <;> rfl
  | interrupt =>
    obtain ⟨l, h1, rfl⟩ := Option.map_eq_some_iff.1 hst
    rcases Lab.step_cases h1 with ⟨_, h, _⟩ | ⟨_, h, _⟩ | ⟨_, _, _, _, _, h, _⟩
    · rw [hi] at h; cases h
    · cases h
    · cases h
  | childExits j st =>
    obtain ⟨q, hq, h1⟩ := Option.bind_eq_some_iff.1 hst
    obtain ⟨q', hq', rfl⟩ := Option.map_eq_some_iff.1 h1
    refine .other nofun nofun nofun nofun rfl rfl ?_
    by_cases hj : i = j
    · subst hj
      simp only [Proc.step] at hq'
      split at hq' <;> cases hq'
      simp [setAt, hq]
    · simp [setAt, hj]
  | main ok =>
    simp only [step] at hst
    split at hst
    · obtain ⟨l, h1, h2⟩ := Option.map_eq_some_iff.1 hst
      exact main ok _ l s.timeouts rfl h1 h2.symm
    · split at hst
      · obtain ⟨l, h1, h2⟩ := Option.map_eq_some_iff.1 hst
        exact main ok _ l s.timeouts rfl h1 h2.symm
      · obtain ⟨l, h1, h2⟩ := Option.map_eq_some_iff.1 hst
        exact main ok _ l _ rfl h1 h2.symm
  | worker j c =>
    simp only [step] at hst
    split at hst
    · cases hst
    rename_i hq
    obtain ⟨l, h1, rfl⟩ := Option.map_eq_some_iff.1 hst
    rcases Lab.step_cases h1 with ⟨h, _⟩ | ⟨_, h, _⟩ | ⟨i', c', pc, sh', pc', he, hpc, hw, rfl⟩
    · cases h
    · cases h
    cases he
    by_cases hj : i = j
    · subst hj
      have hlt : i < s.lab.workers.length := (List.getElem?_eq_some_iff.1 hpc).1
      refine .worker c pc sh' pc' rfl hpc hw rfl (List.getElem?_set_self hlt) (by simpa using hq) ?_
      simp only [setAt, if_true, List.getElem?_set_self hlt, hw.interrupted_eq, hi]
    · exact .other nofun (fun c h => hj (by cases h; rfl)) nofun nofun rfl (List.getElem?_set_ne (Ne.symm hj))
        (by simp [setAt, hj])
  | proc j pe =>
    simp only [step] at hst
    split at hst
    · rename_i he
      obtain ⟨q, hq, h1⟩ := Option.bind_eq_some_iff.1 hst
      obtain ⟨q', hq', rfl⟩ := Option.map_eq_some_iff.1 h1
      by_cases hj : i = j
      · subst hj
        have hp := hs.procs i
        rw [hq] at hp
        obtain ⟨_, _, _, _, _, _, _, h3⟩ := hp.some
        exact .proc pe q q' rfl he hq (h3.trans hi) hq' (by simp [setAt]) rfl
      · exact .other nofun nofun (fun c h => hj (by cases h; rfl)) nofun rfl rfl (by simp [setAt, hj])
    · cases hst
  | leave j dur =>
    simp only [step] at hst
    obtain ⟨q, hq, h1⟩ := Option.bind_eq_some_iff.1 hst
    split at h1
    · split at h1
      · obtain ⟨l, h2, rfl⟩ := Option.map_eq_some_iff.1 h1
        rcases Lab.step_cases h2 with ⟨h, _⟩ | ⟨_, h, _⟩ | ⟨i', c', pc, sh', pc', he, hpc, hw, rfl⟩
        · cases h
        · cases h
        cases he
        by_cases hj : i = j
        · subst hj
          have hlt : i < s.lab.workers.length := (List.getElem?_eq_some_iff.1 hpc).1
          have hp := hs.procs i
          rw [hq] at hp
          obtain ⟨d, sc, p, todo, rs, h3, _⟩ := hp.some
          rw [hpc] at h3
          cases h3
          exact .leave dur _ q d sc p todo rs sh' pc' rfl hq hpc hw rfl (List.getElem?_set_self hlt) (by simp [setAt])
        · exact .other nofun nofun nofun (fun c h => hj (by cases h; rfl)) rfl (List.getElem?_set_ne (Ne.symm hj))
            (by simp [setAt, hj])
      · cases h1
    · cases h1

theorem step_interrupted {cfg s e s'} (hi : s.lab.sh.interrupted = true) (hst : step cfg s e = some s') :
    s'.lab.sh.interrupted = true := by
  have one : ∀ le l, Lab.step cfg.lab s.lab le = some l → l.sh.interrupted = true := fun le l h =>
    Lab.exec_interrupted (cfg := cfg.lab) (es := [le]) hi (by simp [Lab.exec, h])
  cases e with
  | tick n => cases hst; exact hi
  | interrupt => obtain ⟨l, h1, rfl⟩ := Option.map_eq_some_iff.1 hst; exact one _ _ h1
  | childExits j st =>
    obtain ⟨q, hq, h1⟩ := Option.bind_eq_some_iff.1 hst
    obtain ⟨q', hq', rfl⟩ := Option.map_eq_some_iff.1 h1
    exact hi
  | main ok =>
    simp only [step] at hst
    split at hst
    · obtain ⟨l, h1, rfl⟩ := Option.map_eq_some_iff.1 hst; exact one _ _ h1
    · split at hst
      · obtain ⟨l, h1, rfl⟩ := Option.map_eq_some_iff.1 hst; exact one _ _ h1
      · obtain ⟨l, h1, rfl⟩ := Option.map_eq_some_iff.1 hst; exact one _ _ h1
  | worker j c =>
    simp only [step] at hst
    split at hst
    · cases hst
    obtain ⟨l, h1, rfl⟩ := Option.map_eq_some_iff.1 hst; exact one _ _ h1
  | proc j pe =>
    simp only [step] at hst
    split at hst
    · obtain ⟨q, hq, h1⟩ := Option.bind_eq_some_iff.1 hst
      obtain ⟨q', hq', rfl⟩ := Option.map_eq_some_iff.1 h1
      exact hi
    · cases hst
  | leave j dur =>
    simp only [step] at hst
    obtain ⟨q, hq, h1⟩ := Option.bind_eq_some_iff.1 hst
    split at h1
    · split at h1
      · obtain ⟨l, h2, rfl⟩ := Option.map_eq_some_iff.1 h1; exact one _ _ h2
      · cases h1
    · cases h1

/-- Events that use something up are no more than there is of it. -/
theorem count_le {cfg} (f : State → Nat) (p : Event → Bool)
    (hstep : ∀ s e s', Inv cfg s → s.lab.sh.interrupted = true → step cfg s e = some s' → (p e).toNat + f s' ≤ f s) :
    ∀ es s s', Inv cfg s → s.lab.sh.interrupted = true → exec cfg s es = some s' → es.countP p + f s' ≤ f s
  | [], s, s', _, _, h => by cases h; simp
  | e :: es, s, s', hs, hi, h => by
    obtain ⟨t, h1, h2⟩ := Option.bind_eq_some_iff.1 h
    have := count_le f p hstep es t s' (hs.step h1) (step_interrupted hi h1) h2
    have := hstep s e t hs hi h1
    rw [List.countP_cons]
    cases hp : p e <;> simp [hp] at * <;> omega

/-- A run with processes from any state on is a run of the threads. -/
theorem lab_exec {cfg} : ∀ {es s s'}, exec cfg s es = some s' → ∃ les, Lab.exec cfg.lab s.lab les = some s'.lab
  | [], s, s', h => by cases h; exact ⟨[], rfl⟩
  | e :: es, s, s', h => by
    obtain ⟨t, h1, h2⟩ := Option.bind_eq_some_iff.1 h
    obtain ⟨les, h3⟩ := lab_exec h2
    have one : ∀ le, Lab.step cfg.lab s.lab le = some t.lab → ∃ les, Lab.exec cfg.lab s.lab les = some s'.lab :=
      fun le h => ⟨le :: les, by simp [Lab.exec, h, h3]⟩
    cases e with
    | tick n => cases h1; exact ⟨les, h3⟩
    | interrupt => obtain ⟨l, h4, rfl⟩ := Option.map_eq_some_iff.1 h1; exact one _ h4
    | childExits j st =>
      obtain ⟨q, hq, h1⟩ := Option.bind_eq_some_iff.1 h1
      obtain ⟨q', hq', rfl⟩ := Option.map_eq_some_iff.1 h1
      exact ⟨les, h3⟩
    | main ok =>
      simp only [step] at h1
      split at h1
      · obtain ⟨l, h4, rfl⟩ := Option.map_eq_some_iff.1 h1; exact one _ h4
      · split at h1
        · obtain ⟨l, h4, rfl⟩ := Option.map_eq_some_iff.1 h1; exact one _ h4
        · obtain ⟨l, h4, rfl⟩ := Option.map_eq_some_iff.1 h1; exact one _ h4
    | worker j c =>
      simp only [step] at h1
      split at h1
      · cases h1
      obtain ⟨l, h4, rfl⟩ := Option.map_eq_some_iff.1 h1; exact one _ h4
    | proc j pe =>
      simp only [step] at h1
      split at h1
      · obtain ⟨q, hq, h1⟩ := Option.bind_eq_some_iff.1 h1
        obtain ⟨q', hq', rfl⟩ := Option.map_eq_some_iff.1 h1
        exact ⟨les, h3⟩
      · cases h1
    | leave j dur =>
      simp only [step] at h1
      obtain ⟨q, hq, h1⟩ := Option.bind_eq_some_iff.1 h1
      split at h1
      · split at h1
        · obtain ⟨l, h4, rfl⟩ := Option.map_eq_some_iff.1 h1; exact one _ h4
        · cases h1
      · cases h1

/-! ### Steps -/

/-- How many steps a thread can take after an interrupt, without those in a process in which it is. -/
def pcSteps : Lab.Pc → Nat
  | .failing _ _ => 1
  | .command _ _ _ _ _ => 2
  | .ready _ _ (_ :: _) _ => 9
  | .diffed _ _ => 10
  | .started _ _ => 11
  | .logged _ _ => 12
  | .taken _ _ => 13
  | .idle _ => 14
  | .copying _ _ | .recorded _ _ _ => 15
  | .mustCopy _ | .reverted _ _ _ => 16
  | .new | .ready _ _ [] _ => 17
  | .prepared _ | .baselineDone _ _ | .failed _ | .finished _ => 0

/-- How many steps there can be in a process after an interrupt. -/
def procSteps : Proc.Pc → Nat
  | .tryWait => 7
  | .asleep _ | .spawn => 6
  | .checkTime => 5
  | .checkInterrupt => 4
  | .kill _ => 3
  | .wait _ => 2
  | .log _ => 1
  | .done _ => 0

/-- How many steps more a thread of this number can take because of what the main thread can start. -/
def mainSteps : Lab.MainPc → Nat
  | .setup => 51
  | .preparing => 34
  | .baseline => 17
  | .testing | .returned _ => 0

def stepsLeft (i : Nat) (s : State) : Nat :=
  mainSteps s.lab.main + (s.lab.workers[i]?.map pcSteps).getD 0 + (((s.procs i).map (·.pc)).map procSteps).getD 0

theorem phases_ne (cfg : Config) : cfg.lab.phases ≠ [] := by
  show (if cfg.options.checkOnly then _ else _) ≠ _
  split <;> simp

theorem ready_steps (cfg : Config) (d sc rs) : pcSteps (.ready d sc cfg.lab.phases rs) = 9 := by
  have := phases_ne cfg
  revert this
  cases cfg.lab.phases <;> simp [pcSteps]

theorem pcSteps_le (pc : Lab.Pc) : pcSteps pc ≤ 17 := by
  unfold pcSteps; split <;> omega

theorem procSteps_le (pc : Proc.Pc) : procSteps pc ≤ 7 := by
  unfold procSteps; split <;> omega

/-- A step of a thread outside of processes, with the steps in a process that it starts. -/
theorem wstep_steps {cfg : Config} {sh c pc sh' pc'} (h : Lab.WStep cfg.lab sh c pc sh' pc') (hi : sh.interrupted = true) :
    1 + pcSteps pc' + (if pc'.inCommand then 6 else 0) ≤ pcSteps pc := by
  cases h
  case copied b d con h => cases b <;> simp [pcSteps, Lab.Pc.inCommand]
  case tell d sc =>
    cases sc
    · show 1 + pcSteps (.ready d .baseline cfg.lab.phases []) + 0 ≤ 12
      rw [ready_steps]; omega
    · simp [pcSteps, Lab.Pc.inCommand, Scenario.isMutant]
  case tellFinished d sc rs text hm => cases sc <;> simp [pcSteps, Lab.Pc.inCommand, Scenario.isMutant]
  case apply h =>
    rcases h.pc with rfl | rfl
    · show 1 + pcSteps (.ready _ _ cfg.lab.phases []) + 0 ≤ 10
      rw [ready_steps]; omega
    · simp [pcSteps, Lab.Pc.inCommand]
  case revert h => rcases h.pc with rfl | rfl <;> simp [pcSteps, Lab.Pc.inCommand]
  case failRevert h => rcases h.pc with rfl | rfl <;> simp [pcSteps, Lab.Pc.inCommand]
  case exits hi' _ => rw [hi] at hi'; cases hi'
  all_goals simp [pcSteps, Lab.Pc.inCommand]

theorem proc_steps {q e q'} (h : Proc.step q e = some q') (he : e.isProgram = true) (hi : q.interrupted = true) :
    1 + procSteps q'.pc ≤ procSteps q.pc := by
  cases e <;> first | (cases he; done) | skip
  all_goals
    simp only [Proc.step] at h
    repeat' split at h
    all_goals first | (cases h; done) | (rw [hi] at *; contradiction) | skip
  all_goals
    cases h
    simp only [*, procSteps]
    repeat' split
    all_goals (first | omega | simp [procSteps])

theorem mstep_steps {cfg : Config} {l l' : Lab.State} (hs : Lab.Shape cfg.lab l) (h : Lab.MStep cfg.lab l l') (i : Nat) :
    mainSteps l'.main + (l'.workers[i]?.map pcSteps).getD 0 ≤ mainSteps l.main + (l.workers[i]?.map pcSteps).getD 0 := by
  have hset : l.main = .setup → l.workers = [] := fun h => by have := hs.count; rwa [h] at this
  have le : ∀ ws : List Lab.Pc, (ws[i]?.map pcSteps).getD 0 ≤ 17 := by
    intro ws
    cases ws[i]? with
    | none => simp
    | some pc => exact pcSteps_le pc
  have h17 := le l'.workers
  cases h
  case prepare h he => simp only [h, mainSteps] at h17 ⊢; omega
  case baseline h d hw hb => simp only [h, mainSteps] at h17 ⊢; omega
  case skipBaseline h d hw hb => 
    have h0 : mainSteps (Lab.spawn cfg.lab l d).main = 0 := rfl
    rw [h0, h]
    simp only [mainSteps]
    omega
  case passed h d o hw ho =>
    have h0 : mainSteps (Lab.spawn cfg.lab l d).main = 0 := rfl
    rw [h0, h]
    simp only [mainSteps]
    omega
  all_goals (simp only [mainSteps]; omega)

theorem step_stepsLeft {cfg s e s'} (i : Nat) (hs : Inv cfg s) (hi : s.lab.sh.interrupted = true) (hst : step cfg s e = some s') :
    (Spec.byThread i e).toNat + stepsLeft i s' ≤ stepsLeft i s := by
  unfold stepsLeft
  cases seen hs hi hst i with
  | other h h1 h2 h3 hm hw hq =>
    rw [hm, hw, hq]
    have : Spec.byThread i e = false := by
      cases e with
      | worker j c => exact beq_false_of_ne fun h => h1 c (by rw [h])
      | proc j c => exact beq_false_of_ne fun h => h2 c (by rw [h])
      | leave j c => exact beq_false_of_ne fun h => h3 c (by rw [h])
      | _ => rfl
    simp [this]
  | main ok he h hn hn' =>
    rw [he, hn, hn']
    have := mstep_steps (Lab.reachable_shape hs.lab) h i
    simpa [Spec.byThread] using this
  | worker c pc sh' pc' he hpc hw hm hpc' hn hq =>
    rw [he, hm, hpc, hpc', hn, hq]
    have h1 := wstep_steps hw hi
    have h2 : (((started cfg s.timeouts true (some pc')).map (·.pc)).map procSteps).getD 0 = if pc'.inCommand then 6 else 0 := by
      cases pc' <;> rfl
    rw [h2]
    simp only [Spec.byThread, beq_self_eq_true, Bool.toNat_true, Option.map_some, Option.getD_some, Option.map_none, Option.getD_none]
    omega
  | proc pe q q' he hp hq hi hst hq' hl =>
    rw [he, hl, hq, hq']
    have := proc_steps hst hp hi
    simp only [Spec.byThread, beq_self_eq_true, Bool.toNat_true, Option.map_some, Option.getD_some]
    omega
  | leave dur c q d sc p todo rs sh' pc' he hq hpc hw hm hpc' hn =>
    rw [he, hm, hpc, hpc', hn, hq]
    have := wstep_steps hw hi
    simp only [Spec.byThread, beq_self_eq_true, Bool.toNat_true, Option.map_some, Option.getD_some, Option.map_none, Option.getD_none]
    omega

/-- The main thread takes this many steps at most. -/
def mainLeft (s : State) : Nat :=
  match s.lab.main with
  | .setup => 4
  | .preparing => 3
  | .baseline => 2
  | .testing => 1
  | .returned _ => 0

theorem step_mainLeft {cfg s e s'} (hs : Inv cfg s) (hi : s.lab.sh.interrupted = true) (hst : step cfg s e = some s') :
    (Spec.byMain e).toNat + mainLeft s' ≤ mainLeft s := by
  have same : s'.lab.main = s.lab.main → (∀ ok, e ≠ .main ok) → (Spec.byMain e).toNat + mainLeft s' ≤ mainLeft s := by
    intro h he
    have : Spec.byMain e = false := by
      cases e with
      | main ok => exact (he ok rfl).elim
      | _ => rfl
    simp [mainLeft, h, this]
  cases seen hs hi hst 0 with
  | other h h1 h2 h3 hm hw hq => exact same hm h
  | main ok he h hn hn' =>
    rw [he]
    unfold mainLeft
    generalize s'.lab = l' at h
    cases h
    case skipBaseline h _ _ _ =>
      have : (Lab.spawn cfg.lab s.lab (by assumption)).main = .testing := rfl
      simp [h, this, Spec.byMain]
    case passed h _ _ _ _ =>
      simp only [h]
      have : ∀ d, (Lab.spawn cfg.lab s.lab d).main = .testing := fun _ => rfl
      simp [this, Spec.byMain]
    all_goals simp [*, Spec.byMain]
  | worker c pc sh' pc' he hpc hw hm hpc' hn hq => exact same hm (by rw [he]; nofun)
  | proc pe q q' he hp hq hi hst hq' hl => exact same (by rw [hl]) (by rw [he]; nofun)
  | leave dur c q d sc p todo rs sh' pc' he hq hpc hw hm hpc' hn => exact same hm (by rw [he]; nofun)

theorem index_lt {cfg s e s'} (hs : Inv cfg s) (hi : s.lab.sh.interrupted = true) (hst : step cfg s e = some s') (i : Nat)
    (he : Spec.byThread i e = true) : i < cfg.lab.nThreads := by
  have hn := Lab.Shape.mainOf (Lab.reachable_shape hs.lab)
  have lt : ∀ pc, s.lab.workers[i]? = some pc → i < cfg.lab.nThreads := by
    intro pc h
    have := (List.getElem?_eq_some_iff.1 h).1
    omega
  cases seen hs hi hst i with
  | other h h1 h2 h3 hm hw hq =>
    cases e with
    | worker j c => exact (h1 c (by rw [eq_of_beq he])).elim
    | proc j c => exact (h2 c (by rw [eq_of_beq he])).elim
    | leave j c => exact (h3 c (by rw [eq_of_beq he])).elim
    | _ => cases he
  | main ok he' => rw [he'] at he; cases he
  | worker c pc sh' pc' he hpc => exact lt _ hpc
  | proc pe q q' he hp hq =>
    have h := hs.procs i
    rw [hq] at h
    obtain ⟨_, _, _, _, _, hpc, _⟩ := h.some
    exact lt _ hpc
  | leave dur c q d sc p todo rs sh' pc' he hq hpc => exact lt _ hpc

/-- The steps left of all threads. -/
def allLeft (n : Nat) (s : State) : Nat := ((List.range n).map fun i => stepsLeft i s).sum

theorem allLeft_succ (n : Nat) (s : State) : allLeft (n + 1) s = allLeft n s + stepsLeft n s := by
  simp [allLeft, List.range_succ]

theorem step_allLeft {cfg s e s'} (hs : Inv cfg s) (hi : s.lab.sh.interrupted = true) (hst : step cfg s e = some s') :
    ∀ n, allLeft n s' ≤ allLeft n s ∧ ∀ i, i < n → Spec.byThread i e = true → 1 + allLeft n s' ≤ allLeft n s
  | 0 => ⟨Nat.le_refl _, fun _ h => (Nat.not_lt_zero _ h).elim⟩
  | n + 1 => by
    obtain ⟨h1, h2⟩ := step_allLeft hs hi hst n
    have h3 := step_stepsLeft n hs hi hst
    rw [allLeft_succ, allLeft_succ]
    refine ⟨by omega, fun i hlt he => ?_⟩
    by_cases hn : i = n
    · subst hn
      rw [he] at h3
      simp only [Bool.toNat_true] at h3
      omega
    · have := h2 i (by omega) he
      omega

theorem step_everything {cfg s e s'} (hs : Inv cfg s) (hi : s.lab.sh.interrupted = true) (hst : step cfg s e = some s') :
    (Spec.byProgram e).toNat + (mainLeft s' + allLeft cfg.lab.nThreads s') ≤ mainLeft s + allLeft cfg.lab.nThreads s := by
  have h1 := step_mainLeft hs hi hst
  obtain ⟨h2, h3⟩ := step_allLeft hs hi hst cfg.lab.nThreads
  have thread : ∀ i, Spec.byThread i e = true →
      1 + (mainLeft s' + allLeft cfg.lab.nThreads s') ≤ mainLeft s + allLeft cfg.lab.nThreads s := by
    intro i he
    have := h3 i (index_lt hs hi hst i he) he
    omega
  cases e with
  | main ok => simp only [Spec.byMain, Spec.byProgram, Bool.toNat_true] at h1 ⊢; omega
  | worker j c => exact thread j (by simp [Spec.byThread])
  | proc j c => exact thread j (by simp [Spec.byThread])
  | leave j c => exact thread j (by simp [Spec.byThread])
  | _ => simp only [Spec.byProgram, Bool.toNat_false]; omega

theorem stepsLeft_le {cfg s} (hs : Inv cfg s) (i : Nat) : stepsLeft i s ≤ 51 := by
  have hc := (Lab.reachable_shape hs.lab).count
  have hp := hs.procs i
  have hr : ∀ x, s.lab.main = .returned x → stepsLeft i s ≤ 51 := by
    intro x hx
    unfold stepsLeft
    rw [hx]
    have h1 : (s.lab.workers[i]?.map pcSteps).getD 0 ≤ 17 := by
      cases s.lab.workers[i]? with
      | none => simp
      | some pc => exact pcSteps_le pc
    have h2 : (((s.procs i).map (·.pc)).map procSteps).getD 0 ≤ 7 := by
      cases s.procs i with
      | none => simp
      | some q => exact procSteps_le q.pc
    simp only [mainSteps]; omega
  have h3 : (s.lab.workers[i]?.map pcSteps).getD 0 + (((s.procs i).map (·.pc)).map procSteps).getD 0 ≤ 17 := by
    cases hq : s.procs i with
    | none =>
      cases s.lab.workers[i]? with
      | none => simp
      | some pc => exact pcSteps_le pc
    | some q =>
      rw [hq] at hp
      obtain ⟨d, sc, p, todo, rs, hpc, _⟩ := hp.some
      rw [hpc]
      have := procSteps_le q.pc
      simp only [Option.map_some, Option.getD_some, pcSteps]; omega
  unfold stepsLeft at hr ⊢
  cases hm : s.lab.main with
  | returned x => rw [← hm]; exact hr x hm
  | setup =>
    rw [hm] at hc
    simp only at hc
    have : s.procs i = none := hp.none fun pc h => by rw [hc] at h; simp at h
    simp [hc, this, mainSteps]
  | _ => simp only [mainSteps]; omega

theorem stepsLeft_testing {cfg s} (hs : Inv cfg s) (hm : s.lab.main = .testing) (i : Nat) : stepsLeft i s ≤ 17 := by
  have hp := hs.procs i
  unfold stepsLeft
  rw [hm]
  cases hq : s.procs i with
  | none =>
    cases s.lab.workers[i]? with
    | none => simp [mainSteps]
    | some pc => have := pcSteps_le pc; simpa [mainSteps] using this
  | some q =>
    rw [hq] at hp
    obtain ⟨d, sc, p, todo, rs, hpc, _⟩ := hp.some
    rw [hpc]
    have := procSteps_le q.pc
    simp only [mainSteps, Option.map_some, Option.getD_some, pcSteps]; omega

theorem allLeft_le {s} (b : Nat) (h : ∀ i, stepsLeft i s ≤ b) : ∀ n, allLeft n s ≤ b * n
  | 0 => by simp [allLeft]
  | n + 1 => by
    have := allLeft_le b h n
    have := h n
    rw [allLeft_succ, Nat.mul_succ]
    omega

/-! ### Sleeping and looking whether the child has exited -/

/-- How often a thread that is here in a process can still wake up after an interrupt. -/
def pcSleeps : Proc.Pc → Nat
  | .tryWait | .asleep _ => 1
  | _ => 0

def sleepsLeft (i : Nat) (s : State) : Nat := (((s.procs i).map (·.pc)).map pcSleeps).getD 0

/-- How often a thread that is here in a process can still look whether the child has exited after an interrupt. -/
def pcTries : Proc.Pc → Nat
  | .tryWait => 1
  | _ => 0

def triesLeft (i : Nat) (s : State) : Nat := (((s.procs i).map (·.pc)).map pcTries).getD 0

theorem started_pc (cfg t b pc') :
    (started cfg t b (some pc')).map (·.pc) = if pc'.inCommand then some .spawn else none := by
  cases pc' <;> rfl

theorem step_sleepsLeft {cfg s e s'} (i : Nat) (hs : Inv cfg s) (hi : s.lab.sh.interrupted = true) (hst : step cfg s e = some s') :
    (Spec.wakesUp i e).toNat + sleepsLeft i s' ≤ sleepsLeft i s := by
  unfold sleepsLeft
  cases seen hs hi hst i with
  | other h h1 h2 h3 hm hw hq =>
    rw [hq]
    have : Spec.wakesUp i e = false := by
      cases e with
      | proc j c => cases c <;> first | rfl | exact beq_false_of_ne fun h => h2 _ (by rw [h])
      | _ => rfl
    simp [this]
  | main ok he h hn hn' => rw [he, hn, hn']; simp [Spec.wakesUp]
  | worker c pc sh' pc' he hpc hw hm hpc' hn hq =>
    rw [he, hn, hq, started_pc]
    cases pc'.inCommand <;> simp [Spec.wakesUp, pcSleeps]
  | proc pe q q' he hp hq hi hst hq' hl =>
    rw [he, hq, hq']
    cases pe <;> first | (cases hp; done) | skip
    all_goals
      simp only [Proc.step] at hst
      repeat' split at hst
      all_goals first | (cases hst; done) | (rw [hi] at *; contradiction) | skip
    all_goals
      cases hst
      simp only [*, Option.map_some, Spec.wakesUp, pcSleeps]
    all_goals first | (simp; done) | (split <;> simp [pcSleeps])
  | leave dur c q d sc p todo rs sh' pc' he hq hpc hw hm hpc' hn => rw [he, hn]; simp [Spec.wakesUp]

theorem step_triesLeft {cfg s e s'} (i : Nat) (hs : Inv cfg s) (hi : s.lab.sh.interrupted = true) (hst : step cfg s e = some s') :
    (Spec.looks i e).toNat + triesLeft i s' ≤ triesLeft i s := by
  unfold triesLeft
  cases seen hs hi hst i with
  | other h h1 h2 h3 hm hw hq =>
    rw [hq]
    have : Spec.looks i e = false := by
      cases e with
      | proc j c => cases c <;> first | rfl | exact beq_false_of_ne fun h => h2 _ (by rw [h])
      | _ => rfl
    simp [this]
  | main ok he h hn hn' => rw [he, hn, hn']; simp [Spec.looks]
  | worker c pc sh' pc' he hpc hw hm hpc' hn hq =>
    rw [he, hn, hq, started_pc]
    cases pc'.inCommand <;> simp [Spec.looks, pcTries]
  | proc pe q q' he hp hq hi hst hq' hl =>
    rw [he, hq, hq']
    cases pe <;> first | (cases hp; done) | skip
    all_goals
      simp only [Proc.step] at hst
      repeat' split at hst
      all_goals first | (cases hst; done) | (rw [hi] at *; contradiction) | skip
    all_goals
      cases hst
      simp only [*, Option.map_some, Spec.looks, pcTries]
    all_goals first | (simp; done) | (split <;> simp [pcTries])
  | leave dur c q d sc p todo rs sh' pc' he hq hpc hw hm hpc' hn => rw [he, hn]; simp [Spec.looks]

/-! ### Starting children -/

def spawnsLeft (i : Nat) (s : State) : Nat :=
  Lab.startsLeft s.lab i + if (s.procs i).map (·.pc) = some .spawn then 1 else 0

theorem step_spawnsLeft {cfg s e s'} (i : Nat) (hs : Inv cfg s) (hi : s.lab.sh.interrupted = true) (hst : step cfg s e = some s') :
    (Spec.isSpawn i e).toNat + spawnsLeft i s' ≤ spawnsLeft i s := by
  unfold spawnsLeft
  have hshape := Lab.reachable_shape hs.lab
  cases seen hs hi hst i with
  | other h h1 h2 h3 hm hw hq =>
    rw [hq]
    have : Spec.isSpawn i e = false := by
      cases e with
      | proc j c =>
        cases c <;> first | rfl | exact Bool.and_eq_false_iff.2 (.inl (beq_false_of_ne fun h => h2 _ (by rw [h])))
      | _ => rfl
    simp [this, Lab.startsLeft, hw]
  | main ok he h hn hn' =>
    have : Lab.startsLeft s'.lab i ≤ Lab.startsLeft s.lab i := by
      obtain ⟨ok', h⟩ : ∃ ok', Lab.step cfg.lab s.lab (.main ok') = some s'.lab := by
        subst he
        simp only [step] at hst
        split at hst
        · obtain ⟨l, h1, rfl⟩ := Option.map_eq_some_iff.1 hst; exact ⟨_, h1⟩
        · split at hst
          · obtain ⟨l, h1, rfl⟩ := Option.map_eq_some_iff.1 hst; exact ⟨_, h1⟩
          · obtain ⟨l, h1, rfl⟩ := Option.map_eq_some_iff.1 hst; exact ⟨_, h1⟩
      exact Nat.le_trans (Nat.le_add_left _ _) (Lab.step_starts hshape hi h i)
    rw [he, hn, hn']
    simpa [Spec.isSpawn] using this
  | worker c pc sh' pc' he hpc hw hm hpc' hn hq =>
    rw [he, hn, hq, started_pc]
    obtain ⟨h1, h2⟩ := hw.mayStart hi
    simp only [Lab.startsLeft, hpc, hpc', Option.map_some, Option.getD_some, Spec.isSpawn]
    cases hc : pc'.inCommand with
    | false => simpa using h1
    | true => simp [h2 hc]
  | proc pe q q' he hp hq hi hst hq' hl =>
    rw [he, hq, hq', hl]
    cases pe <;> first | (cases hp; done) | skip
    all_goals
      simp only [Proc.step] at hst
      repeat' split at hst
      all_goals first | (cases hst; done) | skip
    all_goals
      cases hst
      simp [*, Spec.isSpawn]
    all_goals first | omega | (split <;> simp)
  | leave dur c q d sc p todo rs sh' pc' he hq hpc hw hm hpc' hn =>
    rw [he, hn]
    obtain ⟨h1, h2⟩ := hw.mayStart hi
    simp only [Lab.startsLeft, hpc, hpc', Option.map_some, Option.getD_some, Spec.isSpawn]
    simp
    omega

end CM.Run
