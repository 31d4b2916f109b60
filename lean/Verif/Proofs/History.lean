import Verif.Spec.Program
import Verif.Props.Run
/-! What was recorded and what has happened to processes. -/
namespace CM.Lab

/-- The main thread waits for threads that test something. -/
theorem MStep.no_scenario {cfg s s'} (hs : Shape cfg s) (h : MStep cfg s s') : ∀ pc ∈ s.workers, pc.scenario = none := by
  have one : ∀ {pc}, s.workers = [pc] → pc.scenario = none → ∀ pc ∈ s.workers, pc.scenario = none := by
    intro pc h1 h2 pc' h3
    rw [h1, List.mem_singleton] at h3
    rw [h3]; exact h2
  have hset : s.main = .setup → ∀ pc ∈ s.workers, pc.scenario = none := fun h => by
    have := hs.count
    rw [h] at this
    rw [this]
    simp
  cases h
  case setupErr h => exact hset h
  case empty h he => exact hset h
  case prepare h he => exact hset h
  case workerFailed h hw hf =>
    intro pc hpc
    have := hw pc hpc
    cases pc <;> first | rfl | (rcases this with h | h <;> cases h)
  case tested h hw =>
    intro pc hpc
    have := hw pc hpc
    cases pc <;> first | rfl | cases this
  all_goals first
    | (rename_i hw; exact one hw rfl)
    | (rename_i hw _; exact one hw rfl)

end CM.Lab

namespace CM.Run
open CM CM.Spec

/-- What a step does to the threads. -/
inductive Moves (cfg : Config) (s : State) (e : Event) (s' : State) : Prop
  /-- nothing but perhaps an interrupt -/
  | env (hw : s'.lab.workers = s.lab.workers) (ho : s'.lab.sh.out = s.lab.sh.out)
      (hd : ∀ i q, s.procs i = some q → ∀ r, q.pc = .done r → ∃ q', s'.procs i = some q' ∧ q'.pc = .done r)
  | main (h : Lab.MStep cfg.lab s.lab s'.lab)
      (hp : s'.procs = s.procs)
  | worker (i c pc sh' pc') (hpc : s.lab.workers[i]? = some pc) (hn : s.procs i = none)
      (h : Lab.WStep cfg.lab s.lab.sh c pc sh' pc')
      (he : s'.lab = { s.lab with sh := sh', workers := s.lab.workers.set i pc' })
      (hp : ∀ j, j ≠ i → s'.procs j = s.procs j) (hev : e = .worker i c)
  | leave (i dur d sc p todo rs q r sh' pc') (hpc : s.lab.workers[i]? = some (.command d sc p todo rs))
      (hq : s.procs i = some q) (hr : q.pc = .done r) (hd : q.clock ≤ dur)
      (h : Lab.WStep cfg.lab s.lab.sh (choiceOf dur r) (.command d sc p todo rs) sh' pc')
      (he : s'.lab = { s.lab with sh := sh', workers := s.lab.workers.set i pc' })
      (hp : ∀ j, j ≠ i → s'.procs j = s.procs j)

theorem done_stays {q e q' r} (h : Proc.step q e = some q') (hr : q.pc = .done r) : q'.pc = .done r := by
  cases e <;> simp only [Proc.step, hr] at h
  case tick => cases h; rfl
  case ctrlC => cases h; rfl
  case childExits => split at h <;> cases h; rfl
  all_goals cases h

theorem moves {cfg s e s'} (hs : Inv cfg s) (hst : step cfg s e = some s') : Moves cfg s e s' := by
  have set_done : ∀ {i q e q'}, s.procs i = some q → Proc.step q e = some q' →
      ∀ j x, s.procs j = some x → ∀ r, x.pc = .done r → ∃ x', setAt s.procs i (some q') j = some x' ∧ x'.pc = .done r := by
    intro i q e q' hq hq' j x hx r hr
    by_cases hj : j = i
    · subst hj
      rw [hq] at hx
      cases hx
      exact ⟨q', by simp [setAt], done_stays hq' hr⟩
    · exact ⟨x, by simp [setAt, hj, hx], hr⟩
  cases e with
  | tick n =>
    cases hst
    exact .env rfl rfl fun i q hq r hr => ⟨{ q with clock := q.clock + n }, by simp only [hq, Option.bind_some]; rfl, hr⟩
  | interrupt =>
    obtain ⟨l, h1, rfl⟩ := Option.map_eq_some_iff.1 hst
    rcases Lab.step_cases h1 with ⟨_, _, rfl⟩ | ⟨_, h, _⟩ | ⟨_, _, _, _, _, h, _⟩
    · exact .env rfl rfl fun i q hq r hr => ⟨{ q with interrupted := true }, by simp only [hq, Option.bind_some]; rfl, hr⟩
    · cases h
    · cases h
  | childExits i st =>
    obtain ⟨q, hq, h1⟩ := Option.bind_eq_some_iff.1 hst
    obtain ⟨q', hq', rfl⟩ := Option.map_eq_some_iff.1 h1
    exact .env rfl rfl (set_done hq hq')
  | main ok =>
    have key : ∀ {l' ok}, Lab.step cfg.lab s.lab (.main ok) = some l' → Lab.MStep cfg.lab s.lab l' := by
      intro l' ok h
      rcases Lab.step_cases h with ⟨h, _⟩ | ⟨_, _, h⟩ | ⟨_, _, _, _, _, h, _⟩
      · cases h
      · exact Lab.mstep_rel h
      · cases h
    simp only [CM.Run.step] at hst
    split at hst
    · obtain ⟨l, h1, rfl⟩ := Option.map_eq_some_iff.1 hst
      exact .main (key h1) rfl
    · split at hst
      · obtain ⟨l, h1, rfl⟩ := Option.map_eq_some_iff.1 hst
        exact .main (key h1) rfl
      · obtain ⟨l, h1, rfl⟩ := Option.map_eq_some_iff.1 hst
        exact .main (key h1) rfl
  | worker i c =>
    simp only [CM.Run.step] at hst
    split at hst
    · cases hst
    rename_i hq
    obtain ⟨l, h1, rfl⟩ := Option.map_eq_some_iff.1 hst
    rcases Lab.step_cases h1 with ⟨h, _⟩ | ⟨_, h, _⟩ | ⟨i', c', pc, sh', pc', he, hpc, hw, rfl⟩
    · cases h
    · cases h
    cases he
    exact .worker i c pc sh' pc' hpc (by simpa using hq) hw rfl (fun j hj => by simp [setAt, hj]) rfl
  | proc i e =>
    simp only [CM.Run.step] at hst
    split at hst
    · obtain ⟨q, hq, h1⟩ := Option.bind_eq_some_iff.1 hst
      obtain ⟨q', hq', rfl⟩ := Option.map_eq_some_iff.1 h1
      exact .env rfl rfl (set_done hq hq')
    · cases hst
  | leave i dur =>
    simp only [CM.Run.step] at hst
    obtain ⟨q, hq, h1⟩ := Option.bind_eq_some_iff.1 hst
    split at h1
    · rename_i r hr
      split at h1
      · rename_i hc
        obtain ⟨l, h2, rfl⟩ := Option.map_eq_some_iff.1 h1
        have hp := hs.procs i
        rw [hq] at hp
        obtain ⟨d, sc, p, todo, rs, hpc, _, _⟩ := hp.some
        rcases Lab.step_cases h2 with ⟨h, _⟩ | ⟨_, h, _⟩ | ⟨i', c', pc, sh', pc', he, hpc', hw, rfl⟩
        · cases h
        · cases h
        cases he
        rw [hpc] at hpc'
        cases hpc'
        exact .leave i dur d sc p todo rs q r sh' pc' hpc hq hr hc hw rfl fun j hj => by simp [setAt, hj]
      · cases h1
    · cases h1

/-- The result comes from a process that has ended during the run. -/
def Witnessed (cfg : Config) (es : List Event) (sc : Scenario) (r : PhaseResult) : Prop :=
  ∃ s d q, EndedIn cfg es s d sc r.phase q r.status ∧ q.clock ≤ r.duration

theorem Witnessed.snoc {cfg es sc r} (e : Event) (h : Witnessed cfg es sc r) : Witnessed cfg (es ++ [e]) sc r := by
  obtain ⟨s, d, q, ⟨es1, es2, i, todo, rs, h1, h2⟩, h3⟩ := h
  exact ⟨s, d, q, ⟨es1, es2 ++ [e], i, todo, rs, by rw [h1, List.append_assoc], h2⟩, h3⟩

theorem witnessed (cfg : Config) (es : List Event) (s : State) (h : exec cfg (init cfg) es = some s) :
    (∀ (i : Nat) pc, s.lab.workers[i]? = some pc → ∀ sc, pc.scenario = some sc → ∀ r ∈ pc.results, Witnessed cfg es sc r) ∧
    (∀ o ∈ s.lab.sh.out.lab.outcomes, ∀ r ∈ o.phaseResults, Witnessed cfg es o.scenario r) := by
  suffices h' : exec cfg (init cfg) es = some s ∧
      (∀ (i : Nat) pc, s.lab.workers[i]? = some pc → ∀ sc, pc.scenario = some sc → ∀ r ∈ pc.results, Witnessed cfg es sc r) ∧
      (∀ o ∈ s.lab.sh.out.lab.outcomes, ∀ r ∈ o.phaseResults, Witnessed cfg es o.scenario r) from h'.2
  revert es s
  refine Props.exec_snoc_ind cfg _ ⟨rfl, by simp [init, Lab.init], by simp [init, Lab.init]⟩ ?_
  intro es s e s' hreach ⟨hex, h1, h2⟩ hst
  refine ⟨by rw [exec_append, hex]; simp [exec, hst], ?_⟩
  have hinv := reachable_inv hreach
  have step : ∀ i c pc sh' pc', s.lab.workers[i]? = some pc → Lab.WStep cfg.lab s.lab.sh c pc sh' pc' →
      (∀ d sc p todo rs dur st, pc = .command d sc p todo rs → c = .exits dur st →
        Witnessed cfg (es ++ [e]) sc { phase := p, duration := dur, status := st, argv := cfg.lab.argv sc p }) →
      s'.lab = { s.lab with sh := sh', workers := s.lab.workers.set i pc' } →
      (∀ (i : Nat) pc, s'.lab.workers[i]? = some pc → ∀ sc, pc.scenario = some sc → ∀ r ∈ pc.results, Witnessed cfg (es ++ [e]) sc r) ∧
      (∀ o ∈ s'.lab.sh.out.lab.outcomes, ∀ r ∈ o.phaseResults, Witnessed cfg (es ++ [e]) o.scenario r) := by
    intro i c pc sh' pc' hpc hw hnew he
    rw [he]
    constructor
    · intro j pcj hpcj sc hsc r hr
      rcases Lab.getElem?_set_cases hpcj with ⟨rfl, rfl⟩ | ⟨_, h⟩
      · rcases hw.results_from sc hsc r hr with ⟨h3, h4⟩ | ⟨d, p, todo, rs, dur, st, h3, hc, rfl⟩
        · exact (h1 j pc hpc sc h3 r h4).snoc e
        · exact hnew d sc p todo rs dur st h3 hc
      · exact (h1 j pcj h sc hsc r hr).snoc e
    · intro o ho r hr
      change o ∈ sh'.out.lab.outcomes at ho
      rcases hw.records with h | ⟨d, sc, rs, rfl, h, _⟩
      · exact (h2 o (by rw [← h]; exact ho) r hr).snoc e
      · rw [Lab.add_outcomes h] at ho
        rcases List.mem_append.1 ho with ho | ho
        · exact (h2 o ho r hr).snoc e
        · cases List.mem_singleton.1 ho
          exact (h1 i _ hpc sc rfl r hr).snoc e
  cases moves hinv hst with
  | env hw ho hd =>
    rw [hw, ho]
    exact ⟨fun i pc hpc sc hsc r hr => (h1 i pc hpc sc hsc r hr).snoc e, fun o ho r hr => (h2 o ho r hr).snoc e⟩
  | main h hp =>
    obtain ⟨_, _, _, h3, h4⟩ := h.idle (Lab.reachable_shape hinv.lab)
    rw [h3]
    refine ⟨fun i pc hpc sc hsc r hr => ?_, fun o ho r hr => (h2 o ho r hr).snoc e⟩
    rcases h4 pc (List.mem_of_getElem? hpc) with h | h
    · rw [h] at hr; cases hr
    · obtain ⟨j, hj⟩ := List.getElem?_of_mem h
      exact (h1 j pc hj sc hsc r hr).snoc e
  | worker i c pc sh' pc' hpc hn h he hp =>
    refine step i c pc sh' pc' hpc h ?_ he
    rintro d sc p todo rs dur st rfl _
    have := hinv.procs i
    rw [hpc] at this
    obtain ⟨q, h, _⟩ := this
    rw [hn] at h
    cases h
  | leave i dur d sc p todo rs q r sh' pc' hpc hq hr hd h he hp =>
    refine step i _ _ sh' pc' hpc h ?_ he
    rintro d' sc' p' todo' rs' dur' st' hc hx
    cases hc
    cases r <;> simp [choiceOf] at hx
    obtain ⟨rfl, rfl⟩ := hx
    exact ⟨s, d, q, ⟨es, [e], i, todo, rs, rfl, hex, hpc, hq, hr⟩, hd⟩

/-- A thread is lost, or about to be. -/
def Broken (s : Lab.State) : Prop := ∃ pc ∈ s.workers, pc.isFailed = true ∨ ∃ d sc, pc = .failing d sc

/-- Where the result of a process that has ended is. -/
def Kept (cfg : Config) (i : Nat) (sc : Scenario) (p : Phase) (e : Exit) (s : State) : Prop :=
  (∃ d todo rs q, s.lab.workers[i]? = some (.command d sc p todo rs) ∧ s.procs i = some q ∧ q.pc = .done (.ok e)) ∨
  (∃ pc, s.lab.workers[i]? = some pc ∧ pc.scenario = some sc ∧ (∀ d sc rs, pc ≠ .recorded d sc rs) ∧
    ∃ r ∈ pc.results, r.phase = p ∧ r.status = e) ∨
  (∃ o ∈ s.lab.sh.out.lab.outcomes, o.scenario = sc ∧ ∃ r ∈ o.phaseResults, r.phase = p ∧ r.status = e) ∨
  Broken s.lab

theorem _root_.CM.Lab.WStep.keeps {cfg sh c pc sh' pc' sc p e} (h : Lab.WStep cfg sh c pc sh' pc')
    (hsc : pc.scenario = some sc) (hnr : ∀ d sc rs, pc ≠ .recorded d sc rs)
    (hr : ∃ r ∈ pc.results, r.phase = p ∧ r.status = e) :
    (pc'.scenario = some sc ∧ (∀ d sc rs, pc' ≠ .recorded d sc rs) ∧ ∃ r ∈ pc'.results, r.phase = p ∧ r.status = e) ∨
    (∃ o ∈ sh'.out.lab.outcomes, o.scenario = sc ∧ ∃ r ∈ o.phaseResults, r.phase = p ∧ r.status = e) ∨
    pc'.isFailed = true ∨ ∃ d sc, pc' = .failing d sc := by
  obtain ⟨r, hr, h1, h2⟩ := hr
  cases h
  case startPhase => exact .inl ⟨hsc, by simp, r, hr, h1, h2⟩
  case revert h =>
    rcases h.pc with rfl | rfl
    · exact .inl ⟨hsc, by simp, r, hr, h1, h2⟩
    · exact .inr (.inr (.inl rfl))
  case noRevert => exact .inl ⟨hsc, by simp, r, hr, h1, h2⟩
  case exits => exact .inl ⟨hsc, by simp, r, List.mem_append_left _ hr, h1, h2⟩
  case record d sc' rs out h =>
    cases hsc
    exact .inr (.inl ⟨⟨sc, rs⟩, by rw [Lab.add_outcomes (addOutcome_spec h).1]; simp, rfl, r, hr, h1, h2⟩)
  case tellFinished => exact absurd rfl (hnr _ _ _)
  all_goals first
    | (cases hr; done)
    | exact .inr (.inr (.inl rfl))
    | exact .inr (.inr (.inr ⟨_, _, rfl⟩))

theorem Broken.main {cfg : Config} {l l' : Lab.State} (hs : Lab.Shape cfg.lab l) (h : Lab.MStep cfg.lab l l') (hb : Broken l) : Broken l' := by
  obtain ⟨pc, hpc, hf⟩ := hb
  have hf : pc.isFailed = true := by
    rcases hf with hf | ⟨d, sc, rfl⟩
    · exact hf
    · cases h.no_scenario hs _ hpc
  have only : ∀ {q}, l.workers = [q] → q.isFailed = true := by
    intro q hq
    rw [hq, List.mem_singleton] at hpc
    rw [← hpc]
    exact hf
  have hset : l.main = .setup → False := fun h => by
    have := hs.count
    rw [h] at this
    change l.workers = [] at this
    rw [this] at hpc
    cases hpc
  cases h
  case setupErr h => exact (hset h).elim
  case empty h he => exact (hset h).elim
  case prepare h he => exact (hset h).elim
  case baseline hw hb => cases only hw
  case skipBaseline hw hb => cases only hw
  case passed hw hb => cases only hw
  all_goals exact ⟨pc, hpc, .inl hf⟩

theorem Broken.worker {cfg : Config} {l : Lab.State} {i c pc sh' pc'} (hb : Broken l) (hpc : l.workers[i]? = some pc)
    (h : Lab.WStep cfg.lab l.sh c pc sh' pc') : Broken { l with sh := sh', workers := l.workers.set i pc' } := by
  obtain ⟨x, hx, hf⟩ := hb
  obtain ⟨j, hj⟩ := List.getElem?_of_mem hx
  have hlt := (List.getElem?_eq_some_iff.1 hpc).1
  by_cases hij : i = j
  · subst hij
    rw [hpc] at hj
    cases hj
    refine ⟨pc', List.mem_of_getElem? (i := i) (by simp [List.getElem?_set_self hlt]), ?_⟩
    rcases hf with hf | ⟨d, sc, rfl⟩
    · cases h <;> cases hf
    · cases h
      case failRevert h => rcases h.pc with rfl | rfl <;> exact .inl rfl
      case failBaseline => exact .inl rfl
  · exact ⟨x, List.mem_of_getElem? (i := j) (by simp [List.getElem?_set_ne hij, hj]), hf⟩

theorem Kept.step {cfg i sc p x s e s'} (hs : Inv cfg s) (h : Kept cfg i sc p x s) (hst : step cfg s e = some s') :
    Kept cfg i sc p x s' := by
  have hshape := Lab.reachable_shape hs.lab
  have outs : ∀ {j : Nat} {c pc sh' pc'}, s.lab.workers[j]? = some pc → Lab.WStep cfg.lab s.lab.sh c pc sh' pc' →
      ∀ o ∈ s.lab.sh.out.lab.outcomes, o ∈ sh'.out.lab.outcomes := by
    intro j c pc sh' pc' _ hw o ho
    rcases hw.records with h | ⟨_, _, _, _, h, _⟩
    · rw [h]; exact ho
    · rw [Lab.add_outcomes h]; exact List.mem_append_left _ ho
  have set_mem : ∀ {j : Nat} {pc pc'}, s.lab.workers[j]? = some pc → pc' ∈ s.lab.workers.set j pc' := by
    intro j pc pc' h
    have hlt := (List.getElem?_eq_some_iff.1 h).1
    exact List.mem_of_getElem? (i := j) (by simp [List.getElem?_set_self hlt])
  cases moves hs hst with
  | env hw ho hd =>
    unfold Kept Broken at *
    rw [hw, ho]
    rcases h with ⟨d, todo, rs, q, h1, h2, h3⟩ | h
    · obtain ⟨q', h4, h5⟩ := hd i q h2 _ h3
      exact .inl ⟨d, todo, rs, q', h1, h4, h5⟩
    · exact .inr h
  | main h' hp =>
    have hno := h'.no_scenario hshape
    obtain ⟨_, _, _, hout, _⟩ := h'.idle hshape
    rcases h with ⟨d, todo, rs, q, h1, h2, h3⟩ | ⟨pc, h1, h2, _⟩ | h | h
    · cases hno _ (List.mem_of_getElem? h1)
    · rw [hno _ (List.mem_of_getElem? h1)] at h2; cases h2
    · exact .inr (.inr (.inl (by rw [hout]; exact h)))
    · exact .inr (.inr (.inr (h.main hshape h')))
  | worker j c pc sh' pc' hpc hn hw he hp =>
    unfold Kept
    rw [he]
    rcases h with ⟨d, todo, rs, q, h1, h2, h3⟩ | ⟨pc1, h1, h2, h3, h4⟩ | ⟨o, ho, h1⟩ | h
    · have hij : j ≠ i := by rintro rfl; rw [hn] at h2; cases h2
      refine .inl ⟨d, todo, rs, q, ?_, ?_, h3⟩
      · simp [List.getElem?_set_ne hij, h1]
      · rw [hp i hij.symm]; exact h2
    · by_cases hij : j = i
      · subst hij
        rw [hpc] at h1
        cases h1
        have hlt := (List.getElem?_eq_some_iff.1 hpc).1
        rcases hw.keeps h2 h3 h4 with h5 | h5 | h5
        · exact .inr (.inl ⟨pc', by simp [List.getElem?_set_self hlt], h5⟩)
        · exact .inr (.inr (.inl h5))
        · exact .inr (.inr (.inr ⟨pc', set_mem hpc, h5⟩))
      · exact .inr (.inl ⟨pc1, by simp [List.getElem?_set_ne hij, h1], h2, h3, h4⟩)
    · exact .inr (.inr (.inl ⟨o, outs hpc hw o ho, h1⟩))
    · exact .inr (.inr (.inr (h.worker hpc hw)))
  | leave j dur d sc1 p1 todo1 rs1 q1 r sh' pc' hpc hq hr hd hw he hp =>
    unfold Kept
    rw [he]
    rcases h with ⟨d, todo, rs, q, h1, h2, h3⟩ | ⟨pc1, h1, h2, h3, h4⟩ | ⟨o, ho, h1⟩ | h
    · by_cases hij : j = i
      · subst hij
        rw [hpc] at h1
        cases h1
        rw [hq] at h2
        cases h2
        rw [hr] at h3
        cases h3
        have hlt := (List.getElem?_eq_some_iff.1 hpc).1
        generalize hc : choiceOf dur (.ok x) = c at hw
        cases hw
        case interrupted => exact .inr (.inr (.inr ⟨_, set_mem hpc, .inr ⟨_, _, rfl⟩⟩))
        case exits dur' st' con hx h5 h6 =>
          rw [← hc] at hx
          cases hx
          refine .inr (.inl ⟨_, by simp [List.getElem?_set_self hlt]; rfl, rfl, by simp, ?_⟩)
          exact ⟨_, List.mem_append_right _ (List.mem_singleton_self _), rfl, rfl⟩
        case exitsPanic => exact .inr (.inr (.inr ⟨_, set_mem hpc, .inl rfl⟩))
        case commandErr hx => rw [← hc] at hx; cases hx
      · refine .inl ⟨d, todo, rs, q, ?_, ?_, h3⟩
        · simp [List.getElem?_set_ne hij, h1]
        · rw [hp i (Ne.symm hij)]; exact h2
    · by_cases hij : j = i
      · subst hij
        rw [hpc] at h1
        cases h1
        have hlt := (List.getElem?_eq_some_iff.1 hpc).1
        rcases hw.keeps h2 h3 h4 with h5 | h5 | h5
        · exact .inr (.inl ⟨pc', by simp [List.getElem?_set_self hlt], h5⟩)
        · exact .inr (.inr (.inl h5))
        · exact .inr (.inr (.inr ⟨pc', set_mem hpc, h5⟩))
      · exact .inr (.inl ⟨pc1, by simp [List.getElem?_set_ne hij, h1], h2, h3, h4⟩)
    · exact .inr (.inr (.inl ⟨o, outs hpc hw o ho, h1⟩))
    · exact .inr (.inr (.inr (h.worker hpc hw)))

theorem Kept.exec {cfg i sc p x} : ∀ {es s s'}, Inv cfg s → Kept cfg i sc p x s → exec cfg s es = some s' → Kept cfg i sc p x s'
  | [], _, _, _, hk, he => by cases he; exact hk
  | e :: es, s, s', h, hk, he => by
    obtain ⟨t, h1, h2⟩ := Option.bind_eq_some_iff.1 he
    exact Kept.exec (h.step h1) (hk.step h h1) h2

/-- How every process ended is in the outcome that is returned. -/
theorem nothing_lost {cfg es s l} (h : exec cfg (init cfg) es = some s) (hr : s.lab.main = .returned (some l))
    {s1 d sc p q e} (he : EndedIn cfg es s1 d sc p q e) :
    ∃ o ∈ l.outcomes, o.scenario = sc ∧ ∃ r ∈ o.phaseResults, r.phase = p ∧ r.status = e := by
  obtain ⟨es1, es2, i, todo, rs, rfl, h1, h2, h3, h4⟩ := he
  rw [exec_append, h1] at h
  have hk : Kept cfg i sc p e s := Kept.exec (reachable_inv ⟨es1, h1⟩) (.inl ⟨d, todo, rs, q, h2, h3, h4⟩) h
  have hinv : Inv cfg s := exec_inv (reachable_inv ⟨es1, h1⟩) h
  have hfits := (Lab.reachable_shape hinv.lab).fits
  rw [hr] at hfits
  rcases hk with ⟨d, todo, rs, q, h5, _⟩ | ⟨pc, h5, h6, _⟩ | ⟨o, ho, h5⟩ | ⟨pc, h5, h6⟩
  · exact (hfits _ _ h5).elim
  · have := hfits _ _ h5
    cases pc <;> first | exact this.elim | cases h6
  · have := (Lab.reachable_records hinv.lab).order
    rw [hr] at this
    rcases this with ⟨_, _, hnil⟩ | ⟨rfl, _⟩
    · rw [hnil] at ho; cases ho
    · exact ⟨o, ho, h5⟩
  · rcases h6 with h6 | ⟨d, sc', rfl⟩
    · rw [Props.returned_no_failed hinv.lab hr pc h5] at h6; cases h6
    · obtain ⟨j, hj⟩ := List.getElem?_of_mem h5
      exact (hfits _ _ hj).elim

end CM.Run
