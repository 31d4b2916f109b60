import Verif.Model.Join
import Verif.Spec.Join
import Verif.Proofs.LabFine
/-! How failing runs end. -/
namespace CM.Join
open CM.Lab CM.Spec

theorem step_lab {cfg s ev s'} (h : step cfg s ev = some s') : Lab.step cfg s.lab ev.lab = some s'.lab := by
  unfold step at h
  obtain ⟨l, h1, h2⟩ := Option.bind_eq_some_iff.1 h
  rw [h1]
  cases ev <;> simp only at h2
  · cases h2; rfl
  · split at h2
    · cases h2
    · cases h2
      unfold State.mainStep
      split
      · split <;> rfl
      · rfl
  · split at h2
    · split at h2
      · cases h2
      · cases h2; rfl
    · cases h2

theorem exec_lab {cfg s es s'} (h : exec cfg s es = some s') : Lab.exec cfg s.lab (es.map Event.lab) = some s'.lab := by
  induction es generalizing s with
  | nil => cases h; rfl
  | cons e es ih =>
    obtain ⟨s1, h1, h2⟩ := Option.bind_eq_some_iff.1 h
    simp only [List.map_cons, Lab.exec, step_lab h1, Option.bind_some]
    exact ih h2

theorem exec_append {cfg : Config} {s : State} {a b : List Event} :
    exec cfg s (a ++ b) = (exec cfg s a).bind fun s => exec cfg s b := by
  induction a generalizing s with
  | nil => rfl
  | cons e es ih =>
    simp only [List.cons_append, exec, Option.bind_assoc]
    congr 1
    funext s
    exact ih

/-- Induction on the run, from its end. -/
theorem exec_induction {cfg : Config} {P : List Event → State → Prop} (hinit : P [] (init cfg))
    (hstep : ∀ es s e s', exec cfg (init cfg) es = some s → P es s → step cfg s e = some s' → P (es ++ [e]) s') {es s}
    (h : exec cfg (init cfg) es = some s) : P es s := by
  have key : ∀ rest es s s', exec cfg (init cfg) es = some s → P es s → exec cfg s rest = some s' → P (es ++ rest) s' := by
    intro rest
    induction rest with
    | nil => intro es s s' _ h1 h2; cases h2; simpa using h1
    | cons e rest ih =>
      intro es s s' h0 h1 h2
      obtain ⟨s1, h3, h4⟩ := Option.bind_eq_some_iff.1 h2
      have := ih (es ++ [e]) s1 s' (by simp [exec_append, h0, exec, h3]) (hstep es s e s1 h0 h1 h3) h4
      simpa using this
  simpa using key es [] (init cfg) s rfl hinit h

theorem reachable_lab {cfg s} (h : Reachable cfg s) : Lab.Reachable cfg s.lab := by
  obtain ⟨es, h⟩ := h
  exact ⟨_, exec_lab h⟩

theorem lab_of_exec {cfg es s} (h : exec cfg (init cfg) es = some s) : Lab.Reachable cfg s.lab := reachable_lab ⟨es, h⟩

/-- What a step of a thread is. -/
theorem worker_step {cfg s i c e s'} (h : step cfg s (.worker i c e) = some s') :
    ∃ pc sh' pc', s.lab.workers[i]? = some pc ∧ wstep cfg s.lab.sh pc c = some (sh', pc') ∧
      (e = .interrupted → s.lab.sh.interrupted = true ∧ Pc.checks pc = true) ∧
      s' = { s with
        lab := { s.lab with sh := sh', workers := s.lab.workers.set i pc' }
        held := fun j => if j = i then hold cfg s.lab.sh c e (s.held i) pc pc' else s.held j } := by
  unfold step at h
  obtain ⟨l, h1, h2⟩ := Option.bind_eq_some_iff.1 h
  simp only [Event.lab, Lab.step, Option.bind_eq_bind, Option.bind_eq_some_iff, Option.pure_def] at h1
  obtain ⟨pc, hpc, ⟨sh', pc'⟩, hw, heq⟩ := h1
  cases heq
  have hlt : i < s.lab.workers.length := (List.getElem?_eq_some_iff.1 hpc).1
  simp only [hpc, List.getElem?_set_self hlt] at h2
  split at h2
  · cases h2
  · rename_i hg
    cases h2
    refine ⟨pc, sh', pc', hpc, hw, ?_, rfl⟩
    intro he
    exact Classical.byContradiction fun hn => hg ⟨he, hn⟩

/-- What a step of the main thread is. -/
theorem main_step {cfg s ok why s'} (h : step cfg s (.main ok why) = some s') :
    ∃ l, mstep cfg s.lab ok = some l ∧ (ok = false → mayEnd s.lab.main why = true) ∧ s' = s.mainStep why l := by
  unfold step at h
  obtain ⟨l, h1, h2⟩ := Option.bind_eq_some_iff.1 h
  refine ⟨l, h1, ?_⟩
  simp only at h2
  split at h2
  · cases h2
  · rename_i hg
    cases h2
    refine ⟨?_, rfl⟩
    rintro rfl
    simpa using hg

theorem mainStep_lab (s : State) (why : Ending) (l : Lab.State) : (s.mainStep why l).lab = l := by
  unfold State.mainStep
  split
  · split <;> rfl
  · rfl

theorem mainStep_held (s : State) (why : Ending) (l : Lab.State) : (s.mainStep why l).held = s.held := by
  unfold State.mainStep
  split
  · split <;> rfl
  · rfl

/-! ### Panics -/

theorem panicOf_rel {cfg sh pc c k} (h : panicOf cfg sh pc c = some k) :
    ∃ sh' pc', WStep cfg { sh with panicked := none } c pc sh' pc' ∧ sh'.panicked = some k := by
  obtain ⟨⟨sh', pc'⟩, h1, h2⟩ := Option.bind_eq_some_iff.1 h
  exact ⟨sh', pc', wstep_rel h1, h2⟩

theorem unreadable_recorded {cfg sh pc c} (h : panicOf cfg sh pc c = some .unreadableLog) :
    c = .logUnreadable ∧ ∃ d sc rs, pc = .recorded d sc rs := by
  obtain ⟨sh', pc', hw, hp⟩ := panicOf_rel h
  cases hw
  case unreadable d sc rs hc => exact ⟨hc, d, sc, rs, rfl⟩
  case apply h => obtain ⟨_, rfl, _⟩ := h.frame; cases hp
  case revert h => obtain ⟨_, rfl, _⟩ := h.frame; cases hp
  case failRevert h => obtain ⟨_, rfl, _⟩ := h.frame; cases hp
  all_goals cases hp

/-- The state without its panic. -/
def forget (s : Lab.State) : Lab.State := { s with sh := { s.sh with panicked := none } }

theorem forget_shape {cfg s} (h : Shape cfg s) : Shape cfg (forget s) := ⟨h.fits, h.queue, h.count, h.nonempty⟩

theorem forget_dirs {cfg s} (h : Dirs cfg s) : Dirs cfg (forget s) :=
  ⟨h.next, h.ok, h.ok0, h.distinct, h.distinct0, h.inPlace, h.one, h.early⟩

theorem forget_console {cfg s} (h : ConsoleInv cfg s) : ConsoleInv cfg (forget s) :=
  ⟨h.ok, h.dir0, h.fresh, h.setup, by simp [forget], h.count, h.total, h.started, h.done⟩

theorem forget_records {cfg s} (h : Records cfg s) : Records cfg (forget s) :=
  ⟨h.phases, h.complete, h.lab, h.files, by simp [forget], h.account, h.finished, h.order, h.baseline⟩

/-- The only panic is that of a log that is not text. -/
theorem panic_unreadable {cfg s} {i : Nat} {pc c k} (hj : cfg.JobsOk) (hn : ∀ m ∈ cfg.mutants, m.name true ≠ none)
    (hr : Lab.Reachable cfg s) (hpc : s.workers[i]? = some pc) (h : panicOf cfg s.sh pc c = some k) :
    k = .unreadableLog := by
  obtain ⟨⟨sh', pc'⟩, h1, h2⟩ := Option.bind_eq_some_iff.1 h
  have hstep : Lab.step cfg (forget s) (.worker i c) =
      some { forget s with sh := sh', workers := s.workers.set i pc' } := by
    simp only [Lab.step, forget, hpc, h1, Option.bind_eq_bind, Option.bind_some, Option.pure_def]
  have hcon := (forget_console (reachable_console hj hr)).step (forget_shape (reachable_shape hr))
    (forget_dirs (reachable_dirs hj hr)) hstep
  have hrec := (forget_records (reachable_records hr)).step (forget_shape (reachable_shape hr)) hstep
  have h3 := hcon.panic
  have h4 := hrec.panic hn
  simp only at h2 h3 h4
  rw [h2] at h3 h4
  cases k
  · exact absurd rfl h3
  · exact absurd rfl h4
  · rfl

theorem overwrite_flag {sh : Shared} {d p t next c sh' pc'} (h : overwrite sh d p t next c = some (sh', pc')) :
    sh'.panicked = ((overwrite { sh with panicked := none } d p t next c).bind fun r => r.1.panicked).or sh.panicked := by
  cases c with
  | ok =>
    simp only [overwrite] at h ⊢
    split at h <;> rename_i hd <;> cases h <;> simp [hd]
  | writeFails t => cases t <;> (simp only [overwrite] at h ⊢; cases h; rfl)
  | _ => cases h

/-- Whether there is a panic does not depend on earlier ones. -/
theorem panicOf_flag {cfg sh pc c sh' pc'} (h : wstep cfg sh pc c = some (sh', pc')) :
    sh'.panicked = (panicOf cfg sh pc c).or sh.panicked := by
  cases pc <;> simp only [panicOf, wstep] at h ⊢
  case new => cases hd : sh.dir0 <;> simp [hd] at h ⊢ <;> (obtain ⟨rfl, _⟩ := h; rfl)
  case mustCopy b => cases c <;> simp at h ⊢ <;> (obtain ⟨rfl, _⟩ := h; rfl)
  case copying b d =>
    cases c <;> simp at h ⊢
    · cases hd : sh.console.finishCopy d <;> simp [hd] at h ⊢ <;> (obtain ⟨rfl, _⟩ := h; rfl)
    · obtain ⟨rfl, _⟩ := h; rfl
  case idle d => cases hd : sh.queue <;> simp [hd] at h ⊢ <;> (obtain ⟨rfl, _⟩ := h; rfl)
  case taken d sc =>
    cases c <;> simp at h ⊢
    · cases hd : startScenario sh.used sh.logs sc <;> simp [hd] at h ⊢ <;> (obtain ⟨rfl, _⟩ := h; rfl)
    · obtain ⟨rfl, _⟩ := h; rfl
  case logged d sc => cases c <;> simp at h ⊢ <;> (obtain ⟨rfl, _⟩ := h; rfl)
  case started d sc => cases c <;> simp at h ⊢ <;> (obtain ⟨rfl, _⟩ := h; rfl)
  case diffed d sc =>
    cases sc with
    | baseline => cases h
    | mutant m =>
      exact overwrite_flag h
  case ready d sc todo rs =>
    cases todo with
    | cons p todo =>
      simp only [Shared.panic] at h ⊢
      cases hd : sh.console.phaseStarted d p <;> simp [hd] at h ⊢ <;> (obtain ⟨rfl, _⟩ := h; rfl)
    | nil =>
      cases sc with
      | baseline => simp [revert] at h ⊢; obtain ⟨rfl, _⟩ := h; rfl
      | mutant m =>
        exact overwrite_flag h
  case command d sc p todo rs =>
    cases c <;> simp [Shared.panic] at h ⊢
    · obtain ⟨rfl, _⟩ := h; rfl
    · cases hi : sh.interrupted <;> simp [hi] at h ⊢
      · cases hd : sh.console.phaseFinished d p <;> simp [hd] at h ⊢ <;> (obtain ⟨rfl, _⟩ := h; rfl)
      · obtain ⟨rfl, _⟩ := h; rfl
  case failing d sc =>
    cases sc with
    | baseline => simp [revert] at h ⊢; obtain ⟨rfl, _⟩ := h; rfl
    | mutant m =>
      exact overwrite_flag h
  case reverted d sc rs =>
    simp only [recordOutcome, Shared.panic] at h ⊢
    cases c <;> simp at h ⊢
    · split at h <;> rename_i hd <;> simp [hd] at h ⊢ <;> (obtain ⟨rfl, _⟩ := h; rfl)
    · split at h <;> rename_i hd <;> simp [hd] at h ⊢ <;> (obtain ⟨rfl, _⟩ := h; rfl)
  case recorded d sc rs =>
    simp only [tellFinished, Shared.panic] at h ⊢
    cases c <;> simp at h ⊢
    · split at h <;> rename_i hd <;> simp [hd] at h ⊢ <;> (obtain ⟨rfl, _⟩ := h; rfl)
    · obtain ⟨hc, rfl, _⟩ := h
      simp [hc]
  all_goals cases h

theorem overwrite_pc (sh : Shared) (d p t next c x) :
    (overwrite { sh with panicked := x } d p t next c).map (·.2) = (overwrite sh d p t next c).map (·.2) := by
  cases c with
  | ok => simp only [overwrite]; split <;> rfl
  | writeFails t => cases t <;> rfl
  | _ => rfl

theorem wstep_pc (cfg : Config) (sh : Shared) (pc : Pc) (c : Choice) (x : Option Panic) :
    (wstep cfg { sh with panicked := x } pc c).map (·.2) = (wstep cfg sh pc c).map (·.2) := by
  cases pc <;> simp only [wstep]
  case new => split <;> rfl
  case mustCopy b => cases c <;> rfl
  case copying b d => cases c <;> first | rfl | (simp only; split <;> rfl)
  case idle d => split <;> rfl
  case taken d sc => cases c <;> first | rfl | (simp only; split <;> rfl)
  case logged d sc => cases c <;> rfl
  case started d sc => cases c <;> rfl
  case diffed d sc =>
    cases sc with
    | baseline => rfl
    | mutant m => exact overwrite_pc ..
  case ready d sc todo rs =>
    cases todo with
    | cons p todo => simp only; split <;> rfl
    | nil =>
      cases sc with
      | baseline => rfl
      | mutant m => exact overwrite_pc ..
  case command d sc p todo rs =>
    cases c <;> first | rfl | skip
    simp only
    split
    · rfl
    · split <;> rfl
  case failing d sc =>
    cases sc with
    | baseline => rfl
    | mutant m => exact overwrite_pc ..
  case reverted d sc rs =>
    simp only [recordOutcome]
    cases c <;> first | rfl | (simp only; split <;> rfl)
  case recorded d sc rs =>
    simp only [tellFinished]
    cases c <;> first | rfl | (simp only; split <;> rfl)

/-- A thread that panics has failed, and was not about to return an error. -/
theorem panicOf_failed {cfg sh pc c sh' pc' k} (h : wstep cfg sh pc c = some (sh', pc'))
    (hp : panicOf cfg sh pc c = some k) : pc'.isFailed = true ∧ ∀ d sc, pc ≠ .failing d sc := by
  obtain ⟨⟨sh1, pc1⟩, h1, h2⟩ := Option.bind_eq_some_iff.1 hp
  have h3 := wstep_pc cfg sh pc c none
  rw [h, h1] at h3
  simp only [Option.map_some, Option.some.injEq] at h3
  subst h3
  cases wstep_rel h1
  case apply h => obtain ⟨_, rfl, _⟩ := h.frame; cases h2
  case revert h => obtain ⟨_, rfl, _⟩ := h.frame; cases h2
  case failRevert h => obtain ⟨_, rfl, _⟩ := h.frame; cases h2
  all_goals first
    | (cases h2; done)
    | exact ⟨rfl, by simp⟩

/-! ### What threads hold -/

/-- What a thread at this point holds. -/
structure Holds (pc : Pc) (x : Ending) : Prop where
  failed : pc.isFailed = true → x ≠ .ok
  failing : (∃ d sc, pc = .failing d sc) → ∃ e, x = .error e
  fine : ¬ Failing pc → x = .ok

theorem wstep_failing {cfg sh pc c sh' d sc} (h : wstep cfg sh pc c = some (sh', .failing d sc)) :
    ∃ p todo rs, pc = .command d sc p todo rs ∧ ((sh.interrupted = true ∧ ∃ dur st, c = .exits dur st) ∨ c = .fail) := by
  have hw := wstep_rel h
  cases pc <;> try (first | (generalize hx : Pc.failing d sc = x at hw; cases hw <;> first | (cases hx; done) | (split at hx <;> cases hx; done) | (rename_i h'; rcases h'.pc with rfl | rfl <;> cases hx; done)))
  case command d' sc' p todo rs =>
    simp only [wstep] at h
    split at h
    · split at h
      · cases h; exact ⟨p, todo, rs, rfl, .inl ⟨‹_›, _, _, rfl⟩⟩
      · split at h <;> cases h
    · cases h; exact ⟨p, todo, rs, rfl, .inr rfl⟩
    · cases h

theorem wstep_from_failing {cfg sh d sc c sh' pc'} (h : wstep cfg sh (.failing d sc) c = some (sh', pc')) :
    pc' = .failed (some d) := by
  have hw := wstep_rel h
  cases hw
  case failRevert h => rcases h.pc with rfl | rfl <;> rfl
  case failBaseline => rfl

theorem hold_facts {cfg sh pc c sh' pc' e old} (h : wstep cfg sh pc c = some (sh', pc')) (hold' : Holds pc old)
    (hnp : ∀ k, old ≠ .panic k) :
    Holds pc' (hold cfg sh c e old pc pc') ∧
    (hold cfg sh c e old pc pc' = .error .interrupted → old = .error .interrupted ∨ sh.interrupted = true ∨ e = .interrupted) ∧
    (∀ k, hold cfg sh c e old pc pc' = .panic k ↔ ∃ k', k = some k' ∧ panicOf cfg sh pc c = some k') := by
  by_cases hfl : ∃ d sc, pc = .failing d sc
  · obtain ⟨d, sc, rfl⟩ := hfl
    obtain rfl := wstep_from_failing h
    obtain ⟨e0, rfl⟩ := hold'.failing ⟨d, sc, rfl⟩
    have hnop : panicOf cfg sh (.failing d sc) c = none := by
      cases hp : panicOf cfg sh (.failing d sc) c with
      | none => rfl
      | some k => exact absurd rfl ((panicOf_failed h hp).2 d sc)
    simp only [hold, hnop]
    split
    · exact ⟨⟨by simp, fun h => (by obtain ⟨_, _, h⟩ := h; cases h), fun h => absurd trivial h⟩, fun h => .inl h, by simp⟩
    · exact ⟨⟨by simp, fun h => (by obtain ⟨_, _, h⟩ := h; cases h), fun h => absurd trivial h⟩,
        fun h => .inr (.inr (by cases h; rfl)), by simp⟩
  · have hpf : pc.isFailed = false := by cases pc <;> first | rfl | cases h
    have hnf : ¬ Failing pc := by
      intro hf
      cases pc <;> first | exact hf | exact hfl ⟨_, _, rfl⟩ | cases hpf
    obtain rfl := hold'.fine hnf
    by_cases hfl' : ∃ d sc, pc' = .failing d sc
    · obtain ⟨d, sc, rfl⟩ := hfl'
      obtain ⟨p, todo, rs, rfl, hc⟩ := wstep_failing h
      have hnop : panicOf cfg sh (.command d sc p todo rs) c = none := by
        cases hp : panicOf cfg sh (.command d sc p todo rs) c with
        | none => rfl
        | some k => cases (panicOf_failed h hp).1
      rcases hc with ⟨hi, dur, st, rfl⟩ | rfl
      · simp only [hold, hnop]
        exact ⟨⟨by simp [Pc.isFailed], fun _ => ⟨_, rfl⟩, fun h => absurd trivial h⟩, fun _ => .inr (.inl hi), by simp⟩
      · simp only [hold, hnop]
        exact ⟨⟨by simp [Pc.isFailed], fun _ => ⟨_, rfl⟩, fun h => absurd trivial h⟩,
          fun h => .inr (.inr (by cases h; rfl)), by simp⟩
    · by_cases hf : pc'.isFailed = true
      · obtain ⟨od, rfl⟩ : ∃ od, pc' = .failed od := by cases pc' <;> first | exact ⟨_, rfl⟩ | cases hf
        have e1 : hold cfg sh c e .ok pc (.failed od) = match panicOf cfg sh pc c with
            | some k => .panic (some k)
            | none => .error e := by
          unfold hold
          split
          · rename_i h1; cases h1
          · exact absurd ⟨_, _, rfl⟩ hfl
          · rfl
          · exact ((by assumption : ∀ d, Pc.failed od = .failed d → False) _ rfl).elim
        rw [e1]
        cases hp : panicOf cfg sh pc c with
        | none =>
          exact ⟨⟨by simp, fun h => (by obtain ⟨_, _, h⟩ := h; cases h), fun h => absurd trivial h⟩,
            fun h => .inr (.inr (by cases h; rfl)), by simp⟩
        | some k =>
          exact ⟨⟨by simp, fun h => (by obtain ⟨_, _, h⟩ := h; cases h), fun h => absurd trivial h⟩,
            fun h => (by cases h), by simp [eq_comm]⟩
      · have hnf' : ¬ Failing pc' := by
          intro hf'
          cases pc' <;> first | exact hf' | exact hfl' ⟨_, _, rfl⟩ | exact hf rfl
        have e1 : hold cfg sh c e .ok pc pc' = .ok := by
          unfold hold
          split
          · exact absurd ⟨_, _, rfl⟩ hfl'
          · exact absurd rfl hf
          · exact absurd rfl hf
          · rfl
        have hnop : panicOf cfg sh pc c = none := by
          cases hp : panicOf cfg sh pc c with
          | none => rfl
          | some k => exact absurd (panicOf_failed h hp).1 hf
        rw [e1, hnop]
        exact ⟨⟨fun h => absurd h hf, fun h => absurd h hfl', fun _ => rfl⟩, fun h => (by cases h), by simp⟩

theorem hold_own {cfg sh pc c sh' pc' e old x} (h : wstep cfg sh pc c = some (sh', pc')) (hold' : Holds pc old)
    (hx : hold cfg sh c e old pc pc' = .error x) :
    old = .error x ∨ x = .interrupted ∨ (x = e ∧ ¬ Failing pc ∧ Failing pc') ∨
      (x = e ∧ ∃ d m, pc = .failing d (.mutant m) ∧ pc' = .failed (some d) ∧
        (c = .ok → sh.dirs d m.sourceFile.path = none)) := by
  by_cases hfl : ∃ d sc, pc = .failing d sc
  · obtain ⟨d, sc, rfl⟩ := hfl
    obtain rfl := wstep_from_failing h
    simp only [hold] at hx
    split at hx
    · exact .inl hx
    · rename_i hr
      cases hx
      refine .inr (.inr (.inr ⟨rfl, ?_⟩))
      cases sc with
      | baseline => exact absurd rfl hr
      | mutant m =>
        refine ⟨d, m, rfl, rfl, ?_⟩
        rintro rfl
        simpa [reverts] using hr
  · have hpf : pc.isFailed = false := by cases pc <;> first | rfl | cases h
    have hnf : ¬ Failing pc := by
      intro hf
      cases pc <;> first | exact hf | exact hfl ⟨_, _, rfl⟩ | cases hpf
    obtain rfl := hold'.fine hnf
    unfold hold at hx
    split at hx
    · split at hx
      · cases hx; exact .inr (.inl rfl)
      · cases hx; exact .inr (.inr (.inl ⟨rfl, hnf, trivial⟩))
    · exact absurd ⟨_, _, rfl⟩ hfl
    · split at hx
      · cases hx
      · cases hx; exact .inr (.inr (.inl ⟨rfl, hnf, trivial⟩))
    · cases hx

/-! ### Joining -/

theorem join_ok {l : List Ending} : (joinThreads l).2 = .ok ↔ ∀ x ∈ l, x = .ok := by
  induction l with
  | nil => simp [joinThreads]
  | cons x l ih =>
    cases x with
    | ok => simp [joinThreads, ih]
    | panic k => simp [joinThreads]
    | error e =>
      simp only [joinThreads, List.mem_cons, forall_eq_or_imp, reduceCtorEq, false_and, iff_false]
      split <;> simp

theorem join_panic {l : List Ending} {k} : (joinThreads l).2 = .panic k ↔ First IsPanic l (.panic k) := by
  induction l with
  | nil => simp [joinThreads, First]
  | cons x l ih =>
    have cons : ∀ {x}, ¬ IsPanic x → (First IsPanic (x :: l) (.panic k) ↔ First IsPanic l (.panic k)) := by
      intro x hx
      constructor
      · rintro ⟨a, b, h1, h2, h3⟩
        cases a with
        | nil => cases h1; exact absurd h2 hx
        | cons y a => cases h1; exact ⟨a, b, rfl, h2, fun y hy => h3 y (by simp [hy])⟩
      · rintro ⟨a, b, rfl, h2, h3⟩
        refine ⟨x :: a, b, rfl, h2, ?_⟩
        intro y hy
        rcases List.mem_cons.1 hy with rfl | hy
        · exact hx
        · exact h3 y hy
    cases x with
    | ok => rw [cons (by simp [IsPanic]), ← ih]; rfl
    | panic k' =>
      simp only [joinThreads]
      constructor
      · intro h; cases h; exact ⟨[], l, rfl, trivial, by simp⟩
      · rintro ⟨a, b, h1, h2, h3⟩
        cases a with
        | nil => cases h1; rfl
        | cons y a => cases h1; exact absurd trivial (h3 (.panic k') (by simp))
    | error e =>
      rw [cons (by simp [IsPanic]), ← ih]
      simp only [joinThreads]
      split <;> simp_all

theorem join_error {l : List Ending} {e} : (joinThreads l).2 = .error e ↔
    (∀ x ∈ l, ¬ IsPanic x) ∧ First (· ≠ .ok) l (.error e) := by
  induction l with
  | nil => simp [joinThreads, First]
  | cons x l ih =>
    cases x with
    | ok =>
      simp only [joinThreads, ih, List.mem_cons, forall_eq_or_imp]
      constructor
      · rintro ⟨h0, a, b, rfl, h2, h3⟩
        refine ⟨⟨by simp [IsPanic], h0⟩, .ok :: a, b, rfl, h2, ?_⟩
        intro y hy
        rcases List.mem_cons.1 hy with rfl | hy
        · simp
        · exact h3 y hy
      · rintro ⟨⟨_, h0⟩, a, b, h1, h2, h3⟩
        refine ⟨h0, ?_⟩
        cases a with
        | nil => cases h1
        | cons y a => cases h1; exact ⟨a, b, rfl, h2, fun y hy => h3 y (by simp [hy])⟩
    | panic k =>
      simp [joinThreads, IsPanic]
    | error e' =>
      simp only [joinThreads, List.mem_cons, forall_eq_or_imp]
      have hp : (∀ k, (joinThreads l).2 ≠ .panic k) ↔ ∀ x ∈ l, ¬ IsPanic x := by
        constructor
        · intro h x hx hpx
          cases x with
          | ok => exact hpx
          | error e => exact hpx
          | panic k =>
            -- the first panic
            have : ∀ l : List Ending, (∃ x ∈ l, IsPanic x) → ∃ k, First IsPanic l (.panic k) := by
              intro l
              induction l with
              | nil => rintro ⟨x, hx, _⟩; cases hx
              | cons y l ih =>
                rintro ⟨x, hx, hpx⟩
                cases y with
                | panic k => exact ⟨k, [], l, rfl, trivial, by simp⟩
                | _ =>
                  obtain ⟨k, a, b, rfl, h2, h3⟩ := ih (by
                    rcases List.mem_cons.1 hx with rfl | hx
                    · exact hpx.elim
                    · exact ⟨x, hx, hpx⟩)
                  refine ⟨k, _ :: a, b, rfl, h2, ?_⟩
                  intro z hz
                  rcases List.mem_cons.1 hz with rfl | hz
                  · exact id
                  · exact h3 z hz
            obtain ⟨k', hk'⟩ := this l ⟨_, hx, hpx⟩
            exact h k' (join_panic.2 hk')
        · intro h k hk
          obtain ⟨a, b, rfl, h2, _⟩ := join_panic.1 hk
          exact h _ (by simp) h2
      rw [← hp]
      split
      · rename_i k hk
        simp only [reduceCtorEq, false_iff]
        rintro ⟨⟨_, h0⟩, _⟩
        exact h0 k hk
      · rename_i hk
        constructor
        · intro h
          cases h
          exact ⟨⟨by simp [IsPanic], hk⟩, [], l, rfl, by simp, by simp⟩
        · rintro ⟨_, a, b, h1, h2, h3⟩
          cases a with
          | nil => cases h1; rfl
          | cons y a => cases h1; exact absurd (h3 (.error e') (by simp)) (by simp)

/-- What is printed, if no thread panicked. -/
theorem join_printed {l : List Ending} (h : ∀ x ∈ l, ¬ IsPanic x) :
    (joinThreads l).1 = l.filterMap fun x => match x with
      | .error (.other n) => some (.other n)
      | _ => none := by
  induction l with
  | nil => rfl
  | cons x l ih =>
    have ih := ih fun x hx => h x (by simp [hx])
    cases x with
    | ok => simpa [joinThreads] using ih
    | panic k => exact absurd trivial (h (.panic k) (by simp))
    | error e => cases e <;> simp [joinThreads, ih]

/-- Interruption is never printed. -/
theorem join_quiet (l : List Ending) : .interrupted ∉ (joinThreads l).1 := by
  induction l with
  | nil => simp [joinThreads]
  | cons x l ih =>
    cases x with
    | ok => exact ih
    | panic k => simp [joinThreads]
    | error e => cases e <;> simp [joinThreads, ih]

/-! ### The invariant -/

/-- The run of `es` has come to `s`. -/
structure Trace (cfg : Config) (es : List Event) (s : State) : Prop where
  holds : ∀ (i : Nat) pc, s.lab.workers[i]? = some pc → Holds pc (s.held i)
  beyond : ∀ i : Nat, s.lab.workers[i]? = none → s.held i = .ok
  interrupted : ∀ i, s.held i = .error .interrupted → s.lab.sh.interrupted = true
  panics : (∃ i k, s.held i = .panic k) ↔ s.lab.sh.panicked ≠ none
  somePanic : ∀ i k, s.held i = .panic k → k ≠ none
  own : ∀ i n, s.held i = .error (.other n) → FailedWith cfg es i (.other n)
  running : (∀ r, s.lab.main ≠ .returned r) → s.result = none ∧ s.printed = []
  returned : ∀ r, s.lab.main = .returned r → ∃ x, s.result = some x ∧ (x = .ok ↔ r ≠ none)
  result : s.result = some (.error .interrupted) → s.lab.sh.interrupted = true

theorem failedWith_append {cfg es i e} (h : FailedWith cfg es i e) (rest : List Event) : FailedWith cfg (es ++ rest) i e := by
  obtain ⟨es1, c, es2, s1, s2, pc, pc', rfl, h⟩ := h
  exact ⟨es1, c, es2 ++ rest, s1, s2, pc, pc', by simp, h⟩

theorem trace_init (cfg : Config) : Trace cfg [] (init cfg) := by
  constructor <;> simp [init, Lab.init]

/-- No thread has failed or is about to. -/
theorem Trace.all_ok {cfg es s} (h : Trace cfg es s) (hw : ∀ pc ∈ s.lab.workers, ¬ Failing pc) (i : Nat) : s.held i = .ok := by
  cases hi : s.lab.workers[i]? with
  | none => exact h.beyond i hi
  | some pc => exact (h.holds i pc hi).fine (hw pc (List.mem_of_getElem? hi))

theorem Trace.main {cfg es s ok why s'} (hr : Lab.Reachable cfg s.lab) (h : Trace cfg es s)
    (hst : step cfg s (.main ok why) = some s') : Trace cfg (es ++ [.main ok why]) s' := by
  obtain ⟨l, hm, hwhy, rfl⟩ := main_step hst
  have hown : ∀ i n, s.held i = .error (.other n) → FailedWith cfg (es ++ [.main ok why]) i (.other n) :=
    fun i n hi => failedWith_append (h.own i n hi) _
  have hshape := reachable_shape hr
  -- new threads, while none holds anything
  have fresh : (∀ pc ∈ s.lab.workers, ¬ Failing pc) → (∀ pc ∈ l.workers, ¬ Failing pc) →
      l.sh.interrupted = s.lab.sh.interrupted → l.sh.panicked = s.lab.sh.panicked → (∀ r, l.main ≠ .returned r) →
      (∀ r, s.lab.main ≠ .returned r) → Trace cfg (es ++ [.main ok why]) (s.mainStep why l) := by
    intro h1 h2 h3 h4 h5 h6
    have hall := h.all_ok h1
    have e : s.mainStep why l = { s with lab := l } := by
      unfold State.mainStep
      split
      · rename_i r hr; exact absurd hr (h5 r)
      · rfl
    rw [e]
    refine ⟨?_, fun i _ => hall i, fun i hi => ?_, ?_, h.somePanic, hown, fun _ => h.running h6, fun r hr => absurd hr (h5 r), ?_⟩
    · intro i pc hpc
      have hn := h2 pc (List.mem_of_getElem? hpc)
      exact ⟨fun hf => absurd (by cases pc <;> first | trivial | cases hf) hn,
        fun ⟨d, sc, he⟩ => absurd (by rw [he]; trivial) hn, fun _ => hall i⟩
    · rw [hall i] at hi; cases hi
    · simp only [h4]; exact h.panics
    · simp only [h3]; exact h.result
  -- the main thread returns, the threads stay as they are
  have ret : ∀ r x, l.main = .returned r → l.workers = s.lab.workers → l.sh.interrupted = s.lab.sh.interrupted →
      l.sh.panicked = s.lab.sh.panicked → (s.mainStep why l).result = some x → (x = .ok ↔ r ≠ none) →
      (x = .error .interrupted → s.lab.sh.interrupted = true) → Trace cfg (es ++ [.main ok why]) (s.mainStep why l) := by
    intro r x h1 h2 h3 h4 h5 h6 h7
    refine ⟨?_, ?_, ?_, ?_, ?_, ?_, ?_, ?_, ?_⟩
    · rw [mainStep_lab, mainStep_held, h2]; exact h.holds
    · rw [mainStep_lab, mainStep_held, h2]; exact h.beyond
    · rw [mainStep_lab, mainStep_held, h3]; exact h.interrupted
    · rw [mainStep_lab, mainStep_held, h4]; exact h.panics
    · rw [mainStep_held]; exact h.somePanic
    · rw [mainStep_held]; exact hown
    · rw [mainStep_lab]; exact fun hn => absurd h1 (hn r)
    · rw [mainStep_lab, h5, h1]
      intro r' hr'
      cases hr'
      exact ⟨x, rfl, h6⟩
    · rw [mainStep_lab, h5, h3]
      intro hx
      exact h7 (Option.some.inj hx)
  have early : ∀ r, l.main = .returned r → s.lab.main ≠ .testing → (s.mainStep why l).result = some (match r with
      | some _ => .ok
      | none => if s.lab.workers.any Pc.isFailed then s.held 0 else why) := by
    intro r h1 h2
    unfold State.mainStep
    rw [h1]
    cases hm2 : s.lab.main with
    | testing => exact absurd hm2 h2
    | _ => rfl
  have whyOk : ok = false → (why = .ok ↔ (none : Option LabOutcome) ≠ none) ∧ (why = .error .interrupted → s.lab.sh.interrupted = true) := by
    intro hok
    have := hwhy hok
    cases why with
    | ok => simp [mayEnd] at this
    | panic k => simp
    | error e =>
      cases e with
      | interrupted => simp [mayEnd] at this
      | other n => simp
  have one : ∀ pc, s.lab.workers = [pc] → Holds pc (s.held 0) := fun pc hw => h.holds 0 pc (by rw [hw]; rfl)
  have held0 : ∀ d, s.lab.workers = [.failed d] → s.held 0 ≠ .ok := fun d hw => (one _ hw).failed rfl
  -- where `ok` is false
  have notOk : ∀ d, s.lab.main = .preparing → s.lab.workers = [.prepared d] → l.main = .returned none → ok = false := by
    intro d h1 h2 h3
    cases ok with
    | false => rfl
    | true =>
      simp only [mstep, h1, h2, Bool.not_true, Bool.false_eq_true, if_false] at hm
      split at hm <;> cases hm <;> cases h3
  have hm' := hm
  cases mstep_rel hm
  case setupErr hs =>
    have hok : ok = false := by
      cases ok with
      | false => rfl
      | true => simp only [mstep, hs, Bool.not_true, Bool.false_eq_true, if_false] at hm'; (split at hm' <;> exact absurd (congrArg (Option.map Lab.State.main) hm') (by simp))
    have hw : s.lab.workers = [] := by have := hshape.count; rwa [hs] at this
    refine ret none why rfl rfl rfl rfl ?_ (whyOk hok).1 (whyOk hok).2
    rw [early none rfl (by rw [hs]; simp), hw]
    rfl
  case empty hs he =>
    refine ret (some {}) .ok rfl rfl rfl rfl ?_ (by simp) (by simp)
    rw [early (some {}) rfl (by rw [hs]; simp)]
  case prepare hs he =>
    have hw : s.lab.workers = [] := by have := hshape.count; rwa [hs] at this
    refine fresh (by simp [hw]) ?_ rfl rfl (by simp) (by simp [hs])
    intro pc hpc
    simp only [List.mem_singleton] at hpc
    subst hpc
    split <;> exact id
  case prepareErr hs d hw =>
    have hok := notOk d hs hw rfl
    refine ret none why rfl rfl rfl rfl ?_ (whyOk hok).1 (whyOk hok).2
    rw [early none rfl (by rw [hs]; simp), hw]
    rfl
  case baseline hs d hw hb =>
    refine fresh ?_ ?_ rfl rfl (by simp) (by simp [hs])
    · rw [hw]; simp [Failing]
    · simp [Failing]
  case skipBaseline hs d hw hb =>
    refine fresh ?_ ?_ rfl rfl (by simp [spawn]) (by simp [hs])
    · rw [hw]; simp [Failing]
    · intro pc hpc
      simp [spawn] at hpc
      rw [hpc.2]
      exact id
  case prepareFailed hs d hw =>
    refine ret none (s.held 0) rfl rfl rfl rfl ?_ ?_ (h.interrupted 0)
    · rw [early none rfl (by rw [hs]; simp), hw]
      rfl
    · simpa using held0 d hw
  case passed hs d o hw ho =>
    refine fresh ?_ ?_ rfl rfl (by simp [spawn]) (by simp [hs])
    · rw [hw]; simp [Failing]
    · intro pc hpc
      simp [spawn] at hpc
      rw [hpc.2]
      exact id
  case passedErr hs d o hw =>
    have hok : ok = false := by
      cases ok with
      | false => rfl
      | true =>
        simp only [mstep, hs, hw, Bool.not_true, Bool.false_eq_true, if_false] at hm'
        split at hm' <;> exact absurd (congrArg (Option.map Lab.State.main) hm') (by simp [spawn])
    refine ret none why rfl rfl rfl rfl ?_ (whyOk hok).1 (whyOk hok).2
    rw [early none rfl (by rw [hs]; simp), hw]
    rfl
  case baselineFailed hs d o hw ho =>
    refine ret (some s.lab.sh.out.lab) .ok rfl rfl rfl rfl ?_ (by simp) (by simp)
    rw [early (some _) rfl (by rw [hs]; simp)]
  case baselineErr hs d hw =>
    refine ret none (s.held 0) rfl rfl rfl rfl ?_ ?_ (h.interrupted 0)
    · rw [early none rfl (by rw [hs]; simp), hw]
      rfl
    · simpa using held0 d hw
  case workerFailed hs hw hf =>
    refine ret none (joinThreads ((List.range s.lab.workers.length).map s.held)).2 rfl rfl rfl rfl ?_ ?_ ?_
    · simp [State.mainStep, hs]
    · simp only [ne_eq, not_true_eq_false, iff_false]
      rw [join_ok]
      intro hall
      obtain ⟨pc, hpc, hf⟩ := hf
      obtain ⟨i, hi⟩ := List.getElem?_of_mem hpc
      have hlt : i < s.lab.workers.length := (List.getElem?_eq_some_iff.1 hi).1
      exact (h.holds i pc hi).failed hf (hall _ (List.mem_map.2 ⟨i, List.mem_range.2 hlt, rfl⟩))
    · intro hx
      obtain ⟨a, b, hab, _⟩ := (join_error.1 hx).2
      have : (Ending.error .interrupted) ∈ (List.range s.lab.workers.length).map s.held := by rw [hab]; simp
      obtain ⟨i, _, hi⟩ := List.mem_map.1 this
      exact h.interrupted i hi
  case tested hs hw =>
    have hall : ∀ i, s.held i = .ok := h.all_ok fun pc hpc => by
      have := hw pc hpc
      cases pc <;> first | exact id | cases this
    have hj : (joinThreads ((List.range s.lab.workers.length).map s.held)).2 = .ok := by
      rw [join_ok]
      intro x hx
      obtain ⟨i, _, rfl⟩ := List.mem_map.1 hx
      exact hall i
    refine ret (some s.lab.sh.out.lab) .ok rfl rfl rfl rfl ?_ (by simp) (by simp)
    simp [State.mainStep, hs, hj]

theorem Trace.worker {cfg es s i c e s'} (hx : exec cfg (init cfg) es = some s) (h : Trace cfg es s)
    (hst : step cfg s (.worker i c e) = some s') : Trace cfg (es ++ [.worker i c e]) s' := by
  have hst' := hst
  obtain ⟨pc, sh', pc', hpc, hw, he, rfl⟩ := worker_step hst
  have hlt : i < s.lab.workers.length := (List.getElem?_eq_some_iff.1 hpc).1
  have hint : sh'.interrupted = s.lab.sh.interrupted := (wstep_rel hw).interrupted_eq
  have hpf : pc.isFailed = false := by cases pc <;> first | rfl | cases hw
  have hnp : ∀ k, s.held i ≠ .panic k := by
    intro k hk
    by_cases hf : Failing pc
    · have : ∃ d sc, pc = .failing d sc := by
        cases pc <;> first | exact ⟨_, _, rfl⟩ | exact hf.elim | (cases hpf; done)
      obtain ⟨e, he⟩ := (h.holds i pc hpc).failing this
      rw [hk] at he; cases he
    · have := (h.holds i pc hpc).fine hf
      rw [hk] at this; cases this
  obtain ⟨f1, f2, f3⟩ := hold_facts (e := e) hw (h.holds i pc hpc) hnp
  have hnew : (s.lab.workers.set i pc')[i]? = some pc' := List.getElem?_set_self hlt
  refine ⟨?_, ?_, ?_, ?_, ?_, ?_, h.running, h.returned, ?_⟩
  · intro j q hj
    rcases getElem?_set_cases hj with ⟨rfl, rfl⟩ | ⟨hji, hj⟩
    · simpa using f1
    · simpa [hji] using h.holds j q hj
  · intro j hj
    simp only at hj ⊢
    have hji : j ≠ i := by
      rintro rfl
      rw [hnew] at hj; cases hj
    rw [if_neg hji]
    rw [List.getElem?_set_ne (Ne.symm hji)] at hj
    exact h.beyond j hj
  · intro j hj
    simp only at hj ⊢
    rw [hint]
    split at hj
    · rcases f2 hj with h1 | h1 | h1
      · exact h.interrupted i h1
      · exact h1
      · exact (he h1).1
    · exact h.interrupted j hj
  · simp only
    rw [panicOf_flag hw]
    constructor
    · rintro ⟨j, k, hj⟩
      split at hj
      · obtain ⟨k', _, hk'⟩ := (f3 k).1 hj
        simp [hk']
      · have := h.panics.1 ⟨j, k, hj⟩
        cases hp : panicOf cfg s.lab.sh pc c <;> simp [this]
    · intro hn
      cases hp : panicOf cfg s.lab.sh pc c with
      | some k => exact ⟨i, some k, by simpa using (f3 (some k)).2 ⟨k, rfl, hp⟩⟩
      | none =>
        rw [hp] at hn
        obtain ⟨j, k, hj⟩ := h.panics.2 (by simpa using hn)
        refine ⟨j, k, ?_⟩
        have hji : j ≠ i := by rintro rfl; exact hnp k hj
        rw [if_neg hji]
        exact hj
  · intro j k hj
    simp only at hj
    split at hj
    · obtain ⟨k', rfl, _⟩ := (f3 k).1 hj
      simp
    · exact h.somePanic j k hj
  · intro j n hj
    simp only at hj
    split at hj
    · rename_i hji
      subst hji
      rcases hold_own hw (h.holds j pc hpc) hj with h1 | h1 | ⟨rfl, h1, h2⟩ | ⟨rfl, h1⟩
      · exact failedWith_append (h.own j n h1) _
      · cases h1
      · exact ⟨es, c, [], s, _, pc, pc', by simp, hx, hst', hpc, hnew, .inl ⟨h1, h2⟩⟩
      · exact ⟨es, c, [], s, _, pc, pc', by simp, hx, hst', hpc, hnew, .inr h1⟩
    · exact failedWith_append (h.own j n hj) _
  · intro hres
    simp only at hres ⊢
    rw [hint]
    exact h.result hres

theorem trace {cfg es s} (h : exec cfg (init cfg) es = some s) : Trace cfg es s := by
  refine exec_induction (P := Trace cfg) (trace_init cfg) ?_ h
  intro es s ev s' hx ht hst
  cases ev with
  | interrupt =>
    have hlab := step_lab hst
    unfold step at hst
    obtain ⟨l, h1, h2⟩ := Option.bind_eq_some_iff.1 hst
    cases h2
    simp only [Event.lab, Lab.step] at h1
    split at h1
    · cases h1
    · cases h1
      exact ⟨ht.holds, ht.beyond, fun _ _ => rfl, ht.panics, ht.somePanic,
        fun i n hi => failedWith_append (ht.own i n hi) _, ht.running, ht.returned, fun _ => rfl⟩
  | main ok why => exact ht.main (lab_of_exec hx) hst
  | worker i c e => exact ht.worker hx hst

/-! ### Causes of panics -/

theorem panic_events {cfg es s} (h : exec cfg (init cfg) es = some s) (hj_ : cfg.JobsOk)
    (hn : ∀ m ∈ cfg.mutants, m.name true ≠ none) :
    (∀ i k, s.held i = .panic k → k = some .unreadableLog ∧ ∃ e, Event.worker i .logUnreadable e ∈ es) ∧
    (∀ k, s.result = some (.panic k) →
      (k = some .unreadableLog ∧ ∃ i e, Event.worker i .logUnreadable e ∈ es) ∨
      (k = none ∧ Event.main false (.panic none) ∈ es)) := by
  refine exec_induction (P := fun es s =>
    (∀ i k, s.held i = .panic k → k = some .unreadableLog ∧ ∃ e, Event.worker i .logUnreadable e ∈ es) ∧
    (∀ k, s.result = some (.panic k) →
      (k = some .unreadableLog ∧ ∃ i e, Event.worker i .logUnreadable e ∈ es) ∨
      (k = none ∧ Event.main false (.panic none) ∈ es))) ⟨by simp [init], by simp [init]⟩ ?_ h
  intro es s ev s' hx ⟨hp1, hp2⟩ hst
  have hr := lab_of_exec hx
  have ht := trace hx
  have weak1 : ∀ i k, s.held i = .panic k → k = some .unreadableLog ∧ ∃ e, Event.worker i .logUnreadable e ∈ es ++ [ev] := by
    intro i k hk
    obtain ⟨h1, e, h2⟩ := hp1 i k hk
    exact ⟨h1, e, by simp [h2]⟩
  have weak2 : ∀ k, s.result = some (.panic k) →
      (k = some .unreadableLog ∧ ∃ i e, Event.worker i .logUnreadable e ∈ es ++ [ev]) ∨
      (k = none ∧ Event.main false (.panic none) ∈ es ++ [ev]) := by
    intro k hk
    rcases hp2 k hk with ⟨h1, i, e, h2⟩ | ⟨h1, h2⟩
    · exact .inl ⟨h1, i, e, by simp [h2]⟩
    · exact .inr ⟨h1, by simp [h2]⟩
  cases ev with
  | interrupt =>
    unfold step at hst
    obtain ⟨l, h1, h2⟩ := Option.bind_eq_some_iff.1 hst
    cases h2
    exact ⟨weak1, weak2⟩
  | main ok why =>
    obtain ⟨l, hm, hwhy, rfl⟩ := main_step hst
    rw [mainStep_held]
    refine ⟨weak1, ?_⟩
    intro k hk
    have one : ∀ j, s.held j = .panic k → (k = some .unreadableLog ∧
        ∃ i e, Event.worker i .logUnreadable e ∈ es ++ [.main ok why]) ∨
        (k = none ∧ Event.main false (.panic none) ∈ es ++ [.main ok why]) := by
      intro j hj
      obtain ⟨h1, e, h2⟩ := weak1 j k hj
      exact .inl ⟨h1, j, e, h2⟩
    unfold State.mainStep at hk
    split at hk
    · rename_i r hret
      split at hk
      · simp only [Option.some.injEq] at hk
        obtain ⟨a, b, hab, _⟩ := join_panic.1 hk
        have : (Ending.panic k) ∈ (List.range s.lab.workers.length).map s.held := by rw [hab]; simp
        obtain ⟨i, _, hi⟩ := List.mem_map.1 this
        exact one i hi
      · rename_i hnt
        simp only [Option.some.injEq] at hk
        split at hk
        · cases hk
        · split at hk
          · exact one 0 hk
          · rename_i hnf
            subst hk
            cases ok with
            | false =>
              have := hwhy rfl
              have hk : k = none := by
                cases k with
                | none => rfl
                | some k => cases hm2 : s.lab.main <;> simp [hm2, mayEnd] at this
              subst hk
              exact .inr ⟨rfl, by simp⟩
            | true =>
              exfalso
              cases hm2 : s.lab.main <;> simp only [mstep, hm2, Bool.not_true, Bool.false_eq_true, if_false] at hm
              · split at hm <;> cases hm <;> cases hret
              · split at hm
                · split at hm <;> cases hm <;> cases hret
                · rename_i hw; rw [hw] at hnf; exact hnf rfl
                · cases hm
              · split at hm
                · split at hm <;> cases hm <;> cases hret
                · rename_i hw; rw [hw] at hnf; exact hnf rfl
                · cases hm
              · exact hnt hm2
              · cases hm
    · exact weak2 k hk
  | worker i c e =>
    obtain ⟨pc, sh', pc', hpc, hw, he, rfl⟩ := worker_step hst
    refine ⟨?_, weak2⟩
    intro j k hj
    simp only at hj
    split at hj
    · rename_i hji
      subst hji
      have hpf : pc.isFailed = false := by cases pc <;> first | rfl | cases hw
      have hnp : ∀ k, s.held j ≠ .panic k := by
        intro k hk
        by_cases hf : Failing pc
        · have : ∃ d sc, pc = .failing d sc := by
            cases pc <;> first | exact ⟨_, _, rfl⟩ | exact hf.elim | (cases hpf; done)
          obtain ⟨e, he⟩ := (ht.holds j pc hpc).failing this
          rw [hk] at he; cases he
        · have := (ht.holds j pc hpc).fine hf
          rw [hk] at this; cases this
      obtain ⟨k', rfl, hk'⟩ := ((hold_facts (e := e) hw (ht.holds j pc hpc) hnp).2.2 k).1 hj
      obtain rfl := panic_unreadable hj_ hn hr hpc hk'
      obtain ⟨rfl, _⟩ := unreadable_recorded hk'
      exact ⟨rfl, e, by simp⟩
    · exact weak1 j k hj

/-! ### Runs in which nothing fails but the checks for ctrl-C -/

/-- What has happened in such a run. -/
structure Calm (s : State) : Prop where
  logs : LogsCovered s.lab.sh.used s.lab.sh.logs
  held : ∀ i, s.held i = .ok ∨ s.held i = .error .interrupted
  result : s.result = none ∨ s.result = some .ok ∨ s.result = some (.error .interrupted)
  printed : s.printed = []

theorem onlyInterrupts_writes {ev : Event} (h : OnlyInterrupts ev) (i : Nat) (t : Option Text) :
    ev.lab ≠ .worker i (.writeFails t) := by
  cases ev with
  | interrupt => simp [Event.lab]
  | main ok why => simp [Event.lab]
  | worker j c e =>
    intro heq
    cases heq
    exact h

theorem Calm.step {cfg es s ev s'} (hx : exec cfg (init cfg) es = some s) (hinv : Inv True cfg s.lab)
    (hfiles : ∀ m ∈ cfg.mutants, (cfg.base m.sourceFile.path).isSome)
    (hnames : ∀ m ∈ cfg.mutants, m.name true ≠ none) (hs : Calm s) (he : OnlyInterrupts ev)
    (hst : step cfg s ev = some s') : Calm s' := by
  have hr := lab_of_exec hx
  have ht := trace hx
  have hrec := reachable_records hr
  cases ev with
  | interrupt =>
    unfold Join.step at hst
    obtain ⟨l, h1, h2⟩ := Option.bind_eq_some_iff.1 hst
    cases h2
    simp only [Event.lab, Lab.step] at h1
    split at h1
    · cases h1
    · cases h1
      exact ⟨hs.logs, hs.held, hs.result, hs.printed⟩
  | main ok why =>
    have hok : ok = true := he
    subst hok
    obtain ⟨l, hm, hwhy, rfl⟩ := main_step hst
    have hlogs : l.sh.used = s.lab.sh.used ∧ l.sh.logs = s.lab.sh.logs := by
      cases mstep_rel hm <;> exact ⟨rfl, rfl⟩
    have hj : ∀ x ∈ (List.range s.lab.workers.length).map s.held, x = .ok ∨ x = .error .interrupted := by
      intro x hx
      obtain ⟨i, _, rfl⟩ := List.mem_map.1 hx
      exact hs.held i
    have hjr : ∀ l : List Ending, (∀ x ∈ l, x = .ok ∨ x = .error .interrupted) →
        ((joinThreads l).2 = .ok ∨ (joinThreads l).2 = .error .interrupted) ∧ (joinThreads l).1 = [] := by
      intro l
      induction l with
      | nil => intro _; exact ⟨.inl rfl, rfl⟩
      | cons x l ih =>
        intro h
        obtain ⟨h1, h2⟩ := ih fun x hx => h x (by simp [hx])
        rcases h x (by simp) with rfl | rfl
        · exact ⟨h1, h2⟩
        · refine ⟨.inr ?_, by simpa [joinThreads] using h2⟩
          rcases h1 with h1 | h1 <;> simp [joinThreads, h1]
    refine ⟨?_, ?_, ?_, ?_⟩
    · rw [mainStep_lab, hlogs.1, hlogs.2]; exact hs.logs
    · rw [mainStep_held]; exact hs.held
    · unfold State.mainStep
      split
      · rename_i r hret
        split
        · rcases (hjr _ hj).1 with h1 | h1 <;> simp [h1]
        · rename_i hnt
          simp only
          split
          · exact .inr (.inl rfl)
          · split
            · rcases hs.held 0 with h1 | h1 <;> simp [h1]
            · rename_i hnf
              exfalso
              cases hm2 : s.lab.main <;> simp only [mstep, hm2, Bool.not_true, Bool.false_eq_true, if_false] at hm
              · split at hm <;> cases hm <;> cases hret
              · split at hm
                · split at hm <;> cases hm <;> cases hret
                · rename_i hw; rw [hw] at hnf; exact hnf rfl
                · cases hm
              · split at hm
                · split at hm <;> cases hm <;> cases hret
                · rename_i hw; rw [hw] at hnf; exact hnf rfl
                · cases hm
              · exact hnt hm2
              · cases hm
      · exact hs.result
    · unfold State.mainStep
      split
      · split
        · exact (hjr _ hj).2
        · exact hs.printed
      · exact hs.printed
  | worker i c e =>
    obtain ⟨pc, sh', pc', hpc, hw, hint, rfl⟩ := worker_step hst
    have hph := ht.holds i pc hpc
    have hpf : pc.isFailed = false := by cases pc <;> first | rfl | cases hw
    -- what is to be shown
    have goal : LogsCovered sh'.used sh'.logs →
        (hold cfg s.lab.sh c e (s.held i) pc pc' = .ok ∨ hold cfg s.lab.sh c e (s.held i) pc pc' = .error .interrupted) →
        Calm { s with
          lab := { s.lab with sh := sh', workers := s.lab.workers.set i pc' }
          held := fun j => if j = i then hold cfg s.lab.sh c e (s.held i) pc pc' else s.held j } := by
      intro h1 h2
      refine ⟨h1, ?_, hs.result, hs.printed⟩
      intro j
      simp only
      split
      · exact h2
      · exact hs.held j
    by_cases hfail : c = .fail
    · subst hfail
      have he : e = .interrupted := he
      obtain ⟨_, hc⟩ := hint he
      subst he
      cases pc <;> first | (cases hc; done) | skip
      · cases hw
        refine goal hs.logs (.inr ?_)
        rfl
      · cases hw
        exact goal hs.logs (.inr rfl)
    · have hc : c = .ok ∨ ∃ dur st, c = .exits dur st := by
        cases c with
        | ok => exact .inl rfl
        | exits dur st => exact .inr ⟨dur, st, rfl⟩
        | fail => exact absurd rfl hfail
        | _ => exact he.elim
      by_cases hfl : ∃ d sc, pc = .failing d sc
      · obtain ⟨d, sc, rfl⟩ := hfl
        obtain rfl := wstep_from_failing hw
        have hlogs : sh'.used = s.lab.sh.used ∧ sh'.logs = s.lab.sh.logs := by
          cases wstep_rel hw
          case failRevert h => obtain ⟨_, rfl, _⟩ := h.frame; exact ⟨rfl, rfl⟩
          case failBaseline => exact ⟨rfl, rfl⟩
        refine goal (by rw [hlogs.1, hlogs.2]; exact hs.logs) ?_
        have hrev : reverts s.lab.sh d sc c = true := by
          cases sc with
          | baseline => rfl
          | mutant m =>
            have hmut : Mutated cfg m (s.lab.sh.dirs d) := hinv.content.workers i _ d hpc rfl
            rcases hc with rfl | ⟨dur, st, rfl⟩
            · exact hmut.isSome
            · cases hw
        simp only [hold, hrev, if_true]
        exact hs.held i
      · have hnf : ¬ Failing pc := by
          intro hf
          cases pc <;> first | exact hf | exact hfl ⟨_, _, rfl⟩ | cases hpf
        by_cases hcmd : s.lab.sh.interrupted = true ∧ ∃ d sc p todo rs, pc = .command d sc p todo rs
        · obtain ⟨hi, d, sc, p, todo, rs, rfl⟩ := hcmd
          rcases hc with rfl | ⟨dur, st, rfl⟩
          · cases hw
          · simp only [wstep, hi, if_true] at hw
            cases hw
            exact goal hs.logs (.inr rfl)
        · obtain ⟨h1, h2, h3⟩ := wstep_well hw hc hfiles hnames (hinv.shape.fits i pc hpc)
            (hinv.console.ok i pc hpc) (fun d hd => hinv.content.workers i pc d hpc hd)
            (hrec.phases i pc hpc) hs.logs (fun d sc p todo rs heq => by
              cases hi : s.lab.sh.interrupted with
              | false => rfl
              | true => exact absurd ⟨hi, d, sc, p, todo, rs, heq⟩ hcmd) (fun d sc heq => hfl ⟨d, sc, heq⟩)
          refine goal h3 (.inl ?_)
          unfold hold
          split
          · exact absurd rfl (h2 _ _)
          · cases h1
          · cases h1
          · exact hph.fine hnf

theorem calm {cfg es s} (hj : cfg.JobsOk) (hcons : cfg.Consistent)
    (hfiles : ∀ m ∈ cfg.mutants, (cfg.base m.sourceFile.path).isSome)
    (hnames : ∀ m ∈ cfg.mutants, m.name true ≠ none) (he : ∀ ev ∈ es, OnlyInterrupts ev)
    (h : exec cfg (init cfg) es = some s) : Calm s := by
  have key := exec_induction (P := fun es s => (∀ ev ∈ es, OnlyInterrupts ev) → Inv True cfg s.lab ∧ Calm s)
    (fun _ => ⟨Lab.inv_init _ _, by simp [init, Lab.init, LogsCovered], by simp [init], by simp [init], rfl⟩) ?_ h
  · exact (key he).2
  · intro es s ev s' hx ih hst he
    obtain ⟨hinv, hc⟩ := ih fun ev h => he ev (by simp [h])
    have hev := he ev (by simp)
    exact ⟨hinv.step hj hcons (fun _ i t => onlyInterrupts_writes hev i t) (step_lab hst),
      hc.step hx hinv hfiles hnames hev hst⟩

end CM.Join
