import Verif.Proofs.Logs
import Verif.Props.Run
import Verif.Props.Json
/-! The logs and diffs of scenarios: C79. -/
namespace CM.Props
open CM CM.Spec CM.Logs

/-- C79: there is a log for every recorded outcome, no two outcomes have the same, and the log tells what the
outcome says; the diff file of a mutant holds its diff. -/
theorem C79_log_tells_outcome (cfg : Run.Config) (diff : Mutant → Text) (s : Logs.State) (h : Logs.Reachable cfg diff s) :
    s.files.recorded.map Prod.fst = s.run.lab.sh.out.lab.outcomes ∧ (s.files.recorded.map Prod.snd).Nodup ∧
    ∀ o b, (o, b) ∈ s.files.recorded →
      (∃ log, s.files.logs b = some log ∧ Tells diff o log) ∧ s.files.diffs b = diffFile diff o.scenario := by
  have hi := Logs.reachable_inv h
  refine ⟨hi.same, hi.nodup, fun o b hx => ?_⟩
  obtain ⟨body, h1, h2, h3, h4, _⟩ := hi.kept (o, b) hx
  simp only [intro_isMutant, diffNow_isMutant] at h1 h4
  exact ⟨⟨_, h1, body, rfl, by simpa using h2, h3⟩, h4⟩

theorem chunks_step {cfg diff s e s'} (h : Logs.Inv cfg diff s) (hst : Logs.step cfg diff s e = some s') (b : Text) (log : List Chunk)
    (hl : s.files.logs b = some log) : ∃ more, s'.files.logs b = some (log ++ more) := by
  have say : ∀ (f : Files) i m, f.logs b = some log → ∃ more, (f.say i m).logs b = some (log ++ more) := by
    intro f i m hf
    unfold Files.say
    split
    · exact ⟨[], by simp [hf]⟩
    · rename_i b' _
      by_cases hb : b = b'
      · subst hb
        exact ⟨[.said m], by simp [Files.append, put_same, hf]⟩
      · exact ⟨[], by simp [Files.append, put_other _ _ hb, hf]⟩
  cases e with
  | prints b' t =>
    simp only [Logs.step] at hst
    split at hst
    · cases hst
      by_cases hb : b = b'
      · subst hb
        exact ⟨[.printed t], by simp [Files.append, put_same, hl]⟩
      · exact ⟨[], by simp [Files.append, put_other _ _ hb, hl]⟩
    · cases hst
  | run e =>
    obtain ⟨r', hr, rfl⟩ := Option.map_eq_some_iff.1 hst
    have same : ∃ more, s.files.logs b = some (log ++ more) := ⟨[], by simp [hl]⟩
    cases e with
    | worker i c =>
      simp only [effect]
      split
      · -- the file is new
        rename_i d sc d' sc' h1 h2
        by_cases hb : b = (chooseLogName s.run.lab.sh.used sc).2
        · exfalso
          have hm := (h.made b).1 (by simp [hl])
          simp only [CM.Run.step] at hr
          split at hr
          · cases hr
          obtain ⟨l, h3, rfl⟩ := Option.map_eq_some_iff.1 hr
          rcases Lab.step_cases h3 with ⟨h, _⟩ | ⟨_, h, _⟩ | ⟨i', c', pc, sh', pc', he, hpc, hw, rfl⟩
          · cases h
          · cases h
          cases he
          rw [h1] at hpc
          cases hpc
          have hlen : i < s.run.lab.workers.length := (List.getElem?_eq_some_iff.1 h1).1
          simp only [List.getElem?_set_self hlen, Option.some.injEq] at h2
          subst h2
          cases hw with
          | log _ _ _ _ hs => exact (started_logged hs).1 (hb ▸ hm)
        · exact ⟨[], by simp [Files.create, put_other _ _ hb, hl]⟩
      · obtain ⟨more, hmore⟩ := say s.files i ("mutation diff:\n".toList ++ diff _) hl
        refine ⟨more, ?_⟩
        unfold Files.writeDiff
        simp only
        split
        · exact hmore
        · exact hmore
      · split <;> exact same
      · exact same
    | proc i e =>
      cases e with
      | spawn ok =>
        simp only [effect]
        split
        · cases ok <;> exact say _ _ _ hl
        · exact same
      | log ok =>
        cases ok with
        | true =>
          simp only [effect]
          split
          · exact say _ _ _ hl
          · exact same
        | false => exact same
      | _ => exact same
    | _ => exact same

/-- Executions that go on. -/
theorem logs_exec_inv {cfg diff s es s'} (h : Logs.Inv cfg diff s) (he : Logs.exec cfg diff s es = some s') : Logs.Inv cfg diff s' := by
  induction es generalizing s with
  | nil => cases he; exact h
  | cons e es ih =>
    obtain ⟨s1, h1, h2⟩ := Option.bind_eq_some_iff.1 he
    exact ih (h.step h1) h2

/-- The messages of a part of a log are in its text, if it starts with one. -/
theorem through_of_messages (log : List Chunk) (out : Text) (hd : ∀ t, log.head? ≠ some (.printed t)) :
    Through (messagesOf log) (logText log) ∧
    ∀ m, Through (m :: messagesOf log) (starred m ++ out ++ logText log) := by
  have all : ∀ (l : List Chunk) (m out : Text), Through (m :: messagesOf l) (starred m ++ out ++ logText l) := by
    intro l
    induction l with
    | nil => intro m out; exact .cons out .nil
    | cons c l ih =>
      intro m out
      cases c with
      | said m' =>
        have := ih m' []
        rw [List.append_nil] at this
        exact .cons out this
      | printed t =>
        have := ih m (out ++ t)
        show Through (m :: messagesOf l) (starred m ++ out ++ (t ++ logText l))
        simp only [List.append_assoc] at this ⊢
        exact this
  refine ⟨?_, fun m => all log m out⟩
  cases log with
  | nil => exact .nil
  | cons c l =>
    cases c with
    | printed t => exact absurd rfl (hd t)
    | said m =>
      have := all l m []
      rw [List.append_nil] at this
      exact this

/-- C79 for the text of the log file: it starts with what is tested, each message on lines of its own after stars, and then
comes each command line, what the command wrote, and how it ended. -/
theorem C79_log_text (cfg : Run.Config) (diff : Mutant → Text) (s : Logs.State) (h : Logs.Reachable cfg diff s)
    (o : ScenarioOutcome) (b : Text) (hx : (o, b) ∈ s.files.recorded) :
    ∃ log rest, s.files.logs b = some log ∧
      logText log = (logHeading diff o.scenario).flatMap (fun m => "\n*** ".toList ++ m ++ "\n".toList) ++ rest ∧
      Through (o.phaseResults.flatMap fun r => [quoteArgv r.argv, ("result: " ++ Spec.ending r.status).toList]) rest := by
  obtain ⟨⟨log, hl, body, rfl, hm, hd⟩, _⟩ := (C79_log_tells_outcome cfg diff s h).2.2 o b hx
  refine ⟨_, logText body, hl, ?_, ?_⟩
  · unfold logText
    rw [List.flatMap_append, List.flatMap_map]
    rfl
  · have := (through_of_messages body [] hd).1
    rw [hm] at this
    exact this

/-- C79: what has been written to a log stays in it, at the same place. -/
theorem C79_only_appended (cfg : Run.Config) (diff : Mutant → Text) (s s' : Logs.State) (h : Logs.Reachable cfg diff s)
    (es : List Logs.Event) (he : Logs.exec cfg diff s es = some s') (b : Text) (log : List Chunk)
    (hl : s.files.logs b = some log) :
    ∃ more, s'.files.logs b = some (log ++ more) ∧ logText (log ++ more) = logText log ++ logText more := by
  have key : ∀ (es : List Logs.Event) s log, Logs.Inv cfg diff s → Logs.exec cfg diff s es = some s' → s.files.logs b = some log →
      ∃ more, s'.files.logs b = some (log ++ more) := by
    intro es
    induction es with
    | nil => intro s log _ h1 h2; cases h1; exact ⟨[], by simp [h2]⟩
    | cons e es ih =>
      intro s log h0 h1 h2
      obtain ⟨s1, h3, h4⟩ := Option.bind_eq_some_iff.1 h1
      obtain ⟨more, h5⟩ := chunks_step h0 h3 b log h2
      obtain ⟨more', h6⟩ := ih s1 _ (h0.step h3) h4 h5
      exact ⟨more ++ more', by rw [h6, List.append_assoc]⟩
  obtain ⟨more, h1⟩ := key es s log (Logs.reachable_inv h) he hl
  exact ⟨more, h1, by simp [logText]⟩

theorem recorded_step {cfg diff s e s'} (hst : Logs.step cfg diff s e = some s') {x} (hx : x ∈ s.files.recorded) :
    x ∈ s'.files.recorded := by
  have say : ∀ (f : Files) i m, (f.say i m).recorded = f.recorded := fun f i m => (say_frame f i m).2.1
  cases e with
  | prints b' t =>
    simp only [Logs.step] at hst
    split at hst
    · cases hst; exact hx
    · cases hst
  | run e =>
    obtain ⟨r', hr, rfl⟩ := Option.map_eq_some_iff.1 hst
    cases e with
    | worker i c =>
      simp only [effect]
      split
      · exact hx
      · unfold Files.writeDiff
        simp only
        split <;> (simp only [say]; exact hx)
      · split
        · exact hx
        · exact List.mem_append_left _ hx
      · exact hx
    | proc i e =>
      cases e with
      | spawn ok =>
        simp only [effect]
        split
        · cases ok <;> simp [Files.handOver, say, hx]
        · exact hx
      | log ok =>
        cases ok with
        | true =>
          simp only [effect]
          split
          · rw [say]; exact hx
          · exact hx
        | false => exact hx
      | _ => exact hx
    | _ => exact hx

/-- C79: once an outcome is recorded, its log only grows by output of commands, if something that they started is still
writing. -/
theorem C79_recorded_log_is_final (cfg : Run.Config) (diff : Mutant → Text) (s s' : Logs.State) (h : Logs.Reachable cfg diff s)
    (es : List Logs.Event) (he : Logs.exec cfg diff s es = some s') (o : ScenarioOutcome) (b : Text)
    (hx : (o, b) ∈ s.files.recorded) (log : List Chunk) (hl : s.files.logs b = some log) :
    ∃ more, s'.files.logs b = some (log ++ more) ∧ messagesOf more = [] ∧ s'.files.diffs b = s.files.diffs b := by
  have hx' : (o, b) ∈ s'.files.recorded := by
    clear h hl
    induction es generalizing s with
    | nil => cases he; exact hx
    | cons e es ih =>
      obtain ⟨s1, h3, h4⟩ := Option.bind_eq_some_iff.1 he
      exact ih s1 h4 (recorded_step h3 hx)
  obtain ⟨more, h1, _⟩ := C79_only_appended cfg diff s s' h es he b log hl
  have hi := Logs.reachable_inv h
  have hi' := logs_exec_inv hi he
  obtain ⟨body, g1, g2, _, g4, _⟩ := hi.kept (o, b) hx
  obtain ⟨body', k1, k2, _, k4, _⟩ := hi'.kept (o, b) hx'
  refine ⟨more, h1, ?_, by rw [g4, k4]⟩
  rw [hl] at g1
  cases g1
  rw [h1] at k1
  simp only [Option.some.injEq, List.append_assoc] at k1
  have := List.append_cancel_left k1
  rw [← this, messagesOf_append, g2] at k2
  simpa using k2

/-- A command that has been started writes to the log of its thread. -/
def Given (s : Logs.State) : Prop :=
  ∀ i q, s.run.procs i = some q → q.pc ≠ .spawn → q.pc ≠ .done .spawnFailed →
    ∃ b, s.files.current i = some b ∧ b ∈ s.files.handles

theorem effect_grows (cfg : Run.Config) (diff : Mutant → Text) (r r' : Run.State) (f : Files) (e : Run.Event) :
    (∀ b ∈ f.handles, b ∈ (effect cfg diff r r' f e).handles) ∧
    ∀ j, (∀ c, e ≠ .worker j c) → (effect cfg diff r r' f e).current j = f.current j := by
  have say : ∀ (f : Files) i m, (f.say i m).handles = f.handles ∧ (f.say i m).current = f.current :=
    fun f i m => ⟨(say_frame f i m).2.2.2.2.1, (say_frame f i m).1⟩
  cases e with
  | worker i c =>
    refine ⟨?_, ?_⟩
    · intro b hb
      simp only [effect]
      split
      · exact hb
      · unfold Files.writeDiff
        simp only
        split <;> (simp only [say]; exact hb)
      · split <;> exact hb
      · exact hb
    · intro j hj
      have hj : j ≠ i := fun h => hj c (by rw [h])
      simp only [effect]
      split
      · simp [Files.create, Run.setAt, hj]
      · unfold Files.writeDiff
        simp only
        split <;> simp only [say]
      · split <;> rfl
      · rfl
  | proc i e =>
    cases e with
    | spawn ok =>
      simp only [effect]
      split
      · cases ok
        · simp [say]
        · refine ⟨fun b hb => ?_, fun j _ => by simp [Files.handOver, say]⟩
          simp only [Files.handOver, say, if_true]
          exact List.mem_append_left _ hb
      · exact ⟨fun _ h => h, fun _ _ => rfl⟩
    | log ok =>
      cases ok with
      | true =>
        simp only [effect]
        split
        · simp [say]
        · exact ⟨fun _ h => h, fun _ _ => rfl⟩
      | false => exact ⟨fun _ h => h, fun _ _ => rfl⟩
    | _ => exact ⟨fun _ h => h, fun _ _ => rfl⟩
  | _ => exact ⟨fun _ h => h, fun _ _ => rfl⟩

theorem Given.step {cfg diff s e s'} (hi : Logs.Inv cfg diff s) (h : Given s) (hst : Logs.step cfg diff s e = some s') : Given s' := by
  cases e with
  | prints b t =>
    simp only [Logs.step] at hst
    split at hst
    · cases hst; exact h
    · cases hst
  | run e =>
    obtain ⟨r', hr, rfl⟩ := Option.map_eq_some_iff.1 hst
    obtain ⟨g1, g2⟩ := effect_grows cfg diff s.run r' s.files e
    have keep : ∀ i q (q' : Proc.State), s.run.procs i = some q → (∀ c, e ≠ .worker i c) → q'.pc = q.pc → q'.pc ≠ .spawn → q'.pc ≠ .done .spawnFailed →
        ∃ b, (effect cfg diff s.run r' s.files e).current i = some b ∧ b ∈ (effect cfg diff s.run r' s.files e).handles := by
      intro i q q' h1 h2 h3 h4 h5
      rw [h3] at h4 h5
      obtain ⟨b, h6, h7⟩ := h i q h1 h4 h5
      exact ⟨b, by rw [g2 i h2]; exact h6, g1 b h7⟩
    intro i q' hq' h4 h5
    cases e with
    | tick n =>
      cases hr
      simp only at hq'
      obtain ⟨q, h1, h2⟩ := Option.bind_eq_some_iff.1 hq'
      cases h2
      exact keep i q _ h1 nofun rfl h4 h5
    | interrupt =>
      obtain ⟨l, _, rfl⟩ := Option.map_eq_some_iff.1 hr
      obtain ⟨q, h1, h2⟩ := Option.bind_eq_some_iff.1 hq'
      cases h2
      exact keep i q _ h1 nofun rfl h4 h5
    | childExits j st =>
      obtain ⟨q, hq, h1⟩ := Option.bind_eq_some_iff.1 hr
      obtain ⟨q1, hq1, rfl⟩ := Option.map_eq_some_iff.1 h1
      by_cases hj : i = j
      · subst hj
        simp only [Run.setAt, if_true, Option.some.injEq] at hq'
        subst hq'
        simp only [Proc.step] at hq1
        split at hq1 <;> cases hq1
        exact keep i q _ hq nofun rfl h4 h5
      · simp only [Run.setAt, if_neg hj] at hq'
        exact keep i q' q' hq' nofun rfl h4 h5
    | main ok =>
      have hp : r'.procs = s.run.procs := by
        simp only [CM.Run.step] at hr
        split at hr
        · obtain ⟨l, h1, rfl⟩ := Option.map_eq_some_iff.1 hr
          rfl
        · split at hr
          · obtain ⟨l, h1, rfl⟩ := Option.map_eq_some_iff.1 hr
            rfl
          · obtain ⟨l, h1, rfl⟩ := Option.map_eq_some_iff.1 hr
            rfl
      simp only [hp] at hq'
      exact keep i q' q' hq' nofun rfl h4 h5
    | worker j c =>
      simp only [CM.Run.step] at hr
      split at hr
      · cases hr
      obtain ⟨l, _, rfl⟩ := Option.map_eq_some_iff.1 hr
      by_cases hj : i = j
      · subst hj
        simp only [Run.setAt, if_true] at hq'
        unfold Run.started at hq'
        split at hq'
        · cases hq'
          exact absurd rfl h4
        · cases hq'
      · simp only [Run.setAt, if_neg hj] at hq'
        exact keep i q' q' hq' (fun c' h => hj (by cases h; rfl)) rfl h4 h5
    | proc j e =>
      simp only [CM.Run.step] at hr
      split at hr
      · obtain ⟨q, hq, h1⟩ := Option.bind_eq_some_iff.1 hr
        obtain ⟨q1, hq1, rfl⟩ := Option.map_eq_some_iff.1 h1
        by_cases hj : i = j
        · subst hj
          simp only [Run.setAt, if_true, Option.some.injEq] at hq'
          subst hq'
          by_cases hs : q.pc = .spawn
          · have hp := (Run.reachable_inv hi.run).procs i
            rw [hq] at hp
            obtain ⟨d, sc, p, todo, rs, hpc, _, _⟩ := hp.some
            obtain ⟨b, hb, _⟩ := hi.active i _ _ hpc rfl
            have hb' : (s.files.say i (quoteArgv (cfg.lab.argv sc p))).current i = some b := by rw [(say_frame ..).1]; exact hb
            cases e with
            | spawn ok =>
              cases ok with
              | true => exact ⟨b, by simp [effect, hpc, Files.handOver, hb'], by simp [effect, hpc, Files.handOver, hb']⟩
              | false =>
                simp only [Proc.step, hs] at hq1
                cases hq1
                exact absurd rfl h5
            | tick n => cases hq1; exact absurd hs h4
            | ctrlC => cases hq1; exact absurd hs h4
            | childExits st =>
              simp only [Proc.step] at hq1
              split at hq1 <;> cases hq1
              exact absurd hs h4
            | _ => simp [Proc.step, hs] at hq1
          · by_cases hsf : q.pc = .done .spawnFailed
            · exact absurd (Run.done_stays hq1 hsf) h5
            · obtain ⟨b, h6, h7⟩ := h i q hq hs hsf
              exact ⟨b, by rw [g2 i nofun]; exact h6, g1 b h7⟩
        · simp only [Run.setAt, if_neg hj] at hq'
          exact keep i q' q' hq' nofun rfl h4 h5
      · cases hr
    | leave j dur =>
      simp only [CM.Run.step] at hr
      obtain ⟨q, hq, h1⟩ := Option.bind_eq_some_iff.1 hr
      split at h1
      · split at h1
        · obtain ⟨l, _, rfl⟩ := Option.map_eq_some_iff.1 h1
          by_cases hj : i = j
          · subst hj
            simp [Run.setAt] at hq'
          · simp only [Run.setAt, if_neg hj] at hq'
            exact keep i q' q' hq' nofun rfl h4 h5
        · cases h1
      · cases h1

theorem reachable_given {cfg diff s} (h : Logs.Reachable cfg diff s) : Given s := by
  obtain ⟨es, h⟩ := h
  have key : ∀ (es : List Logs.Event) s s', Logs.Inv cfg diff s → Given s → Logs.exec cfg diff s es = some s' → Given s' := by
    intro es
    induction es with
    | nil => intro s s' _ h1 h2; cases h2; exact h1
    | cons e es ih =>
      intro s s' h0 h1 h2
      obtain ⟨s1, h3, h4⟩ := Option.bind_eq_some_iff.1 h2
      exact ih s1 s' (h0.step h3) (h1.step h0 h3) h4
  exact key es _ s (inv_init cfg diff) (by intro i q h; simp [Logs.init, Run.init] at h) h

/-- C79: while a command is running, the log already names it, after what came before; so the log that is left by a run
that was killed shows what was going on. The command has got this log, and other threads have other logs. -/
theorem C79_running_command_is_named (cfg : Run.Config) (diff : Mutant → Text) (s : Logs.State) (h : Logs.Reachable cfg diff s)
    (i : Nat) (d : Nat) (sc : Scenario) (p : Phase) (todo : List Phase) (rs : List PhaseResult)
    (hpc : s.run.lab.workers[i]? = some (.command d sc p todo rs)) (q : Proc.State) (hq : s.run.procs i = some q)
    (hspawn : q.pc ≠ .spawn) (hdone : ∀ r, q.pc ≠ .done r) :
    ∃ b log, s.files.current i = some b ∧ b ∈ s.files.handles ∧ s.files.logs b = some log ∧
      messagesOf log = logHeading diff sc ++ commands rs ++ [quoteArgv (cfg.lab.argv sc p)] ∧
      (∀ (j : Nat) d' sc' p' todo' rs', s.run.lab.workers[j]? = some (.command d' sc' p' todo' rs') → j ≠ i →
        s.files.current j ≠ some b) ∧
      ∀ o, (o, b) ∉ s.files.recorded := by
  have hi := Logs.reachable_inv h
  obtain ⟨b, h1, h2⟩ := reachable_given h i q hq hspawn (hdone _)
  obtain ⟨b', h3, ⟨body, h4, h5, _⟩, h6⟩ := hi.active i _ _ hpc rfl
  rw [h1] at h3
  cases h3
  refine ⟨b, _, h1, h2, h4, ?_, ?_, h6⟩
  · rw [messagesOf_append, h5, hq]
    simp only [intro_isMutant]
    have : messagesOf ((logHeading diff sc).map Chunk.said) = logHeading diff sc := by
      simp [messagesOf, List.filterMap_map, Function.comp_def]
    rw [this, ← List.append_assoc]
    congr 1
    simp only [pending]
    cases hqp : q.pc <;> first | rfl | exact absurd hqp hspawn | exact absurd hqp (hdone _)
  · intro j d' sc' p' todo' rs' hj hne hb
    exact hne (hi.apart j i _ _ _ _ hj rfl hpc rfl (by rw [hb, h1]))

/-- C79: the paths in `outcomes.json` are those of the log and of the diff that tell the outcome at that place. -/
theorem C79_paths_in_outcomes_json (cfg : Run.Config) (diff : Mutant → Text) (s : Logs.State) (h : Logs.Reachable cfg diff s)
    (seconds : Nat → Text) (hw : ∀ n, isNumber (seconds n) = true) (t : Text)
    (ht : outcomesJsonText (s.files.jsonWorld seconds) s.run.lab.sh.out.lab = some t) :
    ∃ r, readOutcomes t = some r ∧ r.outcomes.length = s.run.lab.sh.out.lab.outcomes.length ∧
      ∀ (k : Nat) o, s.run.lab.sh.out.lab.outcomes[k]? = some o → ∃ e b log, r.outcomes[k]? = some e ∧
        e.logPath = "log/".toList ++ b ++ ".log".toList ∧ s.files.logs b = some log ∧ Tells diff o log ∧
        (match o.scenario with
          | .baseline => e.diffPath = none
          | .mutant m => e.diffPath = some ("diff/".toList ++ b ++ ".diff".toList) ∧ s.files.diffs b = some (diff m)) := by
  obtain ⟨h1, _, h3⟩ := C79_log_tells_outcome cfg diff s h
  obtain ⟨r, r1, r2, r3, _⟩ := C74_outcomes_json (s.files.jsonWorld seconds) hw _ t ht
  refine ⟨r, r1, r2, fun k o ho => ?_⟩
  obtain ⟨e, e1, e2⟩ := r3 k o ho
  rw [← h1, List.getElem?_map, Option.map_eq_some_iff] at ho
  obtain ⟨⟨o', b⟩, hx, rfl⟩ := ho
  obtain ⟨⟨log, h4, h5⟩, h6⟩ := h3 o' b (List.mem_of_getElem? hx)
  refine ⟨e, b, log, e1, ?_, h4, h5, ?_⟩
  · rw [e2.logPath]
    simp [Files.jsonWorld, hx, logPath]
  · have := e2.diffPath
    simp only [Files.jsonWorld, hx, Option.bind_some, diffPath] at this
    simp only at h6 ⊢
    cases hs : o'.scenario with
    | baseline => simpa [hs, Scenario.isMutant] using this
    | mutant m => exact ⟨by simpa [hs, Scenario.isMutant] using this, by rw [h6, hs]; rfl⟩

namespace LogsSample

def diff : Mutant → Text := fun _ => "-a\n+b\n".toList

/-- The run of `RunSample`; the build of the baseline prints something, and the test of the mutant prints after it has
been killed. -/
def run : List Logs.Event :=
  (RunSample.run.take 8).map .run ++ [.prints "baseline".toList "Compiling".toList] ++ (RunSample.run.drop 8).map .run ++
    [.prints "src__lib.rs_line_1_col_18".toList "late".toList]

end LogsSample

example : (Logs.exec RunSample.cfg LogsSample.diff (Logs.init RunSample.cfg) LogsSample.run).map (fun s =>
    (s.files.recorded.map fun x => x.2, s.files.logs "baseline".toList)) =
    some (["baseline".toList, "src__lib.rs_line_1_col_18".toList],
      some [.said "baseline".toList, .said "cargo test --no-run --verbose --package=p@0.1.0".toList,
        .printed "Compiling".toList, .said "result: Success".toList,
        .said "cargo test --verbose --package=p@0.1.0".toList, .said "result: Success".toList]) := by
  decide +kernel

example : (Logs.exec RunSample.cfg LogsSample.diff (Logs.init RunSample.cfg) LogsSample.run).map (fun s =>
    (s.files.logs "src__lib.rs_line_1_col_18".toList, s.files.diffs "src__lib.rs_line_1_col_18".toList)) =
    some (some [.said "src/lib.rs:1:18: replace f -> bool with true".toList, .said "mutation diff:\n-a\n+b\n".toList,
        .said "cargo test --no-run --verbose --package=p@0.1.0".toList, .said "result: Success".toList,
        .said "cargo test --verbose --package=p@0.1.0".toList, .said "result: Timeout".toList,
        .printed "late".toList], some "-a\n+b\n".toList) := by
  decide +kernel

/-- The hypotheses of `C79_running_command_is_named` can be met. -/
example : (Logs.exec RunSample.cfg LogsSample.diff (Logs.init RunSample.cfg) ((RunSample.run.take 8).map .run)).map (fun s =>
    (s.run.lab.workers.map Lab.Pc.inCommand, (s.run.procs 0).map Proc.State.pc)) = some ([true], some .checkTime) := by
  decide +kernel

/-- A command that has not been started cannot write. -/
example : (Logs.exec RunSample.cfg LogsSample.diff (Logs.init RunSample.cfg) ((RunSample.run.take 7).map .run ++
    [.prints "baseline".toList "x".toList])).isNone = true := by decide +kernel

end CM.Props
