import Verif.Spec.Interrupt
import Verif.Props.PathSafe
import Verif.Props.Lab
import Verif.Props.Pipeline
/-! Property C87: ctrl-C before testing starts. -/
namespace CM.Props
open CM CM.Spec

/-! ### Nothing is left out -/

theorem walkTurn_step {env : WalkEnv} {pkg : Package} {flag : Bool} {s t : WalkState} (h : Intr.walkTurn env pkg flag s = some t) :
    walkStep env pkg s = some t := by
  unfold Intr.walkTurn at h
  cases hq : s.queue with
  | nil => rw [hq] at h; unfold walkStep; rw [hq]; exact h
  | cons x rest =>
    obtain ⟨path, top⟩ := x
    rw [hq] at h
    dsimp only at h
    cases hl : loadSource env.read env.root path pkg top with
    | none => rw [hl] at h; cases h
    | some r =>
      rw [hl] at h
      cases r with
      | none =>
        cases h
        unfold walkStep
        rw [hq]
        have : walkOne env pkg path top = some none := by unfold walkOne; rw [hl]; rfl
        dsimp only
        rw [this]
      | some sf =>
        dsimp only at h
        split at h
        · cases h
        · exact h

theorem walkTurn_false (env : WalkEnv) (pkg : Package) (s : WalkState) : Intr.walkTurn env pkg false s = walkStep env pkg s := by
  unfold Intr.walkTurn
  cases hq : s.queue with
  | nil => unfold walkStep; rw [hq]
  | cons x rest =>
    obtain ⟨path, top⟩ := x
    dsimp only
    cases hl : loadSource env.read env.root path pkg top with
    | none =>
      unfold walkStep
      rw [hq]
      have : walkOne env pkg path top = none := by unfold walkOne; rw [hl]; rfl
      dsimp only
      rw [this]
    | some r =>
      cases r with
      | none =>
        unfold walkStep
        rw [hq]
        have : walkOne env pkg path top = some none := by unfold walkOne; rw [hl]; rfl
        dsimp only
        rw [this]
      | some sf => rfl

theorem walkSteps_snoc (env : WalkEnv) (pkg : Package) : ∀ (n : Nat) (s t u : WalkState), walkSteps env pkg n s = some t →
    walkStep env pkg t = some u → walkSteps env pkg (n + 1) s = some u
  | 0, s, t, u, h, hu => by cases h; show (walkStep env pkg s).bind _ = _; rw [hu]; rfl
  | n + 1, s, t, u, h, hu => by
    have h : (walkStep env pkg s).bind (fun x => walkSteps env pkg n x) = some t := h
    obtain ⟨x, hx, h⟩ := Option.bind_eq_some_iff.1 h
    show (walkStep env pkg s).bind (fun x => walkSteps env pkg (n + 1) x) = some u
    rw [hx]
    exact walkSteps_snoc env pkg n x t u h hu

theorem walksTree_snoc {env : WalkEnv} {pkgs : List Package} {ms fs} (h : WalksTree env pkgs ms fs) {pkg : Package} {ms' fs'}
    (h' : WalksPackage env pkg ms' fs') : WalksTree env (pkgs ++ [pkg]) (ms ++ ms') (fs ++ fs') := by
  induction h with
  | nil =>
    have := WalksTree.cons h' (WalksTree.nil (env := env))
    simpa using this
  | cons h1 _ ih =>
    have := WalksTree.cons h1 ih
    simpa using this

/-- What has been done so far, as without interrupts. -/
def IntrOk (w : World) (a : MainArgs) : Intr.Pc → Prop
  | .walking o exprs pkg walk pkgs ms fs =>
    Options.new w.regex a.options w.config = some o ∧ parsedErrorExprs w.parseExpr o.errorValues = some exprs ∧
    ∃ before, selectedPackages (Workspace.open w.metadata) a.mutatePackages a.workspace w.located = some (before ++ pkg :: pkgs) ∧
      WalksTree (w.walkEnv o exprs) before ms fs ∧
      ∃ n, walkSteps (w.walkEnv o exprs) pkg n (walkStart pkg) = some walk
  | .found ms fs => Discovers w a ms fs
  | .waiting act => Runs w a act
  | .acts act => Runs w a act
  | _ => True

theorem intrOk_next {w : World} {a : MainArgs} {o exprs before pkgs ms fs}
    (h1 : Options.new w.regex a.options w.config = some o) (h2 : parsedErrorExprs w.parseExpr o.errorValues = some exprs)
    (h3 : selectedPackages (Workspace.open w.metadata) a.mutatePackages a.workspace w.located = some (before ++ pkgs))
    (h4 : WalksTree (w.walkEnv o exprs) before ms fs) : IntrOk w a (Intr.nextPackage o exprs pkgs ms fs) := by
  cases pkgs with
  | nil => exact ⟨o, before, exprs, h1, by simpa using h3, h2, h4⟩
  | cons pkg pkgs => exact ⟨h1, h2, before, h3, h4, 0, rfl⟩

theorem intrOk_go {w : World} {a : MainArgs} {flag : Bool} {pc pc' : Intr.Pc} (hok : IntrOk w a pc) (h : pc.go w a flag = some pc') :
    IntrOk w a pc' := by
  cases pc with
  | opening => cases h; cases flag <;> trivial
  | starting =>
    unfold Intr.Pc.go at h
    dsimp only at h
    split at h
    · rename_i o pkgs ho hp
      split at h
      · rename_i exprs he
        cases h
        exact intrOk_next (before := []) ho he hp .nil
      · cases h; trivial
    · cases h; trivial
  | walking o exprs pkg walk pkgs ms fs =>
    obtain ⟨h1, h2, before, h3, h4, n, h5⟩ := hok
    unfold Intr.Pc.go at h
    dsimp only at h
    split at h
    · rename_i hq
      cases h
      refine intrOk_next (before := before ++ [pkg]) h1 h2 (by simpa using h3) (walksTree_snoc h4 ⟨n, walk, h5, hq, rfl, rfl⟩)
    · split at h
      · rename_i walk' hw
        cases h
        exact ⟨h1, h2, before, h3, h4, n + 1, walkSteps_snoc _ _ _ _ _ _ h5 (walkTurn_step hw)⟩
      · cases h; trivial
  | found ms fs =>
    unfold Intr.Pc.go at h
    dsimp only at h
    split at h
    · rename_i hd; cases h; exact ⟨ms, fs, hok, hd⟩
    · rename_i hd; cases h; exact ⟨ms, fs, hok, hd⟩
    · cases h; trivial
  | waiting act => cases h; exact hok
  | acts act => cases h
  | failed => cases h

theorem intrOk_step {w : World} {a : MainArgs} {s t : Intr.State} {e : Intr.Event} (hok : IntrOk w a s.pc)
    (h : Intr.step w a s e = some t) : IntrOk w a t.pc := by
  cases e with
  | ctrlC => cases h; exact hok
  | go =>
    obtain ⟨pc, hpc, rfl⟩ := Option.map_eq_some_iff.1 h
    exact intrOk_go hok hpc
  | lockBusy =>
    unfold Intr.step at h
    dsimp only at h
    split at h
    · rename_i act hpc
      cases h
      rw [hpc] at hok
      cases s.interrupted <;> first | exact hok | trivial
    · cases h

/-- **C87**: whenever ctrl-C is pressed, a run that comes to testing or listing does so with just the files and mutants that it has
without: nothing is left out. -/
theorem C87_same_or_error (w : World) (a : MainArgs) (es : List Intr.Event) (s : Intr.State)
    (h : Intr.exec w a {} es = some s) (act : Action) (hs : s.pc = .acts act) : Runs w a act := by
  have key : ∀ (es : List Intr.Event) (s t : Intr.State), IntrOk w a s.pc → Intr.exec w a s es = some t → IntrOk w a t.pc := by
    intro es
    induction es with
    | nil => intro s t hok h; cases h; exact hok
    | cons e es ih =>
      intro s t hok h
      obtain ⟨u, hu, h⟩ := Option.bind_eq_some_iff.1 h
      exact ih u t (intrOk_step hok hu) h
  have := key es {} s trivial h
  rw [hs] at this
  exact this

theorem exec_append_intr (w : World) (a : MainArgs) : ∀ (es es' : List Intr.Event) (s : Intr.State),
    Intr.exec w a s (es ++ es') = (Intr.exec w a s es).bind fun t => Intr.exec w a t es'
  | [], _, _ => rfl
  | e :: es, es', s => by
    show (Intr.step w a s e).bind _ = ((Intr.step w a s e).bind _).bind _
    cases Intr.step w a s e with
    | none => rfl
    | some t => exact exec_append_intr w a es es' t

theorem go_walks (w : World) (a : MainArgs) (o exprs pkg pkgs ms fs) : ∀ (n : Nat) (walk walk' : WalkState),
    walkSteps (w.walkEnv o exprs) pkg n walk = some walk' → walk'.queue = [] →
    ∃ k, Intr.exec w a { pc := .walking o exprs pkg walk pkgs ms fs } (List.replicate k .go) =
      some { pc := Intr.nextPackage o exprs pkgs (ms ++ walk'.mutants) (fs ++ walk'.files) }
  | 0, walk, walk', h, hq => by
    cases h
    refine ⟨1, ?_⟩
    show (Option.map _ (if walk.queue = [] then _ else _)).bind _ = _
    rw [if_pos hq]
    rfl
  | n + 1, walk, walk', h, hq => by
    have h : (walkStep (w.walkEnv o exprs) pkg walk).bind (fun x => walkSteps (w.walkEnv o exprs) pkg n x) = some walk' := h
    obtain ⟨x, hx, h⟩ := Option.bind_eq_some_iff.1 h
    obtain ⟨k, hk⟩ := go_walks w a o exprs pkg pkgs ms fs n x walk' h hq
    by_cases he : walk.queue = []
    · have : x = walk := by
        unfold walkStep at hx
        rw [he] at hx
        cases hx; rfl
      exact ⟨k, this ▸ hk⟩
    · refine ⟨k + 1, ?_⟩
      show (Option.map _ (if walk.queue = [] then _ else _)).bind _ = _
      rw [if_neg he, walkTurn_false, hx]
      exact hk

theorem go_tree (w : World) (a : MainArgs) (o exprs) {pkgs ms' fs'} (h : WalksTree (w.walkEnv o exprs) pkgs ms' fs') :
    ∀ ms fs, ∃ k, Intr.exec w a { pc := Intr.nextPackage o exprs pkgs ms fs } (List.replicate k .go) =
      some { pc := .found (ms ++ ms') (fs ++ fs') } := by
  induction h with
  | nil => intro ms fs; exact ⟨0, by simp [Intr.exec, Intr.nextPackage]⟩
  | cons h1 _ ih =>
    intro ms fs
    obtain ⟨n, s, h1, h2, rfl, rfl⟩ := h1
    obtain ⟨k, hk⟩ := go_walks w a o exprs _ _ ms fs n _ _ h1 h2
    obtain ⟨k', hk'⟩ := ih (ms ++ s.mutants) (fs ++ s.files)
    refine ⟨k + k', ?_⟩
    rw [← List.replicate_append_replicate, exec_append_intr]
    refine (congrArg (fun x => Option.bind x _) hk).trans ?_
    simpa using hk'

/-- **C87**: and without ctrl-C it comes to what the run does. -/
theorem C87_uninterrupted (w : World) (a : MainArgs) (act : Action) (h : Runs w a act) :
    ∃ k, Intr.exec w a {} (List.replicate k .go) = some { pc := .acts act } := by
  obtain ⟨ms, fs, ⟨o, pkgs, exprs, h1, h2, h3, h4⟩, h5⟩ := h
  obtain ⟨k, hk⟩ := go_tree w a o exprs h4 [] []
  have hstart : Intr.exec w a {} (List.replicate 2 .go) = some { pc := Intr.nextPackage o exprs pkgs [] [] } := by
    simp [Intr.exec, Intr.step, Intr.Pc.go, h1, h2, h3, List.replicate]
  have hend : ∃ k, Intr.exec w a { pc := .found ms fs } (List.replicate k .go) = some { pc := .acts act } := by
    cases act with
    | test out ms' => exact ⟨2, by simp [Intr.exec, Intr.step, Intr.Pc.go, h5, List.replicate]⟩
    | _ => exact ⟨1, by simp [Intr.exec, Intr.step, Intr.Pc.go, h5, List.replicate]⟩
  obtain ⟨k', hk'⟩ := hend
  refine ⟨2 + (k + k'), ?_⟩
  rw [← List.replicate_append_replicate, exec_append_intr, hstart]
  show Intr.exec w a _ (List.replicate (k + k') .go) = _
  rw [← List.replicate_append_replicate, exec_append_intr]
  refine (congrArg (fun x => Option.bind x _) hk).trans ?_
  simpa using hk'

/-! ### It stops -/

theorem walkTurn_interrupted {env : WalkEnv} {pkg : Package} {s t : WalkState} (h : Intr.walkTurn env pkg true s = some t) (hq : s.queue ≠ []) :
    ∃ x rest, s.queue = x :: rest ∧ 0 < ascent x.1 ∧ t = { s with queue := rest } := by
  unfold Intr.walkTurn at h
  cases hs : s.queue with
  | nil => exact (hq hs).elim
  | cons x rest =>
    obtain ⟨path, top⟩ := x
    rw [hs] at h
    dsimp only at h
    cases hl : loadSource env.read env.root path pkg top with
    | none => rw [hl] at h; cases h
    | some r =>
      rw [hl] at h
      cases r with
      | none =>
        cases h
        refine ⟨_, _, rfl, ?_, rfl⟩
        unfold loadSource at hl
        split at hl
        · rename_i hp; exact hp
        · cases hr : env.read (joinPath env.root path) <;> rw [hr] at hl <;> cases hl
      | some sf => cases h

theorem listText_parse (w : World) (parse : Text → Option SynFile) (lineCol diff : Bool) : ∀ ms : List Mutant,
    listMutantsText { w with parseFile := parse } lineCol diff ms = listMutantsText w lineCol diff ms
  | [] => rfl
  | m :: ms => by
    unfold listMutantsText
    rw [listText_parse w parse lineCol diff ms]

theorem afterDiscovery_parse (w : World) (parse : Text → Option SynFile) (a : MainArgs) (ms : List Mutant) (fs : List SourceFile) :
    afterDiscovery { w with parseFile := parse } a ms fs = afterDiscovery w a ms fs := by
  unfold afterDiscovery
  simp only [listText_parse]
  rfl

/-- **C87**: after ctrl-C no source file is parsed: what happens does not depend on the parser. -/
theorem C87_nothing_parsed (w : World) (a : MainArgs) (parse : Text → Option SynFile) (es : List Intr.Event) (s : Intr.State)
    (hs : s.interrupted = true) : Intr.exec { w with parseFile := parse } a s es = Intr.exec w a s es := by
  have hgo : ∀ pc : Intr.Pc, pc.go { w with parseFile := parse } a true = pc.go w a true := by
    intro pc
    cases pc with
    | walking o exprs pkg walk pkgs ms fs =>
      have : Intr.walkTurn (World.walkEnv { w with parseFile := parse } o exprs) pkg true walk =
          Intr.walkTurn (w.walkEnv o exprs) pkg true walk := by
        unfold Intr.walkTurn
        cases walk.queue with
        | nil => rfl
        | cons x rest =>
          obtain ⟨path, top⟩ := x
          show (match loadSource w.read w.root path pkg top with | none => _ | some none => _ | some (some _) => _) =
            (match loadSource w.read w.root path pkg top with | none => _ | some none => _ | some (some _) => _)
          cases loadSource w.read w.root path pkg top with
          | none => rfl
          | some r => cases r <;> rfl
      unfold Intr.Pc.go
      dsimp only
      rw [this]
    | found ms fs =>
      unfold Intr.Pc.go
      dsimp only
      rw [afterDiscovery_parse]
    | _ => rfl
  induction es generalizing s with
  | nil => rfl
  | cons e es ih =>
    have h1 : Intr.step { w with parseFile := parse } a s e = Intr.step w a s e := by
      cases e with
      | go => unfold Intr.step; dsimp only; rw [hs, hgo]
      | _ => rfl
    show (Intr.step _ a s e).bind _ = (Intr.step w a s e).bind _
    rw [h1]
    cases ht : Intr.step w a s e with
    | none => rfl
    | some t =>
      refine ih t ?_
      cases e with
      | ctrlC => cases ht; rfl
      | go => obtain ⟨pc, _, rfl⟩ := Option.map_eq_some_iff.1 ht; exact hs
      | lockBusy =>
        unfold Intr.step at ht
        dsimp only at ht
        split at ht <;> cases ht
        exact hs

theorem intr_keeps {w : World} {a : MainArgs} {s t : Intr.State} {e : Intr.Event} (hs : s.interrupted = true) (ht : Intr.step w a s e = some t) :
    t.interrupted = true := by
  cases e with
  | ctrlC => cases ht; rfl
  | go => obtain ⟨pc, _, rfl⟩ := Option.map_eq_some_iff.1 ht; exact hs
  | lockBusy =>
    unfold Intr.step at ht
    dsimp only at ht
    split at ht <;> cases ht
    exact hs

/-- How many steps there can be after an interrupt. -/
def intrLeft : Intr.Pc → Nat
  | .opening => 1
  | .starting => 0
  | .walking _ _ _ walk pkgs _ _ => walk.queue.length + (pkgs.map fun p => p.topSources.length + 1).sum + 4
  | .found _ _ => 3
  | .waiting _ => 1
  | .acts _ => 0
  | .failed => 0

theorem intrLeft_next (o exprs pkgs ms fs) :
    intrLeft (Intr.nextPackage o exprs pkgs ms fs) ≤ (pkgs.map fun p : Package => p.topSources.length + 1).sum + 3 := by
  cases pkgs with
  | nil => exact Nat.le_refl _
  | cons pkg pkgs =>
    show (walkStart pkg).queue.length + _ + 4 ≤ _
    simp [walkStart]
    omega

theorem intrLeft_go {w : World} {a : MainArgs} {pc pc' : Intr.Pc} (hne : pc ≠ .starting) (h : pc.go w a true = some pc') :
    intrLeft pc' < intrLeft pc ∧ pc' ≠ .starting := by
  have hnext : ∀ o exprs pkgs ms fs, Intr.nextPackage o exprs pkgs ms fs ≠ .starting := by
    intro o exprs pkgs ms fs h; cases pkgs <;> cases h
  cases pc with
  | opening => cases h; exact ⟨Nat.zero_lt_one, fun h => by cases h⟩
  | starting => exact (hne rfl).elim
  | walking o exprs pkg walk pkgs ms fs =>
    unfold Intr.Pc.go at h
    dsimp only at h
    split at h
    · rename_i hq
      cases h
      refine ⟨?_, hnext _ _ _ _ _⟩
      have := intrLeft_next o exprs pkgs (ms ++ walk.mutants) (fs ++ walk.files)
      show _ < walk.queue.length + _ + 4
      omega
    · rename_i hq
      split at h
      · rename_i walk' hw
        cases h
        obtain ⟨x, rest, hx, _, rfl⟩ := walkTurn_interrupted hw hq
        refine ⟨?_, fun h => by cases h⟩
        show rest.length + _ + 4 < walk.queue.length + _ + 4
        rw [hx]
        simp
      · cases h
        refine ⟨?_, fun h => by cases h⟩
        show 0 < _ + 4
        omega
  | found ms fs =>
    unfold Intr.Pc.go at h
    dsimp only at h
    split at h <;> cases h <;> exact ⟨by simp [intrLeft], fun h => by cases h⟩
  | waiting act => cases h; exact ⟨by simp [intrLeft], fun h => by cases h⟩
  | acts act => cases h
  | failed => cases h

theorem intr_bound (w : World) (a : MainArgs) : ∀ (es : List Intr.Event) (s t : Intr.State), s.interrupted = true → s.pc ≠ .starting →
    Intr.exec w a s es = some t → es.countP ofProgram ≤ intrLeft s.pc
  | [], _, _, _, _, _ => Nat.zero_le _
  | e :: es, s, t, hs, hne, h => by
    obtain ⟨u, hu, h⟩ := Option.bind_eq_some_iff.1 h
    have hk := intr_keeps hs hu
    have key : (ofProgram e = true → intrLeft u.pc < intrLeft s.pc) ∧ (ofProgram e = false → u.pc = s.pc) ∧ u.pc ≠ .starting := by
      cases e with
      | ctrlC => cases hu; exact ⟨(fun h => by cases h), fun _ => rfl, hne⟩
      | go =>
        obtain ⟨pc, hpc, rfl⟩ := Option.map_eq_some_iff.1 hu
        rw [hs] at hpc
        obtain ⟨h1, h2⟩ := intrLeft_go hne hpc
        exact ⟨fun _ => h1, (fun h => by cases h), h2⟩
      | lockBusy =>
        unfold Intr.step at hu
        dsimp only at hu
        split at hu
        · rename_i act hpc
          cases hu
          rw [hpc]
          simp only [hs, if_true]
          exact ⟨(fun _ => by simp [intrLeft]), (fun h => by cases h), fun h => by cases h⟩
        · cases hu
    have ih := intr_bound w a es u t hk key.2.2 h
    rw [List.countP_cons]
    cases he : ofProgram e with
    | true => have := key.1 he; simp; omega
    | false => rw [key.2.1 he] at ih; simpa using ih

/-- **C87**: after ctrl-C, only so many more steps are made before the program fails, prints its list, or comes to testing; however
long it would go on without (even for ever, `C45_cycle_false`). -/
theorem C87_stops (w : World) (a : MainArgs) (s : Intr.State) (hs : s.interrupted = true) :
    ∃ n, ∀ es t, Intr.exec w a s es = some t → es.countP ofProgram ≤ n := by
  by_cases hne : s.pc = .starting
  · cases hgo : s.pc.go w a true with
    | none =>
      rw [hne] at hgo
      unfold Intr.Pc.go at hgo
      dsimp only at hgo
      split at hgo
      · split at hgo <;> cases hgo
      · cases hgo
    | some pc =>
      refine ⟨intrLeft pc + 1, ?_⟩
      have hpc : pc ≠ .starting := by
        rw [hne] at hgo
        unfold Intr.Pc.go at hgo
        dsimp only at hgo
        split at hgo
        · rename_i o pkgs _ _
          split at hgo <;> cases hgo
          · cases pkgs <;> exact fun h => by cases h
          · exact fun h => by cases h
        · cases hgo; exact fun h => by cases h
      intro es
      have : ∀ (es : List Intr.Event) (s t : Intr.State), s.interrupted = true → s.pc = .starting →
          Intr.exec w a s es = some t → es.countP ofProgram ≤ intrLeft pc + 1 := by
        intro es
        induction es with
        | nil => intro _ _ _ _ _; exact Nat.zero_le _
        | cons e es ih =>
          intro s t hs hst h
          obtain ⟨u, hu, h⟩ := Option.bind_eq_some_iff.1 h
          cases e with
          | ctrlC =>
            cases hu
            have := ih { s with interrupted := true } t rfl hst h
            simpa [ofProgram] using this
          | go =>
            obtain ⟨pc', hpc', rfl⟩ := Option.map_eq_some_iff.1 hu
            rw [hs, hst] at hpc'
            rw [hne] at hgo
            rw [hgo] at hpc'
            cases hpc'
            have := intr_bound w a es { s with pc := pc } t hs hpc h
            rw [List.countP_cons]
            simp [ofProgram]
            exact this
          | lockBusy =>
            unfold Intr.step at hu
            rw [hst] at hu
            cases hu
      exact fun t h => this es s t hs hne h
  · exact ⟨_, fun es t h => intr_bound w a es s t hs hne h⟩

theorem intr_failed (w : World) (a : MainArgs) : ∀ (es : List Intr.Event) (u t : Intr.State), u.pc = .failed →
    Intr.exec w a u es = some t → t.pc = .failed
  | [], _, _, hu, h => by cases h; exact hu
  | e :: es, u, t, hu, h => by
    obtain ⟨v, hv, h⟩ := Option.bind_eq_some_iff.1 h
    cases e with
    | ctrlC => cases hv; exact intr_failed w a es { u with interrupted := true } t hu h
    | go =>
      obtain ⟨pc, hpc, rfl⟩ := Option.map_eq_some_iff.1 hv
      rw [hu] at hpc; cases hpc
    | lockBusy => unfold Intr.step at hv; rw [hu] at hv; cases hv

theorem intr_error (w : World) (a : MainArgs) : ∀ (es : List Intr.Event) (s t : Intr.State),
    s.interrupted = true → FileAhead w a s.pc → Intr.exec w a s es = some t → FileAhead w a t.pc ∨ t.pc = .failed
  | [], _, _, _, hf, h => by cases h; exact .inl hf
  | e :: es, s, t, hs, hf, h => by
    obtain ⟨u, hu, h⟩ := Option.bind_eq_some_iff.1 h
    have hk := intr_keeps hs hu
    have key : FileAhead w a u.pc ∨ u.pc = .failed := by
      cases e with
      | ctrlC => cases hu; exact .inl hf
      | go =>
        obtain ⟨pc, hpc, rfl⟩ := Option.map_eq_some_iff.1 hu
        rw [hs] at hpc
        have hnext : ∀ o exprs pkgs ms fs, (∃ pkg ∈ pkgs, ∃ p ∈ pkg.topSources, StaysInTree p) →
            FileAhead w a (Intr.nextPackage o exprs pkgs ms fs) := by
          rintro o exprs pkgs ms fs ⟨pkg, hp, p, hpp, hin⟩
          cases pkgs with
          | nil => cases hp
          | cons q qs =>
            rcases List.mem_cons.1 hp with rfl | hp
            · exact .inl ⟨(p, true), List.mem_map.2 ⟨p, hpp, rfl⟩, hin⟩
            · exact .inr ⟨pkg, hp, p, hpp, hin⟩
        cases hpcs : s.pc with
        | opening => rw [hpcs] at hpc; cases hpc; exact .inr rfl
        | starting =>
          rw [hpcs] at hpc hf
          obtain ⟨pkgs, hsel, hfile⟩ := hf
          unfold Intr.Pc.go at hpc
          dsimp only at hpc
          split at hpc
          · rename_i o pkgs' _ hp
            rw [hsel] at hp
            cases hp
            split at hpc <;> cases hpc
            · exact .inl (hnext _ _ _ _ _ hfile)
            · exact .inr rfl
          · cases hpc; exact .inr rfl
        | walking o exprs pkg walk pkgs ms fs =>
          rw [hpcs] at hpc hf
          unfold Intr.Pc.go at hpc
          dsimp only at hpc
          split at hpc
          · rename_i hq
            cases hpc
            rcases hf with ⟨x, hx, _⟩ | hf
            · rw [hq] at hx; cases hx
            · exact .inl (hnext _ _ _ _ _ hf)
          · rename_i hq
            split at hpc
            · rename_i walk' hw
              cases hpc
              obtain ⟨x, rest, hx, hasc, rfl⟩ := walkTurn_interrupted hw hq
              rcases hf with ⟨y, hy, hin⟩ | hf
              · rw [hx] at hy
                rcases List.mem_cons.1 hy with rfl | hy
                · have : ascent y.1 ≤ 0 := (C44_check_is_exact y.1 [[]] (by simp)).2 (hin _ (by simp))
                  omega
                · exact .inl (.inl ⟨y, hy, hin⟩)
              · exact .inl (.inr hf)
            · cases hpc; exact .inr rfl
        | _ => rw [hpcs] at hf; exact hf.elim
      | lockBusy =>
        unfold Intr.step at hu
        dsimp only at hu
        split at hu
        · rename_i act hpc
          rw [hpc] at hf
          exact hf.elim
        · cases hu
    rcases key with key | key
    · exact intr_error w a es u t hk key h
    · exact .inr (intr_failed w a es u t key h)

/-- **C87**: if a source file in the tree is still to be looked at, ctrl-C makes the run fail: it neither tests nor lists. -/
theorem C87_error (w : World) (a : MainArgs) (s t : Intr.State) (es : List Intr.Event)
    (hs : s.interrupted = true) (hf : FileAhead w a s.pc) (h : Intr.exec w a s es = some t) :
    (∀ act, t.pc ≠ .acts act) ∧ (t.pc.go w a true = none → t.pc = .failed) := by
  rcases intr_error w a es s t hs hf h with h | h
  · refine ⟨fun act hact => by rw [hact] at h; exact h, fun hgo => ?_⟩
    cases hpc : t.pc with
    | opening => rw [hpc] at hgo; cases hgo
    | starting =>
      rw [hpc] at hgo
      unfold Intr.Pc.go at hgo
      dsimp only at hgo
      split at hgo
      · split at hgo <;> cases hgo
      · cases hgo
    | walking o exprs pkg walk pkgs ms fs =>
      rw [hpc] at hgo
      unfold Intr.Pc.go at hgo
      dsimp only at hgo
      split at hgo
      · cases hgo
      · split at hgo <;> cases hgo
    | failed => rfl
    | _ => rw [hpc] at h; exact h.elim
  · exact ⟨fun act hact => (by rw [h] at hact; cases hact), fun _ => h⟩

/-- **C87**: waiting for the lock of the output directory ends with ctrl-C. -/
theorem C87_lock (w : World) (a : MainArgs) (s : Intr.State) (act : Action) (hs : s.interrupted = true) (hp : s.pc = .waiting act) :
    Intr.step w a s .lockBusy = some { s with pc := .failed } := by
  unfold Intr.step
  rw [hp]
  simp [hs]

/-! ### Copying -/

theorem copyLoop_spec (pressed : Nat → Bool) : ∀ (es : List (Path × Copy.Kind)) (i : Nat) (d : Copy.Dest),
    (∀ d', (Intr.copyLoop pressed i d es).1 = some d' →
      Copy.copyEntries d es = some d' ∧ (Intr.copyLoop pressed i d es).2 = d' ∧ ∀ k, k < es.length → pressed (i + k) = false) ∧
    ((Intr.copyLoop pressed i d es).1 = none → ∃ k, k ≤ es.length ∧ Copy.copyEntries d (es.take k) = some (Intr.copyLoop pressed i d es).2 ∧
      ∀ j, j < k → pressed (i + j) = false)
  | [], i, d => by
    refine ⟨fun d' h => ?_, fun h => by cases h⟩
    cases h
    exact ⟨rfl, rfl, fun k hk => by cases hk⟩
  | e :: es, i, d => by
    cases hp : pressed i with
    | true =>
      have heq : Intr.copyLoop pressed i d (e :: es) = (none, d) := by unfold Intr.copyLoop; rw [if_pos hp]
      rw [heq]
      exact ⟨(fun d' h => by cases h), fun _ => ⟨0, Nat.zero_le _, rfl, fun j hj => by cases hj⟩⟩
    | false =>
      cases hc : Copy.copyEntry d e with
      | none =>
        have heq : Intr.copyLoop pressed i d (e :: es) = (none, d) := by
          unfold Intr.copyLoop; rw [if_neg (by simp [hp]), hc]
        rw [heq]
        exact ⟨(fun d' h => by cases h), fun _ => ⟨0, Nat.zero_le _, rfl, fun j hj => by cases hj⟩⟩
      | some d1 =>
        have heq : Intr.copyLoop pressed i d (e :: es) = Intr.copyLoop pressed (i + 1) d1 es := by
          conv => lhs; unfold Intr.copyLoop
          rw [if_neg (by simp [hp]), hc]
        obtain ⟨h1, h2⟩ := copyLoop_spec pressed es (i + 1) d1
        have hall : ∀ (n : Nat), (∀ k, k < n → pressed (i + 1 + k) = false) → ∀ k, k < n + 1 → pressed (i + k) = false := by
          intro n h k hk
          cases k with
          | zero => exact hp
          | succ k => have := h k (by omega); rwa [show i + 1 + k = i + (k + 1) by omega] at this
        rw [heq]
        refine ⟨fun d' h => ?_, fun h => ?_⟩
        · obtain ⟨a, b, c⟩ := h1 d' h
          refine ⟨?_, b, hall _ c⟩
          show (Copy.copyEntry d e).bind _ = _
          rw [hc]; exact a
        · obtain ⟨k, a, b, c⟩ := h2 h
          refine ⟨k + 1, by simpa using a, ?_, hall _ c⟩
          show (Copy.copyEntry d e).bind _ = _
          rw [hc]; exact b

/-- **C87**: a copy of the tree that is used is complete: copying succeeded only if ctrl-C had not been pressed before the last entry;
otherwise it is an error, and nothing was copied after it was pressed. -/
theorem C87_copy (pressed : Nat → Bool) (hmono : ∀ i j, i ≤ j → pressed i = true → pressed j = true) (o : Options)
    (ignored : Path → Bool → Bool) (source : Copy.Tree) :
    (∀ d, (Intr.copyTree pressed o ignored source).1 = some d → Copy.copyTree o ignored source = some d) ∧
    ∀ i, pressed i = true → i < (Copy.walkTree (Copy.keepEntry o ignored) [] source).length →
      (Intr.copyTree pressed o ignored source).1 = none ∧
      ∃ k, k ≤ i ∧ Copy.copyEntries .empty ((Copy.walkTree (Copy.keepEntry o ignored) [] source).take k) =
        some (Intr.copyTree pressed o ignored source).2 := by
  obtain ⟨h1, h2⟩ := copyLoop_spec pressed (Copy.walkTree (Copy.keepEntry o ignored) [] source) 0 .empty
  refine ⟨fun d h => (h1 d h).1, fun i hp hi => ?_⟩
  cases hr : (Intr.copyTree pressed o ignored source).1 with
  | some d =>
    have := (h1 d hr).2.2 i hi
    rw [Nat.zero_add, hp] at this
    cases this
  | none =>
    refine ⟨rfl, ?_⟩
    obtain ⟨k, hk, he, hj⟩ := h2 hr
    refine ⟨k, ?_, he⟩
    by_cases hlt : i < k
    · have := hj i hlt
      rw [Nat.zero_add, hp] at this
      cases this
    · omega

/-! ### Testing -/

/-- **C87**: if ctrl-C was pressed before testing starts, testing records nothing, and it fails unless there are no mutants. -/
theorem C87_testing (cfg : Lab.Config) (es : List Lab.Event) (s : Lab.State)
    (h : Lab.exec cfg (Lab.init cfg) (.interrupt :: es) = some s) :
    s.sh.out.lab.outcomes = [] ∧ ∀ l, s.main = .returned (some l) → cfg.mutants = [] := by
  obtain ⟨s1, h1, h⟩ := Option.bind_eq_some_iff.1 h
  have hr : Lab.Reachable cfg s1 := ⟨[.interrupt], by show (Lab.step cfg _ _).bind _ = _; rw [h1]; rfl⟩
  cases h1
  refine ⟨?_, ?_⟩
  · obtain ⟨⟨new, hn, hall⟩, _⟩ := C27_nothing_new_recorded cfg _ s es rfl h
    cases new with
    | nil => exact hn
    | cons o os => obtain ⟨pc, hpc, _⟩ := hall o (by simp); cases hpc
  · intro l hl
    rcases C27_error_unless_complete cfg _ s es hr rfl h l hl with ⟨l, hm⟩ | ⟨_, hq | ⟨hm, _⟩⟩
    · cases hm
    · exact hq
    · cases hm

/-! ### Examples -/

/-- How a run ends: with an error, or by testing so many mutants. -/
def intrEnds (es : List Intr.Event) : Option (Option Nat) :=
  (Intr.exec sampleWorld sampleRun {} es).bind fun s =>
    match s.pc with
    | .failed => some none
    | .acts (.test _ ms) => some (some ms.length)
    | _ => none

/-- Without ctrl-C, two mutants are tested. -/
example : intrEnds (List.replicate 7 .go) = some (some 2) := by decide +kernel
/-- Another process may hold the lock for a while. -/
example : intrEnds (List.replicate 6 .go ++ [.lockBusy, .lockBusy, .go]) = some (some 2) := by decide +kernel
/-- Ctrl-C at the start, while files are walked, and while the lock is held by another. -/
example : intrEnds [.ctrlC, .go] = some none := by decide +kernel
example : intrEnds [.go, .go, .go, .ctrlC, .go] = some none := by decide +kernel
example : intrEnds (List.replicate 6 .go ++ [.lockBusy, .ctrlC, .lockBusy]) = some none := by decide +kernel
/-- Ctrl-C after the last file was walked: testing begins, with all mutants, and fails by `C87_testing`. -/
example : intrEnds (List.replicate 5 .go ++ [.ctrlC, .go, .go]) = some (some 2) := by decide +kernel

/-- In the walk, the file of the module is ahead. -/
example : ∃ s, Intr.exec sampleWorld sampleRun {} [.go, .go, .go, .ctrlC] = some s ∧ s.interrupted = true ∧
    FileAhead sampleWorld sampleRun s.pc := by
  have h : ((Intr.exec sampleWorld sampleRun {} [.go, .go, .go, .ctrlC]).map fun s =>
      (s.interrupted, match s.pc with | .walking _ _ _ walk _ _ _ => walk.queue | _ => [])) =
      some (true, [(components "util/src/a.rs".toList, false)]) := by decide +kernel
  obtain ⟨s, hs, he⟩ := Option.map_eq_some_iff.1 h
  refine ⟨s, hs, congrArg (·.1) he, ?_⟩
  have hq := congrArg (·.2) he
  cases hpc : s.pc with
  | walking o exprs pkg walk pkgs ms fs =>
    rw [hpc] at hq
    have hq : walk.queue = [(components "util/src/a.rs".toList, false)] := hq
    refine .inl ⟨(components "util/src/a.rs".toList, false), by rw [hq]; simp, ?_⟩
    intro base hb
    exact (C44_check_is_exact _ base hb).1 (by decide +kernel)
  | _ => rw [hpc] at hq; cases hq

/-- A copy that is interrupted at its second entry holds only the first. -/
example : (Intr.copyLoop (fun i => decide (1 ≤ i)) 0 .empty [(["a".toList], .file []), (["b".toList], .file [])]).1.isNone = true ∧
    (Intr.copyLoop (fun i => decide (1 ≤ i)) 0 .empty [(["a".toList], .file []), (["b".toList], .file [])]).2 ["a".toList] = some (.file []) ∧
    (Intr.copyLoop (fun i => decide (1 ≤ i)) 0 .empty [(["a".toList], .file []), (["b".toList], .file [])]).2 ["b".toList] = none := by
  decide +kernel

end CM.Props
