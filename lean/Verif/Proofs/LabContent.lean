import Verif.Proofs.LabConsole
/-! The content of the build directories during a run. -/
namespace CM.Lab

/-- See `SameUpToCrlf`. -/
abbrev Clean (cfg : Config) (t : Tree) : Prop := SameUpToCrlf cfg t

/-- A clean tree in which one mutant has been applied. -/
def Mutated (cfg : Config) (m : Mutant) (t : Tree) : Prop :=
  ∃ t0, Clean cfg t0 ∧ (t0 m.sourceFile.path).isSome ∧ t = withFile t0 m.sourceFile.path m.mutated

/-- What the directory of a thread holds; `strict`: all writes of source files have succeeded. -/
def ContentOk (strict : Prop) (cfg : Config) (t : Tree) : Pc → Prop
  | .new | .mustCopy _ | .copying _ _ => True
  | .failed _ => strict → Clean cfg t
  | .ready _ (.mutant m) _ _ | .command _ (.mutant m) _ _ _ | .failing _ (.mutant m) => Mutated cfg m t
  | _ => Clean cfg t

structure Content (strict : Prop) (cfg : Config) (s : State) : Prop where
  source : cfg.inPlace = false → s.sh.dirs 0 = cfg.tree
  dir0 : ∀ d, s.sh.dir0 = some d → Clean cfg (s.sh.dirs d)
  workers : ∀ (i : Nat) pc d, s.workers[i]? = some pc → pc.dir = some d →
    ContentOk strict cfg (s.sh.dirs d) pc
  held : cfg.inPlace = true → Clean cfg (s.sh.dirs 0) ∨
    ∃ (i : Nat) (pc : Pc), s.workers[i]? = some pc ∧ pc.dir = some 0
  setup : s.main = .setup → s.sh.dirs 0 = cfg.tree

theorem writeFile_self (dirs : DirId → Tree) (d : DirId) (p : Path) (t : Text) :
    writeFile dirs d p t d = withFile (dirs d) p t := by
  funext p'
  simp [writeFile, withFile]

theorem clean_base (cfg : Config) : Clean cfg cfg.base := fun _ => .inl rfl

theorem withFile_withFile (t : Tree) (p : Path) (x y : Text) :
    withFile (withFile t p x) p y = withFile t p y := by
  funext p'
  simp only [withFile]
  split <;> rfl

/-- Reverting a mutant gives a clean tree again. -/
theorem Mutated.revert {cfg : Config} {m : Mutant} {t : Tree} (hc : cfg.Consistent)
    (hm : m ∈ cfg.mutants) (h : Mutated cfg m t) :
    Clean cfg (withFile t m.sourceFile.path m.sourceFile.code) := by
  obtain ⟨t0, h0, hs, rfl⟩ := h
  rw [withFile_withFile]
  intro p
  by_cases hp : p = m.sourceFile.path
  · subst hp
    right
    refine ⟨⟨m, hm, rfl⟩, ?_⟩
    simp only [withFile, if_true]
    have hb : (cfg.base m.sourceFile.path).isSome := by
      rcases h0 m.sourceFile.path with h | ⟨_, h⟩ <;> rw [h] at hs <;> simpa using hs
    obtain ⟨raw, hraw, hcode⟩ := hc.source m hm
    have : cfg.base m.sourceFile.path = some raw := by
      unfold Config.base at hb ⊢
      split
      · exact hraw
      · rename_i hp
        rw [if_neg hp] at hb
        rcases hc.copied m hm with h | h
        · rw [h] at hb; cases hb
        · rw [h, hraw]
    rw [this, hcode]
    rfl
  · simp only [withFile, hp, if_false]
    exact h0 p

theorem Mutated.isSome {cfg m t} (h : Mutated cfg m t) : (t m.sourceFile.path).isSome := by
  obtain ⟨t0, _, _, rfl⟩ := h
  simp [withFile]

/-- A step of a thread whose directory is as expected. -/
theorem WStep.content {cfg sh c pc sh' pc' strict main d} (h : WStep cfg sh c pc sh' pc')
    (hcons : cfg.Consistent) (hfits : Fits cfg main pc) (hcon : ConsoleOk sh.console pc)
    (hstrict : strict → ∀ t, c ≠ .writeFails t) (hsrc : cfg.inPlace = false → sh.dirs 0 = cfg.tree)
    (hcopy : ∀ b d, pc = .copying b d → cfg.inPlace = false)
    (h0 : ∀ d, sh.dir0 = some d → Clean cfg (sh.dirs d))
    (hok : ∀ d, pc.dir = some d → ContentOk strict cfg (sh.dirs d) pc) (hd : pc'.dir = some d) :
    ContentOk strict cfg (sh'.dirs d) pc' := by
  cases h
  case takeDir0 d' h => cases hd; exact h0 d h
  case copied b d' con h =>
    have hp := hcopy b d' rfl
    have hd' : d' = d := by cases b <;> exact Option.some.inj hd
    subst hd'
    have : Clean cfg (cfg.copy (sh.dirs 0)) := by
      rw [hsrc hp]
      have := clean_base cfg
      simpa [Config.base, hp] using this
    cases b <;> simpa [ContentOk] using this
  case copyPanic => cases hd
  case tell d' sc => cases sc <;> (cases hd; exact hok d rfl)
  case tellFinished d' sc rs text hm => cases sc <;> (cases hd; exact hok d rfl)
  case startPhase d' sc p todo rs con h => cases sc <;> (cases hd; exact hok d rfl)
  case startPhasePanic d' sc p todo rs h =>
    obtain ⟨con', h1, h2⟩ := Console.phaseStarted_ok p hcon
    rw [h1] at h
    cases h
  case exits d' sc p todo rs dur status con hc hi h => cases sc <;> (cases hd; exact hok d rfl)
  case exitsPanic d' sc p todo rs hi h =>
    obtain ⟨con', h1, h2⟩ := Console.phaseFinished_ok hcon
    rw [h1] at h
    cases h
  case interrupted d' sc p todo rs h => cases sc <;> (cases hd; exact hok d rfl)
  case commandErr d' sc p todo rs h => cases sc <;> (cases hd; exact hok d rfl)
  case failBaseline => cases hd; exact fun _ => hok d rfl
  case apply d' m h =>
    have hcl : Clean cfg (sh.dirs d') := hok d' rfl
    cases h
    case ok hc hs =>
      cases hd
      simp only [writeFile_self]
      exact ⟨_, hcl, hs, rfl⟩
    case missing => cases hd; exact fun _ => hcl
    case failed => cases hd; exact fun _ => hcl
    case torn t' hc => exact fun hst => absurd hc (hstrict hst _)
  case revert d' m rs h =>
    have hm : m ∈ cfg.mutants := by
      cases main <;> simp [Fits] at hfits
      exact hfits
    have hmut : Mutated cfg m (sh.dirs d') := hok d' rfl
    cases h
    case ok hc hs =>
      cases hd
      simp only [writeFile_self]
      exact hmut.revert hcons hm
    case missing hc hs => have := hmut.isSome; rw [hs] at this; cases this
    case failed hc => exact fun hst => absurd hc (hstrict hst _)
    case torn t' hc => exact fun hst => absurd hc (hstrict hst _)
  case failRevert d' m h =>
    have hm : m ∈ cfg.mutants := by
      cases main <;> simp [Fits] at hfits
      exact hfits
    have hmut : Mutated cfg m (sh.dirs d') := hok d' rfl
    cases h
    case ok hc hs =>
      cases hd
      simp only [writeFile_self]
      exact fun _ => hmut.revert hcons hm
    case missing hc hs => have := hmut.isSome; rw [hs] at this; cases this
    case failed hc => exact fun hst => absurd hc (hstrict hst _)
    case torn t' hc => exact fun hst => absurd hc (hstrict hst _)
  all_goals first
    | (cases hd; done)
    | (cases hd; trivial)
    | (cases hd; exact hok d rfl)
    | (cases hd; exact fun _ => hok d rfl)

theorem content_init (strict : Prop) (cfg : Config) : Content strict cfg (init cfg) := by
  refine ⟨fun _ => by simp [init], by simp [init], by simp [init], ?_, fun _ => by simp [init]⟩
  intro hp
  left
  have := clean_base cfg
  simpa [init, Config.base, hp] using this

theorem Content.spawn {strict cfg s d pc} (hs : Content strict cfg s) (hdirs : Dirs cfg s)
    (hw : s.workers = [pc]) (hd : pc.dir = some d) (hc : Clean cfg (s.sh.dirs d)) :
    Content strict cfg (spawn cfg s d) := by
  refine ⟨hs.source, ?_, ?_, ?_, by simp [Lab.spawn]⟩
  · intro d' hd'; cases hd'; exact hc
  · intro i pc d' hi hd'; rw [spawn_worker hi] at hd'; cases hd'
  · intro hp
    left
    have hok : DirOk cfg s.sh d := hdirs.ok 0 pc d (by simp [hw]) hd
    unfold DirOk at hok
    rw [if_pos hp] at hok
    subst hok
    exact hc

theorem Content.step {strict cfg s e s'} (hcons : cfg.Consistent) (hshape : Shape cfg s)
    (hdirs : Dirs cfg s) (hcon : ConsoleInv cfg s)
    (hstrict : strict → ∀ i t, e ≠ .worker i (.writeFails t)) (hs : Content strict cfg s)
    (hst : step cfg s e = some s') : Content strict cfg s' := by
  rcases step_cases hst with ⟨_, _, rfl⟩ | ⟨ok, _, hm⟩ | ⟨i, c, pc, sh', pc', he, hpc, hw, rfl⟩
  · exact ⟨hs.source, hs.dir0, hs.workers, hs.held, hs.setup⟩
  · cases mstep_rel hm
    case prepare h he =>
      refine ⟨hs.source, hs.dir0, ?_, ?_, by simp⟩
      · intro i pc d hi hd
        cases i with
        | zero =>
          cases Option.some.inj hi
          split at hd
          · rename_i hp
            cases hd
            have : Clean cfg (s.sh.dirs 0) := by
              rw [hs.setup h]
              simpa [Config.base, hp] using clean_base cfg
            simpa [hp, ContentOk] using this
          · cases hd
        | succ i => cases hi
      · intro hp
        exact .inr ⟨0, .prepared 0, by simp [hp], rfl⟩
    case baseline h d hw hb =>
      have hcl : Clean cfg (s.sh.dirs d) := hs.workers 0 (.prepared d) d (by simp [hw]) rfl
      refine ⟨hs.source, hs.dir0, ?_, ?_, by simp⟩
      · intro i pc d' hi hd
        cases i with
        | zero => cases Option.some.inj hi; cases hd; exact hcl
        | succ i => cases hi
      · intro hp
        have hok : DirOk cfg s.sh d := hdirs.ok 0 (.prepared d) d (by simp [hw]) rfl
        unfold DirOk at hok
        rw [if_pos hp] at hok
        subst hok
        exact .inl hcl
    case skipBaseline h d hw hb =>
      exact hs.spawn hdirs hw rfl (hs.workers 0 (.prepared d) d (by simp [hw]) rfl)
    case passed h d o hw ho =>
      exact hs.spawn hdirs hw rfl (hs.workers 0 (.baselineDone d o) d (by simp [hw]) rfl)
    all_goals exact ⟨hs.source, hs.dir0, hs.workers, hs.held, by simp⟩
  · have hcases := hw.dir_cases
    have hd0 : ∀ d, sh'.dir0 = some d → s.sh.dir0 = some d := by
      rcases hcases with ⟨_, h, _⟩ | ⟨_, h, _⟩ | ⟨d, _, _, _, h, _⟩ | ⟨b, _, _, h, _⟩ <;> simp [h]
    have hlt : i < s.workers.length := (List.getElem?_eq_some_iff.1 hpc).1
    refine ⟨?_, ?_, ?_, ?_, ?_⟩
    · intro hp
      simp only
      rw [hw.dirs_frame 0 ?_]
      · exact hs.source hp
      · intro h
        have := hdirs.ok i pc 0 hpc h
        simp [DirOk, hp] at this
    · intro d hd
      have hd' := hd0 d hd
      simp only
      rw [hw.dirs_frame d fun h => hdirs.distinct0 i pc d hpc h hd']
      exact hs.dir0 d hd'
    · intro j q d hj hd
      rcases getElem?_set_cases hj with ⟨_, rfl⟩ | ⟨hji, hj⟩
      · refine hw.content hcons (hshape.fits i pc hpc) (hcon.ok i pc hpc) ?_ hs.source ?_ hs.dir0
          (fun d hd => hs.workers i pc d hpc hd) hd
        · intro h t hc
          exact hstrict h i t (by rw [he, hc])
        · intro b d' hpc'
          cases hp : cfg.inPlace with
          | false => rfl
          | true => exact absurd hpc' (((hdirs.inPlace hp i pc hpc).2 b).2 d')
      · simp only
        rw [hw.dirs_frame d fun h => hji (hdirs.distinct j i q pc d hj hpc hd h)]
        exact hs.workers j q d hj hd
    · intro hp
      rcases hs.held hp with h | ⟨j, q, hj, hq⟩
      · by_cases hpd : pc.dir = some 0
        · rcases hcases with ⟨h', _, _⟩ | h' | ⟨d, h', h2, h3, _, _⟩ | ⟨b, h', _, _, _⟩
          · exact .inr ⟨i, pc', by simp [hlt], by rw [h', hpd]⟩
          · obtain ⟨_, _, _, b, rfl | ⟨d, rfl⟩⟩ := h'
            · cases hpd
            · exact absurd rfl (((hdirs.inPlace hp i _ hpc).2 b).2 d)
          · subst h'; cases hpd
          · subst h'; cases hpd
        · left; rw [hw.dirs_frame 0 hpd]; exact h
      · by_cases hji : j = i
        · subst hji
          rw [hpc] at hj
          cases hj
          rcases hcases with ⟨h', _, _⟩ | h' | ⟨d, h', h2, h3, _, _⟩ | ⟨b, h', _, _, _⟩
          · exact .inr ⟨j, pc', by simp [hlt], by rw [h', hq]⟩
          · obtain ⟨_, _, _, b, rfl | ⟨d, rfl⟩⟩ := h'
            · cases hq
            · exact absurd rfl (((hdirs.inPlace hp j _ hpc).2 b).2 d)
          · subst h'; cases hq
          · subst h'; cases hq
        · exact .inr ⟨j, q, by rw [List.getElem?_set_ne (Ne.symm hji)]; exact hj, hq⟩
    · intro hm
      have := hshape.count
      rw [hm] at this
      rw [this] at hpc
      cases hpc

/-- Everything that has been proved about a state. -/
structure Inv (strict : Prop) (cfg : Config) (s : State) : Prop where
  shape : Shape cfg s
  dirs : Dirs cfg s
  console : ConsoleInv cfg s
  content : Content strict cfg s

theorem Inv.step {strict cfg s e s'} (hj : cfg.JobsOk) (hcons : cfg.Consistent)
    (hstrict : strict → ∀ i t, e ≠ .worker i (.writeFails t)) (hs : Inv strict cfg s)
    (hst : step cfg s e = some s') : Inv strict cfg s' :=
  ⟨hs.shape.step hst, hs.dirs.step hj hst, hs.console.step hs.shape hs.dirs hst,
    hs.content.step hcons hs.shape hs.dirs hs.console hstrict hst⟩

theorem inv_init (strict cfg) : Inv strict cfg (init cfg) :=
  ⟨shape_init cfg, dirs_init cfg, consoleInv_init cfg, content_init strict cfg⟩

theorem reachable_inv {cfg s} (hj : cfg.JobsOk) (hcons : cfg.Consistent) (h : Reachable cfg s) :
    Inv False cfg s :=
  reachable_invariant (inv_init False cfg) (fun _ _ _ => Inv.step hj hcons (fun h => h.elim)) h

/-- Without failing writes of source files. -/
theorem exec_inv {cfg s es} (hj : cfg.JobsOk) (hcons : cfg.Consistent)
    (hes : ∀ i t, Event.worker i (.writeFails t) ∉ es) (h : exec cfg (init cfg) es = some s) :
    Inv True cfg s :=
  exec_invariant (fun e => ∀ i t, e ≠ .worker i (.writeFails t))
    (fun _ _ _ he => Inv.step hj hcons (fun _ => he)) (inv_init True cfg)
    (fun e he i t h => hes i t (h ▸ he)) h

end CM.Lab
