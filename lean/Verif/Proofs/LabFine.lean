import Verif.Proofs.LabEnd
/-! Runs in which nothing goes wrong, and directories that hold exactly the original tree. -/
namespace CM.Lab

/-! ### Before any mutant is tested -/

/-- Until mutants are tested, nothing has been changed. -/
def Pristine (cfg : Config) (s : State) : Prop :=
  s.main = .setup ∨ s.main = .preparing ∨ s.main = .baseline →
    s.sh.dirs 0 = cfg.tree ∧ ∀ (i : Nat) pc d, s.workers[i]? = some pc → pc.dir = some d →
      pc.isCopying = false → s.sh.dirs d = cfg.base

theorem WStep.pristine {cfg sh c pc sh' pc' main} (h : WStep cfg sh c pc sh' pc')
    (hm : main = .preparing ∨ main = .baseline) (hfits : Fits cfg main pc)
    (hcopy : ∀ b d, pc = .copying b d → cfg.inPlace = false ∧ d ≠ 0) (hsrc : sh.dirs 0 = cfg.tree)
    (hok : ∀ d, pc.dir = some d → pc.isCopying = false → sh.dirs d = cfg.base) :
    sh'.dirs 0 = cfg.tree ∧ ∀ d, pc'.dir = some d → pc'.isCopying = false → sh'.dirs d = cfg.base := by
  cases h
  case copied b d con h =>
    obtain ⟨h1, h2⟩ := hcopy b d rfl
    refine ⟨by simp only [Ne.symm h2, if_false]; exact hsrc, fun d' hd' _ => ?_⟩
    have : d = d' := by cases b <;> exact Option.some.inj hd'
    subst this
    simp [Config.base, h1, hsrc]
  case apply d m h => rcases hm with rfl | rfl <;> exact hfits.elim
  case revert d m rs h =>
    rcases hm with rfl | rfl
    · exact hfits.elim
    · cases hfits
  case failRevert d m h =>
    rcases hm with rfl | rfl
    · exact hfits.elim
    · cases hfits
  case takeDir0 d h => rcases hm with rfl | rfl <;> exact hfits.elim
  case copyPanic => exact ⟨hsrc, fun d' hd' _ => by cases hd'⟩
  case copyErr => exact ⟨hsrc, fun d' hd' _ => by cases hd'⟩
  case startCopy b => exact ⟨hsrc, fun d' hd' hc => by cases hc⟩
  case startCopyErr => exact ⟨hsrc, fun d' hd' _ => by cases hd'⟩
  case noDir0 => exact ⟨hsrc, fun d' hd' _ => by cases hd'⟩
  case tell d sc =>
    refine ⟨hsrc, fun d' hd' _ => hok d' ?_ rfl⟩
    cases sc <;> exact hd'
  case tellFinished d sc rs text hm =>
    refine ⟨hsrc, fun d' hd' _ => hok d' ?_ rfl⟩
    cases sc <;> exact hd'
  all_goals exact ⟨hsrc, fun d' hd' _ => hok d' hd' rfl⟩

theorem Pristine.step {cfg s e s'} (hshape : Shape cfg s) (hdirs : Dirs cfg s) (hs : Pristine cfg s)
    (hst : step cfg s e = some s') : Pristine cfg s' := by
  rcases step_cases hst with ⟨_, h, rfl⟩ | ⟨ok, _, hm⟩ | ⟨i, c, pc, sh', pc', he, hpc, hw, rfl⟩
  · exact hs
  · intro hm'
    cases mstep_rel hm
    case prepare h he =>
      obtain ⟨h1, h2⟩ := hs (.inl h)
      refine ⟨h1, fun i pc d hpc hd _ => ?_⟩
      cases i with
      | succ i => simp at hpc
      | zero =>
        simp only [List.getElem?_cons_zero, Option.some.injEq] at hpc
        subst hpc
        split at hd
        · rename_i hp
          cases hd
          show s.sh.dirs 0 = _
          rw [h1]
          simp [Config.base, hp]
        · cases hd
    case baseline h d hw hb =>
      obtain ⟨h1, h2⟩ := hs (.inr (.inl h))
      refine ⟨h1, fun i pc d' hpc hd hc => ?_⟩
      cases i with
      | succ i => simp at hpc
      | zero =>
        simp only [List.getElem?_cons_zero, Option.some.injEq] at hpc
        subst hpc
        cases hd
        exact h2 0 (.prepared d) d (by simp [hw]) rfl rfl
    all_goals (simp [Lab.spawn] at hm')
  · intro hm'
    have hm2 : s.main = .preparing ∨ s.main = .baseline := by
      rcases hm' with h | h | h
      · have := hshape.fits i pc hpc
        simp only at h
        rw [h] at this
        exact this.elim
      · exact .inl h
      · exact .inr h
    obtain ⟨h1, h2⟩ := hs hm'
    have hpr := hw.pristine hm2 (hshape.fits i pc hpc) (by
      rintro b d rfl
      have hp : cfg.inPlace = false := by
        cases hp : cfg.inPlace with
        | false => rfl
        | true => exact absurd rfl (((hdirs.inPlace hp i _ hpc).2 b).2 d)
      have := hdirs.ok i _ d hpc rfl
      simp only [DirOk, hp] at this
      exact ⟨hp, by simp at this; omega⟩) h1 (fun d hd hc => h2 i pc d hpc hd hc)
    refine ⟨hpr.1, fun j q d hq hd hc => ?_⟩
    rcases getElem?_set_cases hq with ⟨_, rfl⟩ | ⟨hji, hj⟩
    · exact hpr.2 d hd hc
    · have hne : pc.dir ≠ some d := fun h => hji (hdirs.distinct j i q pc d hj hpc hd h)
      show sh'.dirs d = _
      rw [hw.dirs_frame d hne]
      exact h2 j q d hj hd hc

theorem reachable_pristine {cfg s} (hj : cfg.JobsOk) (h : Reachable cfg s) : Pristine cfg s := by
  have := reachable_invariant (cfg := cfg)
    (P := fun s => Shape cfg s ∧ Dirs cfg s ∧ Pristine cfg s)
    ⟨shape_init cfg, dirs_init cfg, by
      intro _
      exact ⟨by simp [init], by simp [init]⟩⟩
    (fun s e s' h hst => ⟨h.1.step hst, h.2.1.step hj hst, h.2.2.step h.1 h.2.1 hst⟩) h
  exact this.2.2

/-! ### Without CRLF line ends, reverting restores exactly -/

theorem Clean.eq_base {cfg t} (hc : cfg.Consistent) (hn : cfg.NoCrlf) (h : SameUpToCrlf cfg t) :
    t = cfg.base := by
  funext p
  rcases h p with h | ⟨⟨m, hm, rfl⟩, h⟩
  · exact h
  · rw [h]
    obtain ⟨raw, h1, h2⟩ := hc.source m hm
    have h3 := hn m hm
    rw [h1] at h3
    cases h3
    have : cfg.base m.sourceFile.path = none ∨ cfg.base m.sourceFile.path = some m.sourceFile.code := by
      unfold Config.base
      split
      · exact .inr h1
      · rcases hc.copied m hm with h | h
        · exact .inl h
        · exact .inr (h.trans h1)
    rcases this with h | h
    · simp [h]
    · simp [h, ← h2]

/-! ### Runs in which nothing goes wrong -/

/-- Nothing has gone wrong. -/
structure AllWell (cfg : Config) (s : State) : Prop where
  interrupted : s.sh.interrupted = false
  logs : LogsCovered s.sh.used s.sh.logs
  workers : ∀ (i : Nat) pc, s.workers[i]? = some pc → pc.isFailed = false ∧ ∀ d sc, pc ≠ .failing d sc
  main : s.main ≠ .returned none

theorem wstep_well {cfg sh pc c sh' pc' main} (h : wstep cfg sh pc c = some (sh', pc'))
    (hc : c = .ok ∨ ∃ dur st, c = .exits dur st)
    (hfiles : ∀ m ∈ cfg.mutants, (cfg.base m.sourceFile.path).isSome)
    (hnames : ∀ m ∈ cfg.mutants, m.name true ≠ none)
    (hfits : Fits cfg main pc) (hcon : ConsoleOk sh.console pc)
    (hcontent : ∀ d, pc.dir = some d → ContentOk True cfg (sh.dirs d) pc)
    (hphases : PhasesOk cfg pc) (hlogs : LogsCovered sh.used sh.logs)
    (hi : ∀ d sc p todo rs, pc = .command d sc p todo rs → sh.interrupted = false) (hwell : ∀ d sc, pc ≠ .failing d sc) :
    pc'.isFailed = false ∧ (∀ d sc, pc' ≠ .failing d sc) ∧ LogsCovered sh'.used sh'.logs := by
  have clean : ∀ m ∈ cfg.mutants, ∀ t, SameUpToCrlf cfg t → (t m.sourceFile.path).isSome := by
    intro m hm t ht
    rcases ht m.sourceFile.path with h | ⟨_, h⟩ <;> rw [h] <;> have := hfiles m hm
    · exact this
    · simpa using this
  cases pc <;> simp only [wstep] at h
  case new =>
    split at h <;> cases h <;> exact ⟨rfl, by simp, hlogs⟩
  case mustCopy b =>
    rcases hc with rfl | ⟨dur, st, rfl⟩ <;> cases h
    exact ⟨rfl, by simp, hlogs⟩
  case copying b d =>
    rcases hc with rfl | ⟨dur, st, rfl⟩
    · simp only [ConsoleOk] at hcon
      simp only [Console.finishCopy, hcon.1, if_true] at h
      cases h
      cases b <;> exact ⟨rfl, by simp, hlogs⟩
    · cases h
  case idle d =>
    split at h <;> cases h <;> exact ⟨rfl, by simp, hlogs⟩
  case taken d sc =>
    rcases hc with rfl | ⟨dur, st, rfl⟩
    · obtain ⟨u, path, h1, _, h2⟩ := startScenario_ok hlogs sc
      simp only [h1] at h
      cases h
      exact ⟨rfl, by simp, h2⟩
    · cases h
  case logged d sc =>
    rcases hc with rfl | ⟨dur, st, rfl⟩ <;> cases h
    cases sc <;> exact ⟨rfl, by simp [Scenario.isMutant], hlogs⟩
  case started d sc =>
    rcases hc with rfl | ⟨dur, st, rfl⟩ <;> cases h
    exact ⟨rfl, by simp, hlogs⟩
  case diffed d sc =>
    cases sc with
    | baseline => cases h
    | mutant m =>
      have hm : m ∈ cfg.mutants := by
        cases main <;> simp [Fits] at hfits
        exact hfits
      rcases hc with rfl | ⟨dur, st, rfl⟩
      · have := clean m hm _ (hcontent d rfl)
        simp only [overwrite, this, if_true] at h
        cases h
        exact ⟨rfl, by simp, hlogs⟩
      · cases h
  case ready d sc todo rs =>
    cases todo with
    | cons p todo =>
      obtain ⟨con, h1, _⟩ := Console.phaseStarted_ok p hcon
      simp only [h1] at h
      cases h
      exact ⟨rfl, by simp, hlogs⟩
    | nil =>
      cases sc with
      | baseline => cases h; exact ⟨rfl, by simp, hlogs⟩
      | mutant m =>
        have hmut : Mutated cfg m (sh.dirs d) := hcontent d rfl
        rcases hc with rfl | ⟨dur, st, rfl⟩
        · simp only [revert, overwrite, hmut.isSome, if_true] at h
          cases h
          exact ⟨rfl, by simp, hlogs⟩
        · cases h
  case command d sc p todo rs =>
    rcases hc with rfl | ⟨dur, st, rfl⟩
    · cases h
    · obtain ⟨con, h1, _⟩ := Console.phaseFinished_ok hcon
      simp only [hi _ _ _ _ _ rfl, h1, Bool.false_eq_true, if_false] at h
      cases h
      exact ⟨rfl, by simp, hlogs⟩
  case failing d sc => exact absurd rfl (hwell d sc)
  case reverted d sc rs =>
    rcases hc with rfl | ⟨dur, st, rfl⟩
    · have hrec : Spec.Recordable ⟨sc, rs⟩ := by
        refine ⟨(hphases : Complete cfg.phases rs).ne_nil, ?_⟩
        intro m hm
        simp only at hm
        subst hm
        cases main <;> simp [Fits] at hfits
        exact hnames m hfits
      obtain ⟨g, hg⟩ := Props.addOutcome_total sh.out _ hrec
      simp only [recordOutcome] at h
      rw [OutputFiles.addOutcome] at hg
      rw [hg] at h
      cases h
      exact ⟨rfl, by simp, hlogs⟩
    · cases h
  case recorded d sc rs =>
    rcases hc with rfl | ⟨dur, st, rfl⟩
    · have hrec : Spec.Recordable ⟨sc, rs⟩ := by
        refine ⟨(hphases : Complete cfg.phases rs).ne_nil, ?_⟩
        intro m hm
        simp only at hm
        subst hm
        cases main <;> simp [Fits] at hfits
        exact hnames m hfits
      obtain ⟨t, ht⟩ := Props.message_total cfg.print _ hrec
      simp only [tellFinished, ht] at h
      cases h
      cases sc <;> exact ⟨rfl, by simp [Scenario.isMutant], hlogs⟩
    · cases h
  all_goals cases h

theorem AllWell.step {cfg s e s'} (hs : AllWell cfg s) (hinv : Inv True cfg s) (hrec : Records cfg s)
    (hfiles : ∀ m ∈ cfg.mutants, (cfg.base m.sourceFile.path).isSome)
    (hnames : ∀ m ∈ cfg.mutants, m.name true ≠ none)
    (he : e.Fine) (hl : ∀ i, e ≠ .worker i .logUnreadable)
    (hst : step cfg s e = some s') : AllWell cfg s' := by
  cases e with
  | interrupt => exact he.elim
  | main ok =>
    have hok : ok = true := he
    subst hok
    have hm : mstep cfg s true = some s' := hst
    have nofail : ∀ pc ∈ s.workers, pc.isFailed = false := by
      intro pc hpc
      obtain ⟨i, hi⟩ := List.getElem?_of_mem hpc
      exact (hs.workers i pc hi).1
    have hmn : s'.main ≠ .returned none := by
      intro h
      unfold mstep at hm
      split at hm
      · simp only [Bool.not_true, Bool.false_eq_true, if_false] at hm
        split at hm <;> cases hm <;> cases h
      · split at hm
        · simp only [Bool.not_true, Bool.false_eq_true, if_false] at hm
          split at hm <;> cases hm <;> cases h
        · rename_i hw
          have := nofail _ (by rw [hw]; simp; rfl)
          cases this
        · cases hm
      · split at hm
        · split at hm <;> cases hm <;> cases h
        · rename_i hw
          have := nofail _ (by rw [hw]; simp; rfl)
          cases this
        · cases hm
      · split at hm
        · split at hm
          · rename_i hany
            simp only [List.any_eq_true] at hany
            obtain ⟨pc, hpc, hf⟩ := hany
            rw [nofail pc hpc] at hf
            cases hf
          · cases hm; cases h
        · cases hm
      · cases hm
    cases mstep_rel hm
    case prepare h he =>
      refine ⟨hs.interrupted, hs.logs, ?_, hmn⟩
      intro i pc hpc
      cases i with
      | succ i => simp at hpc
      | zero =>
        simp only [List.getElem?_cons_zero, Option.some.injEq] at hpc
        subst hpc
        split <;> exact ⟨rfl, by simp⟩
    case baseline h d hw hb =>
      refine ⟨hs.interrupted, hs.logs, ?_, hmn⟩
      intro i pc hpc
      cases i with
      | succ i => simp at hpc
      | zero =>
        simp only [List.getElem?_cons_zero, Option.some.injEq] at hpc
        subst hpc
        exact ⟨rfl, by simp⟩
    case skipBaseline h d hw hb =>
      refine ⟨hs.interrupted, hs.logs, ?_, hmn⟩
      intro i pc hpc
      rw [spawn_worker hpc]
      exact ⟨rfl, by simp⟩
    case passed h d o hw ho =>
      refine ⟨hs.interrupted, hs.logs, ?_, hmn⟩
      intro i pc hpc
      rw [spawn_worker hpc]
      exact ⟨rfl, by simp⟩
    all_goals first
      | exact absurd rfl hmn
      | exact ⟨hs.interrupted, hs.logs, hs.workers, hmn⟩
  | worker i c =>
    have hc : c = .ok ∨ ∃ dur st, c = .exits dur st := by
      cases c with
      | ok => exact .inl rfl
      | exits dur st => exact .inr ⟨dur, st, rfl⟩
      | logUnreadable => exact absurd rfl (hl i)
      | fail => exact he.elim
      | writeFails => exact he.elim
      | stopAfter => exact he.elim
    unfold Lab.step at hst
    simp only [Option.bind_eq_bind, Option.bind_eq_some_iff, Option.pure_def] at hst
    obtain ⟨pc, hpc, ⟨sh', pc'⟩, hw, heq⟩ := hst
    cases heq
    obtain ⟨h1, h2, h3⟩ := wstep_well hw hc hfiles hnames (hinv.shape.fits i pc hpc)
      (hinv.console.ok i pc hpc) (fun d hd => hinv.content.workers i pc d hpc hd)
      (hrec.phases i pc hpc) hs.logs (fun _ _ _ _ _ _ => hs.interrupted) (hs.workers i pc hpc).2
    refine ⟨?_, h3, ?_, hs.main⟩
    · exact (wstep_rel hw).interrupted_eq.trans hs.interrupted
    · intro j q hq
      rcases getElem?_set_cases hq with ⟨_, rfl⟩ | ⟨_, hj⟩
      · exact ⟨h1, h2⟩
      · exact hs.workers j q hj

theorem exec_well {cfg es s} (hj : cfg.JobsOk) (hcons : cfg.Consistent)
    (hfiles : ∀ m ∈ cfg.mutants, (cfg.base m.sourceFile.path).isSome)
    (hnames : ∀ m ∈ cfg.mutants, m.name true ≠ none)
    (hfine : ∀ e ∈ es, e.Fine) (hl : ∀ i, Event.worker i .logUnreadable ∉ es)
    (h : exec cfg (init cfg) es = some s) : AllWell cfg s := by
  have := exec_invariant (cfg := cfg) (P := fun s => AllWell cfg s ∧ Inv True cfg s ∧ Records cfg s)
    (fun e => e.Fine ∧ ∀ i, e ≠ .worker i .logUnreadable)
    (fun s e s' he hs hst => ⟨hs.1.step hs.2.1 hs.2.2 hfiles hnames he.1 he.2 hst,
      hs.2.1.step hj hcons (fun _ i t h => by subst h; exact he.1.elim) hst,
      hs.2.2.step hs.2.1.shape hst⟩)
    (s := init cfg) ⟨⟨rfl, by intro p hp; simp [init] at hp, by simp [init], by simp [init]⟩,
      inv_init True cfg, records_init cfg⟩
    (fun e he => ⟨hfine e he, fun i h => hl i (h ▸ he)⟩) h
  exact this.1

end CM.Lab
