import Verif.Proofs.LabStep
import Verif.Proofs.Output
/-! Invariants of the lab: the shape of the state, and the build directories. -/
namespace CM.Lab

/-! ### What a step of a worker leaves unchanged -/

theorem Overwrite.frame {sh d p t next c sh' pc'} (h : Overwrite sh d p t next c sh' pc') :
    ∃ dirs, sh' = { sh with dirs := dirs } ∧ ∀ d' ≠ d, dirs d' = sh.dirs d' := by
  cases h
  · exact ⟨_, rfl, fun d' hd => by simp [writeFile, hd]⟩
  · exact ⟨sh.dirs, rfl, fun _ _ => rfl⟩
  · exact ⟨sh.dirs, rfl, fun _ _ => rfl⟩
  · exact ⟨_, rfl, fun d' hd => by simp [writeFile, hd]⟩

theorem Overwrite.pc {sh d p t next c sh' pc'} (h : Overwrite sh d p t next c sh' pc') :
    pc' = next ∨ pc' = .failed (some d) := by
  cases h <;> simp

theorem WStep.interrupted_eq {cfg sh c pc sh' pc'} (h : WStep cfg sh c pc sh' pc') :
    sh'.interrupted = sh.interrupted := by
  cases h <;> first
    | rfl
    | (rename_i h; obtain ⟨_, rfl, _⟩ := h.frame; rfl)

theorem WStep.dirs_frame {cfg sh c pc sh' pc'} (h : WStep cfg sh c pc sh' pc') (d : DirId)
    (hd : pc.dir ≠ some d) : sh'.dirs d = sh.dirs d := by
  cases h <;> first
    | rfl
    | (rename_i h; obtain ⟨_, rfl, hf⟩ := h.frame
       exact hf d (fun h => hd (by rw [h]; rfl)))
    | (have hne : ¬ d = _ := fun h => hd (by rw [h]; rfl)
       simp [hne])

/-- How a step changes the directory of the thread. -/
theorem WStep.dir_cases {cfg sh c pc sh' pc'} (h : WStep cfg sh c pc sh' pc') :
    (pc'.dir = pc.dir ∧ sh'.dir0 = sh.dir0 ∧ sh'.nextDir = sh.nextDir) ∨
    (pc'.dir = none ∧ sh'.dir0 = sh.dir0 ∧ sh'.nextDir = sh.nextDir ∧
      ∃ b, pc = .mustCopy b ∨ ∃ d, pc = .copying b d) ∨
    (∃ d, pc = .new ∧ pc' = .idle d ∧ sh.dir0 = some d ∧ sh'.dir0 = none ∧ sh'.nextDir = sh.nextDir) ∨
    (∃ b, pc = .mustCopy b ∧ pc' = .copying b sh.nextDir ∧ sh'.dir0 = sh.dir0 ∧
      sh'.nextDir = sh.nextDir + 1) := by
  cases h
  case takeDir0 d h => exact .inr (.inr (.inl ⟨d, rfl, rfl, h, rfl, rfl⟩))
  case startCopy b => exact .inr (.inr (.inr ⟨b, rfl, rfl, rfl, rfl⟩))
  case startCopyErr b => exact .inr (.inl ⟨rfl, rfl, rfl, b, .inl rfl⟩)
  case copyErr b d => exact .inr (.inl ⟨rfl, rfl, rfl, b, .inr ⟨d, rfl⟩⟩)
  case copyPanic b d h => exact .inr (.inl ⟨rfl, rfl, rfl, b, .inr ⟨d, rfl⟩⟩)
  case copied b d con h => cases b <;> exact .inl ⟨rfl, rfl, rfl⟩
  case tell d sc => cases sc <;> exact .inl ⟨rfl, rfl, rfl⟩
  case tellFinished d sc rs text hm => cases sc <;> exact .inl ⟨rfl, rfl, rfl⟩
  case apply h => obtain ⟨_, rfl, _⟩ := h.frame; rcases h.pc with rfl | rfl <;> exact .inl ⟨rfl, rfl, rfl⟩
  case revert h => obtain ⟨_, rfl, _⟩ := h.frame; rcases h.pc with rfl | rfl <;> exact .inl ⟨rfl, rfl, rfl⟩
  case failRevert h =>
    obtain ⟨_, rfl, _⟩ := h.frame; rcases h.pc with rfl | rfl <;> exact .inl ⟨rfl, rfl, rfl⟩
  all_goals exact .inl ⟨rfl, rfl, rfl⟩

/-! ### The shape of the state -/

/-- Where a thread can be, given where the main thread is. -/
def Fits (cfg : Config) : MainPc → Pc → Prop
  | .setup, _ => False
  | .preparing, pc =>
    match pc with
    | .mustCopy b | .copying b _ => b = true
    | .prepared _ | .failed _ => True
    | _ => False
  | .baseline, pc =>
    match pc with
    | .taken _ sc | .logged _ sc | .ready _ sc _ _ | .command _ sc _ _ _ | .failing _ sc
    | .reverted _ sc _ | .recorded _ sc _ => sc = .baseline
    | .baselineDone _ o => o.scenario = .baseline
    | .failed _ => True
    | _ => False
  | .testing, pc =>
    match pc with
    | .taken _ sc | .logged _ sc | .started _ sc | .diffed _ sc | .ready _ sc _ _
    | .command _ sc _ _ _ | .failing _ sc | .reverted _ sc _ | .recorded _ sc _ =>
      ∃ m ∈ cfg.mutants, sc = .mutant m
    | .mustCopy b | .copying b _ => b = false
    | .new | .idle _ | .failed _ | .finished _ => True
    | _ => False
  | .returned _, pc =>
    match pc with
    | .prepared _ | .baselineDone _ _ | .failed _ | .finished _ => True
    | _ => False

structure Shape (cfg : Config) (s : State) : Prop where
  fits : ∀ (i : Nat) pc, s.workers[i]? = some pc → Fits cfg s.main pc
  queue : ∀ m ∈ s.sh.queue, m ∈ cfg.mutants
  count : match s.main with
    | .setup => s.workers = []
    | .preparing | .baseline => s.workers.length = 1
    | .testing => s.workers.length = cfg.nThreads
    | .returned _ => s.workers.length ≤ cfg.nThreads
  nonempty : s.main = .preparing ∨ s.main = .baseline ∨ s.main = .testing → cfg.mutants ≠ []

theorem WStep.fits {cfg sh c pc sh' pc' main} (h : WStep cfg sh c pc sh' pc')
    (hq : ∀ m ∈ sh.queue, m ∈ cfg.mutants) (hf : Fits cfg main pc) :
    Fits cfg main pc' ∧ ∀ m ∈ sh'.queue, m ∈ cfg.mutants := by
  cases main
  case setup => exact hf.elim
  all_goals
    cases h
    case take d m q h =>
      simp only [Fits] at hf ⊢ <;> first
        | exact hf.elim
        | exact ⟨⟨m, hq m (by simp [h]), rfl⟩, fun m' hm' => hq m' (by simp [h, hm'])⟩
    case copied b d con h => cases b <;> simp_all [Fits]
    case tell d sc => cases sc <;> simp_all [Fits, Scenario.isMutant]
    case tellFinished d sc rs text hm => cases sc <;> simp_all [Fits, Scenario.isMutant]
    case apply h => obtain ⟨_, rfl, _⟩ := h.frame; rcases h.pc with rfl | rfl <;> simp_all [Fits]
    case revert h => obtain ⟨_, rfl, _⟩ := h.frame; rcases h.pc with rfl | rfl <;> simp_all [Fits]
    case failRevert h => obtain ⟨_, rfl, _⟩ := h.frame; rcases h.pc with rfl | rfl <;> simp_all [Fits]
    all_goals simp_all [Fits]

theorem nThreads_pos (cfg : Config) : 0 < cfg.nThreads := by unfold Config.nThreads; omega

theorem shape_init (cfg : Config) : Shape cfg (init cfg) :=
  ⟨by simp [init], by simp [init], rfl, by simp [init]⟩

theorem Shape.step {cfg s e s'} (hs : Shape cfg s) (hst : step cfg s e = some s') : Shape cfg s' := by
  have hn := nThreads_pos cfg
  rcases step_cases hst with ⟨_, _, rfl⟩ | ⟨ok, _, hm⟩ | ⟨i, c, pc, sh', pc', _, hpc, hw, rfl⟩
  · exact ⟨hs.fits, hs.queue, hs.count, hs.nonempty⟩
  · have h1 := hs.fits
    have h2 := hs.queue
    have h3 := hs.count
    have h4 := hs.nonempty
    cases mstep_rel hm
    case prepare h he =>
      refine ⟨?_, h2, by simp, by simp [he]⟩
      intro i pc hi
      have : pc = if cfg.inPlace then .prepared 0 else .mustCopy true := by
        cases i <;> simp_all
      subst this
      cases cfg.inPlace <;> simp [Fits]
    case baseline h d hw hb =>
      refine ⟨?_, h2, by simp, fun _ => h4 (.inl h)⟩
      intro i pc hi
      have : pc = .taken d .baseline := by cases i <;> simp_all
      subst this
      simp [Fits]
    case skipBaseline h d hw hb =>
      refine ⟨?_, h2, by simp [spawn], fun _ => h4 (.inl h)⟩
      intro i pc hi
      have : pc = .new := by
        have := List.mem_of_getElem? hi
        simp [spawn] at this
        exact this.2
      subst this
      simp [Fits, spawn]
    case passed h d o hw ho =>
      refine ⟨?_, h2, by simp [spawn], fun _ => h4 (.inr (.inl h))⟩
      intro i pc hi
      have : pc = .new := by
        have := List.mem_of_getElem? hi
        simp [spawn] at this
        exact this.2
      subst this
      simp [Fits, spawn]
    case workerFailed h hw hf =>
      refine ⟨?_, h2, by rw [h] at h3; simpa using Nat.le_of_eq h3, by simp⟩
      intro i pc hi
      have := hw pc (List.mem_of_getElem? hi)
      cases pc <;> simp_all [Fits, Pc.isFinished, Pc.isFailed]
    case tested h hw =>
      refine ⟨?_, h2, by rw [h] at h3; simpa using Nat.le_of_eq h3, by simp⟩
      intro i pc hi
      have := hw pc (List.mem_of_getElem? hi)
      cases pc <;> simp_all [Fits, Pc.isFinished]
    all_goals
      refine ⟨?_, h2, by simp_all; try omega, by simp⟩
      intro i pc hi
      simp only at hi
      first
        | (rw [‹s.main = .setup›] at h3; simp [h3] at hi)
        | (rw [‹s.workers = _›] at hi
           cases i <;> simp at hi
           subst hi
           simp [Fits])
  · obtain ⟨hf, hq⟩ := hw.fits hs.queue (hs.fits i pc hpc)
    refine ⟨?_, hq, ?_, hs.nonempty⟩
    · intro j q hj
      rcases getElem?_set_cases hj with ⟨_, rfl⟩ | ⟨_, hj⟩
      · exact hf
      · exact hs.fits j q hj
    · have := hs.count
      simp only [List.length_set]
      split <;> rename_i hm <;> simp only [hm] at this
      · rw [this] at hpc; cases hpc
      all_goals exact this

theorem reachable_shape {cfg s} (h : Reachable cfg s) : Shape cfg s :=
  reachable_invariant (shape_init cfg) (fun _ _ _ => Shape.step) h

/-- A thread that is not done runs only before the main thread has returned. -/
theorem Shape.mainOf {cfg s} (hs : Shape cfg s) : s.workers.length ≤ cfg.nThreads := by
  have := hs.count
  have := nThreads_pos cfg
  split at * <;> first | omega | (simp_all)

/-! ### Build directories -/

/-- Which directories can be build directories. -/
def DirOk (cfg : Config) (sh : Shared) (d : DirId) : Prop :=
  if cfg.inPlace then d = 0 else 0 < d ∧ d < sh.nextDir

structure Dirs (cfg : Config) (s : State) : Prop where
  next : 0 < s.sh.nextDir
  ok : ∀ (i : Nat) pc d, s.workers[i]? = some pc → pc.dir = some d → DirOk cfg s.sh d
  ok0 : ∀ d, s.sh.dir0 = some d → DirOk cfg s.sh d
  distinct : ∀ (i j : Nat) pc pc' d, s.workers[i]? = some pc → s.workers[j]? = some pc' → pc.dir = some d →
    pc'.dir = some d → i = j
  distinct0 : ∀ (i : Nat) pc d, s.workers[i]? = some pc → pc.dir = some d → s.sh.dir0 ≠ some d
  inPlace : cfg.inPlace = true → ∀ (i : Nat) pc, s.workers[i]? = some pc →
    (pc = .new → s.sh.dir0 = some 0) ∧ ∀ b, pc ≠ .mustCopy b ∧ ∀ d, pc ≠ .copying b d
  one : cfg.inPlace = true → s.workers.length ≤ 1
  early : s.main = .setup ∨ s.main = .preparing ∨ s.main = .baseline → s.sh.dir0 = none

theorem dirs_init (cfg : Config) : Dirs cfg (init cfg) := by
  constructor <;> simp [init]

theorem DirOk.mono {cfg sh sh' d} (h : DirOk cfg sh d) (hn : sh.nextDir ≤ sh'.nextDir) :
    DirOk cfg sh' d := by
  unfold DirOk at *
  split <;> simp_all
  omega

theorem spawn_worker {cfg s d} {i : Nat} {pc} (hi : (spawn cfg s d).workers[i]? = some pc) : pc = .new := by
  have := List.mem_of_getElem? hi
  simp [Lab.spawn] at this
  exact this.2

theorem Dirs.spawn {cfg : Config} {s : State} {d : DirId} {pc : Pc} (hj : cfg.JobsOk)
    (hs : Dirs cfg s) (hw : s.workers = [pc]) (hd : pc.dir = some d) : Dirs cfg (spawn cfg s d) := by
  have hok : DirOk cfg s.sh d := hs.ok 0 pc d (by simp [hw]) hd
  refine ⟨hs.next, ?_, ?_, ?_, ?_, ?_, ?_, by simp [Lab.spawn]⟩
  · intro i pc d' hi hd'; rw [spawn_worker hi] at hd'; cases hd'
  · intro d' hd'; cases hd'; exact hok
  · intro i j pc pc' d' hi hj hd'; rw [spawn_worker hi] at hd'; cases hd'
  · intro i pc d' hi hd'; rw [spawn_worker hi] at hd'; cases hd'
  · intro hp i pc hi
    rw [spawn_worker hi]
    refine ⟨fun _ => ?_, fun b => ⟨by simp, by simp⟩⟩
    unfold DirOk at hok
    rw [if_pos hp] at hok
    simp [Lab.spawn, hok]
  · intro hp
    simp [Lab.spawn, hj hp]

theorem Dirs.step {cfg s e s'} (hj : cfg.JobsOk) (hs : Dirs cfg s) (hst : step cfg s e = some s') :
    Dirs cfg s' := by
  rcases step_cases hst with ⟨_, _, rfl⟩ | ⟨ok, _, hm⟩ | ⟨i, c, pc, sh', pc', _, hpc, hw, rfl⟩
  · exact ⟨hs.next, hs.ok, hs.ok0, hs.distinct, hs.distinct0, hs.inPlace, hs.one, hs.early⟩
  · cases mstep_rel hm
    case prepare h he =>
      have hpc : ∀ (i : Nat) pc, [if cfg.inPlace then Pc.prepared 0 else .mustCopy true][i]? = some pc →
          i = 0 ∧ pc = if cfg.inPlace then Pc.prepared 0 else .mustCopy true := by
        intro i pc hi
        cases i
        · exact ⟨rfl, (Option.some.inj hi).symm⟩
        · cases hi
      have hdir : ∀ d, (if cfg.inPlace then Pc.prepared 0 else .mustCopy true).dir = some d →
          cfg.inPlace = true ∧ d = 0 := by
        intro d hd
        split at hd
        · rename_i hp; exact ⟨hp, (Option.some.inj hd).symm⟩
        · cases hd
      refine ⟨hs.next, ?_, fun d hd => hs.ok0 d hd, ?_, ?_, ?_, by simp, fun _ => hs.early (.inl h)⟩
      · intro i pc d hi hd
        rw [(hpc i pc hi).2] at hd
        obtain ⟨h1, rfl⟩ := hdir d hd
        simp [DirOk, h1]
      · intro i j pc pc' d hi hj hd hd'
        rw [(hpc i pc hi).1, (hpc j pc' hj).1]
      · intro i pc d hi hd hd0
        rw [hs.early (.inl h)] at hd0
        cases hd0
      · intro hp i pc hi
        rw [(hpc i pc hi).2]
        simp [hp]
    case skipBaseline h d hw hb => exact hs.spawn hj hw rfl
    case passed h d o hw ho => exact hs.spawn hj hw rfl
    case baseline h d hw hb =>
      have hpc : ∀ (i : Nat) pc, [Pc.taken d .baseline][i]? = some pc →
          i = 0 ∧ pc = .taken d .baseline := by
        intro i pc hi
        cases i <;> simp_all
      have h0 := hs.early (.inr (.inl h))
      refine ⟨hs.next, ?_, hs.ok0, ?_, ?_, ?_, by simp, fun _ => h0⟩
      · intro i pc d' hi hd'
        rw [(hpc i pc hi).2] at hd'
        cases hd'
        exact hs.ok 0 (.prepared d) d (by simp [hw]) rfl
      · intro i j pc pc' d' hi hj hd hd'
        rw [(hpc i pc hi).1, (hpc j pc' hj).1]
      · intro i pc d hi hd hd0
        rw [h0] at hd0
        cases hd0
      · intro hp i pc hi
        rw [(hpc i pc hi).2]
        simp
    all_goals
      exact ⟨hs.next, hs.ok, hs.ok0, hs.distinct, hs.distinct0, hs.inPlace, hs.one, by simp⟩
  · have hcases := hw.dir_cases
    have hmono : s.sh.nextDir ≤ sh'.nextDir := by
      rcases hcases with ⟨_, _, h⟩ | ⟨_, _, h, _⟩ | ⟨d, _, _, _, _, h⟩ | ⟨b, _, _, _, h⟩ <;> omega
    have hd0 : ∀ d, sh'.dir0 = some d → s.sh.dir0 = some d := by
      rcases hcases with ⟨_, h, _⟩ | ⟨_, h, _⟩ | ⟨d, _, _, _, h, _⟩ | ⟨b, _, _, h, _⟩ <;> simp [h]
    -- a directory of the stepping thread is its old one, the baseline's, or new
    have hdir : ∀ d, pc'.dir = some d → pc.dir = some d ∨ (s.sh.dir0 = some d ∧ sh'.dir0 = none) ∨
        (d = s.sh.nextDir ∧ cfg.inPlace = false ∧ sh'.nextDir = s.sh.nextDir + 1) := by
      intro d hd
      rcases hcases with ⟨h, _, _⟩ | ⟨h, _, _⟩ | ⟨d', _, h, h', h'', _⟩ | ⟨b, h, h', _, h''⟩
      · left; rw [← h, hd]
      · rw [h] at hd; cases hd
      · subst h; cases hd; exact .inr (.inl ⟨h', h''⟩)
      · subst h'; cases hd
        refine .inr (.inr ⟨rfl, ?_, h''⟩)
        cases hp : cfg.inPlace with
        | false => rfl
        | true => exact absurd h ((hs.inPlace hp i pc hpc).2 b).1
    have hok' : ∀ d, DirOk cfg s.sh d → d ≠ s.sh.nextDir ∨ cfg.inPlace = true := by
      intro d hd
      unfold DirOk at hd
      split at hd
      · right; assumption
      · left; omega
    refine ⟨by have := hs.next; simp only; omega, ?_, ?_, ?_, ?_, ?_, ?_, ?_⟩
    · intro j q d hj hd
      rcases getElem?_set_cases hj with ⟨_, rfl⟩ | ⟨_, hj⟩
      · rcases hdir d hd with h | ⟨h, _⟩ | ⟨h, hp, hn⟩
        · exact (hs.ok i pc d hpc h).mono hmono
        · exact (hs.ok0 d h).mono hmono
        · have := hs.next
          simp only [DirOk, hp, hn]
          simp
          omega
      · exact (hs.ok j q d hj hd).mono hmono
    · intro d hd
      exact (hs.ok0 d (hd0 d hd)).mono hmono
    · have key : ∀ (j : Nat) q d, j ≠ i → s.workers[j]? = some q → q.dir = some d → pc'.dir ≠ some d := by
        intro j q d hji hj hq hd
        rcases hdir d hd with h | ⟨h, _⟩ | ⟨h, hp, hn⟩
        · exact hji (hs.distinct j i q pc d hj hpc hq h)
        · exact hs.distinct0 j q d hj hq h
        · rcases hok' d (hs.ok j q d hj hq) with h1 | h1
          · exact h1 h
          · simp [hp] at h1
      intro j k q q' d hj hk hd hd'
      rcases getElem?_set_cases hj with ⟨h1, h2⟩ | ⟨hji, hj'⟩ <;>
        rcases getElem?_set_cases hk with ⟨h3, h4⟩ | ⟨hki, hk'⟩
      · rw [h1, h3]
      · rw [h2] at hd; exact absurd hd (key k q' d hki hk' hd')
      · rw [h4] at hd'; exact absurd hd' (key j q d hji hj' hd)
      · exact hs.distinct j k q q' d hj' hk' hd hd'
    · intro j q d hj hd h0
      have h0' := hd0 d h0
      rcases getElem?_set_cases hj with ⟨rfl, rfl⟩ | ⟨hji, hj⟩
      · rcases hdir d hd with h | ⟨_, h⟩ | ⟨h, hp, hn⟩
        · exact hs.distinct0 j pc d hpc h h0'
        · simp only at h0; rw [h] at h0; cases h0
        · rcases hok' d (hs.ok0 d h0') with h1 | h1
          · exact h1 h
          · simp [hp] at h1
      · exact hs.distinct0 j q d hj hd h0'
    · intro hp j q hj
      have hone := hs.one hp
      have hi0 : i = 0 := by
        have := (List.getElem?_eq_some_iff.1 hpc).1
        omega
      rcases getElem?_set_cases hj with ⟨rfl, rfl⟩ | ⟨hji, hj⟩
      · obtain ⟨h1, h2⟩ := hs.inPlace hp j pc hpc
        cases hw
        case noDir0 h => rw [h1 rfl] at h; cases h
        case startCopy b => exact absurd rfl (h2 b).1
        case copied b d con h => exact absurd rfl ((h2 b).2 d)
        case tell d sc => cases sc <;> simp [Scenario.isMutant]
        case tellFinished d sc rs text hm => cases sc <;> simp [Scenario.isMutant]
        case apply h => rcases h.pc with rfl | rfl <;> simp
        case revert h => rcases h.pc with rfl | rfl <;> simp
        case failRevert h => rcases h.pc with rfl | rfl <;> simp
        all_goals simp
      · have := (List.getElem?_eq_some_iff.1 hj).1
        omega
    · intro hp
      simpa using hs.one hp
    · intro hm
      have h0 := hs.early hm
      cases h : sh'.dir0 with
      | none => rfl
      | some d => rw [hd0 d h] at h0; cases h0

theorem reachable_dirs {cfg s} (hj : cfg.JobsOk) (h : Reachable cfg s) : Dirs cfg s :=
  reachable_invariant (dirs_init cfg) (fun _ _ _ => Dirs.step hj) h

end CM.Lab
