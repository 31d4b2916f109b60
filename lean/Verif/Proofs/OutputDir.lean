import Verif.Model.OutputDir
import Verif.Proofs.Output
/-! Helper lemmas about the output directory. -/
namespace CM

theorem applyAll_append (s : FsState) (a b : List FsOp) :
    s.applyAll (a ++ b) = (s.applyAll a).bind fun s => s.applyAll b := by
  induction a generalizing s with
  | nil => rfl
  | cons x a ih =>
    simp only [List.cons_append, FsState.applyAll]
    cases s.apply x with
    | none => rfl
    | some t => simp [ih]

/-- The directory that `createOps` leaves. -/
def freshDir : Dir :=
  Dir.put (Dir.put (Dir.put (Dir.put (Dir.put (Dir.put (Dir.put (fun _ => none)
    "lock.json".toList "lock".toList) "log".toList []) "diff".toList []) "missed.txt".toList [])
    "caught.txt".toList []) "unviable.txt".toList []) "timeout.txt".toList []

theorem createOps_spec (s : FsState) (hp : s.parent = true) (ho : s.out = none) :
    s.applyAll createOps = some { s with out := some freshDir } := by
  obtain ⟨p, o, l⟩ := s
  simp only at hp ho
  subst hp ho
  rfl

/-- The old directory after `OutputDir::new`. -/
def rotatedOld (s : FsState) : Option Dir :=
  match s.out with
  | some d => some (d.put "lock.json".toList "lock".toList)
  | none => s.old

theorem rotateOps_spec (s : FsState) :
    s.applyAll (rotateOps s) = some { s with out := none, old := rotatedOld s } := by
  obtain ⟨p, o, l⟩ := s
  cases o <;> cases l <;> simp [rotateOps, rotatedOld, FsState.applyAll, FsState.apply]

theorem newOutputDir_spec (s : FsState) :
    s.applyAll (newOutputDirOps s) = some ⟨true, some freshDir, rotatedOld s⟩ := by
  unfold newOutputDirOps
  have hr : ∀ s' : FsState, s'.parent = true → s'.out = s.out → s'.old = s.old →
      (s'.applyAll (rotateOps s ++ createOps)) = some ⟨true, some freshDir, rotatedOld s⟩ := by
    intro s' h1 h2 h3
    have e : rotateOps s = rotateOps s' := by unfold rotateOps; rw [h2, h3]
    have e' : rotatedOld s = rotatedOld s' := by unfold rotatedOld; rw [h2, h3]
    rw [applyAll_append, e, rotateOps_spec, e']
    simp only [Option.bind_some]
    rw [createOps_spec { s' with out := none, old := rotatedOld s' } h1 rfl]
    simp [h1]
  rw [List.append_assoc]
  cases hp : s.parent with
  | true => simp only [if_true, List.nil_append]; exact hr s hp rfl rfl
  | false =>
    simp only [Bool.false_eq_true, if_false, List.cons_append, List.nil_append, FsState.applyAll,
      FsState.apply, hp, Option.bind_some]
    exact hr _ rfl rfl rfl

/-- Two directories agree except for the lock file. -/
def AgreeExceptLock (d d' : Dir) : Prop := ∀ f, f ≠ "lock.json".toList → d' f = d f

theorem agree_put_lock {d d' : Dir} (h : AgreeExceptLock d d') (t : Text) :
    AgreeExceptLock d (d'.put "lock.json".toList t) := by
  intro f hf; simp only [Dir.put]; rw [if_neg hf]; exact h f hf

/-- Operations that leave `mutants.out.old` alone. -/
def FsOp.keepsOld : FsOp → Bool
  | .removeOld | .rotate => false
  | _ => true

theorem apply_keepsOld {s s' : FsState} {op : FsOp} (h : op.keepsOld = true)
    (ha : s.apply op = some s') : s'.old = s.old := by
  cases op <;> simp only [FsOp.keepsOld, Bool.false_eq_true] at h <;>
    simp only [FsState.apply] at ha
  case createParent => split at ha <;> simp at ha; rw [← ha]
  case writeLock => rw [Option.map_eq_some_iff] at ha; obtain ⟨d, _, rfl⟩ := ha; rfl
  case createOut => split at ha <;> simp at ha; rw [← ha]
  case createSubdir =>
    split at ha
    · split at ha <;> simp at ha; rw [← ha]
    · simp at ha
  case openList =>
    rw [Option.map_eq_some_iff] at ha
    obtain ⟨d, _, h⟩ := ha
    split at h <;> rw [← h]
  case writeNew =>
    split at ha
    · split at ha <;> simp at ha; rw [← ha]
    · simp at ha
  case replaceFile => rw [Option.map_eq_some_iff] at ha; obtain ⟨d, _, rfl⟩ := ha; rfl
  case appendTo =>
    split at ha
    · split at ha <;> simp at ha; rw [← ha]
    · simp at ha

theorem applyAll_keepsOld {s s' : FsState} {ops : List FsOp} (h : ∀ op ∈ ops, op.keepsOld = true)
    (ha : s.applyAll ops = some s') : s'.old = s.old := by
  induction ops generalizing s with
  | nil => simp only [FsState.applyAll, Option.some.injEq] at ha; rw [ha]
  | cons op ops ih =>
    simp only [FsState.applyAll] at ha
    cases h1 : s.apply op with
    | none => rw [h1] at ha; cases ha
    | some s1 =>
      rw [h1] at ha
      rw [ih (fun o ho => h o (by simp [ho])) ha, apply_keepsOld (h op (by simp)) h1]

/-- Within the rotation, the old results are in `mutants.out` or, at its end, in `mutants.out.old`. -/
theorem rotate_prefix (s s' : FsState) (d : Dir) (hd : s.out = some d) (k : Nat)
    (ha : s.applyAll ((rotateOps s).take k) = some s') :
    (k < (rotateOps s).length ∧ ∃ d', s'.out = some d' ∧ AgreeExceptLock d d') ∨
    ((rotateOps s).length ≤ k ∧ s'.out = none ∧ ∃ d', s'.old = some d' ∧ AgreeExceptLock d d') := by
  have hrefl : AgreeExceptLock d d := fun f _ => rfl
  by_cases hk : (rotateOps s).length ≤ k
  · right
    rw [List.take_of_length_le hk, rotateOps_spec] at ha
    simp only [Option.some.injEq] at ha
    subst ha
    exact ⟨hk, rfl, d.put "lock.json".toList "lock".toList, by simp [rotatedOld, hd], agree_put_lock hrefl _⟩
  · left
    refine ⟨by omega, ?_⟩
    obtain ⟨p, o, l⟩ := s
    simp only at hd; subst hd
    cases l with
    | none =>
      simp only [rotateOps, Option.isSome, if_true, Bool.false_eq_true, if_false, List.append_nil,
        List.cons_append, List.nil_append, List.length_cons, List.length_nil] at hk ha
      match k with
      | 0 => simp [FsState.applyAll] at ha; subst ha; exact ⟨d, rfl, hrefl⟩
      | 1 =>
        simp [FsState.applyAll, FsState.apply] at ha; subst ha
        exact ⟨_, rfl, agree_put_lock hrefl _⟩
      | k + 2 => omega
    | some l =>
      simp only [rotateOps, Option.isSome, if_true,
        List.cons_append, List.nil_append, List.length_cons, List.length_nil] at hk ha
      match k with
      | 0 => simp [FsState.applyAll] at ha; subst ha; exact ⟨d, rfl, hrefl⟩
      | 1 =>
        simp [FsState.applyAll, FsState.apply] at ha; subst ha
        exact ⟨_, rfl, agree_put_lock hrefl _⟩
      | 2 =>
        simp [FsState.applyAll, FsState.apply] at ha; subst ha
        exact ⟨_, rfl, agree_put_lock hrefl _⟩
      | k + 3 => omega

/-! ### iterate -/

theorem fileName_injective {l l' : ListFile} (h : l.fileName = l'.fileName) : l = l' := by
  cases l <;> cases l' <;> first | rfl | (exfalso; revert h; decide)

/-- The list files on disk are those of the recording model. -/
def ListsMatch (d : Dir) (f : OutputFiles) : Prop := ∀ l, d (ListFile.fileName l) = some (f.get l)

theorem apply_write (s : FsState) (d : Dir) (hd : s.out = some d) (f g : OutputFiles)
    (hm : ListsMatch d f) (w : OutputWrite) (hw : f.write w = some g) :
    ∃ d', s.applyAll w.toFsOps = some { s with out := some d' } ∧ ListsMatch d' g ∧
      d' "previously_caught.txt".toList = d "previously_caught.txt".toList := by
  have hjson : ∀ l, ListFile.fileName l ≠ "outcomes.json".toList := by
    intro l; cases l <;> decide
  have hprev : ∀ l, "previously_caught.txt".toList ≠ ListFile.fileName l := by
    intro l; cases l <;> decide
  have happ : ∀ l t, f.append l t = g →
      ∃ d', s.applyAll [.appendTo l.fileName t] = some { s with out := some d' } ∧
        ListsMatch d' g ∧ d' "previously_caught.txt".toList = d "previously_caught.txt".toList := by
    intro l t hg
    subst hg
    refine ⟨d.put l.fileName (f.get l ++ t), ?_, ?_, ?_⟩
    · simp [FsState.applyAll, FsState.apply, hd, hm l]
    · intro l'
      simp only [Dir.put, append_get]
      by_cases he : l = l'
      · subst he; simp
      · rw [if_neg (fun h => he (fileName_injective h).symm), hm l']; simp [he]
    · simp only [Dir.put]; rw [if_neg (hprev l)]
  cases w with
  | remember o =>
    simp only [OutputFiles.write, Option.map_eq_some_iff] at hw
    obtain ⟨lab, _, rfl⟩ := hw
    refine ⟨d, by simp only [OutputWrite.toFsOps, FsState.applyAll, ← hd], ?_, rfl⟩
    intro l; rw [hm l]; cases l <;> rfl
  | truncateJson =>
    simp only [OutputFiles.write, Option.some.injEq] at hw
    subst hw
    refine ⟨d.put "outcomes.json".toList [], by
      simp only [OutputWrite.toFsOps, FsState.applyAll, FsState.apply, hd, Option.map_some,
        Option.bind_some], ?_, ?_⟩
    · intro l; simp only [Dir.put]; rw [if_neg (hjson l), hm l]; cases l <;> rfl
    · simp only [Dir.put]; rw [if_neg (by decide)]
  | writeJson =>
    simp only [OutputFiles.write, Option.some.injEq] at hw
    subst hw
    refine ⟨d.put "outcomes.json".toList "{}".toList, by
      simp only [OutputWrite.toFsOps, FsState.applyAll, FsState.apply, hd, Option.map_some,
        Option.bind_some], ?_, ?_⟩
    · intro l; simp only [Dir.put]; rw [if_neg (hjson l), hm l]; cases l <;> rfl
    · simp only [Dir.put]; rw [if_neg (by decide)]
  | appendName l n =>
    simp only [OutputFiles.write, Option.some.injEq] at hw
    exact happ l n hw
  | appendNewline l =>
    simp only [OutputFiles.write, Option.some.injEq] at hw
    exact happ l _ hw

theorem apply_writes (s : FsState) (d : Dir) (hd : s.out = some d) (f g : OutputFiles)
    (hm : ListsMatch d f) (ws : List OutputWrite) (hw : f.writeAll ws = some g) :
    ∃ d', s.applyAll (ws.flatMap OutputWrite.toFsOps) = some { s with out := some d' } ∧
      ListsMatch d' g ∧ d' "previously_caught.txt".toList = d "previously_caught.txt".toList := by
  induction ws generalizing s d f with
  | nil =>
    simp only [OutputFiles.writeAll, Option.some.injEq] at hw
    subst hw
    exact ⟨d, by simp only [List.flatMap_nil, FsState.applyAll, ← hd], hm, rfl⟩
  | cons w ws ih =>
    simp only [OutputFiles.writeAll] at hw
    cases h1 : f.write w with
    | none => rw [h1] at hw; cases hw
    | some f1 =>
      rw [h1] at hw
      obtain ⟨d1, a1, a2, a3⟩ := apply_write s d hd f f1 hm w h1
      obtain ⟨d2, b1, b2, b3⟩ := ih { s with out := some d1 } d1 rfl f1 a2 hw
      exact ⟨d2, by rw [List.flatMap_cons, applyAll_append, a1]; exact b1, b2, by rw [b3, a3]⟩

/-- Stopping in the middle of the recorded writes is stopping after some of them. -/
theorem take_flatMap_writes (ws : List OutputWrite) (k : Nat) :
    ∃ j, (ws.flatMap OutputWrite.toFsOps).take k = (ws.take j).flatMap OutputWrite.toFsOps := by
  induction ws generalizing k with
  | nil => exact ⟨0, by simp⟩
  | cons w ws ih =>
    have hlen : w.toFsOps.length ≤ 1 := by cases w <;> simp [OutputWrite.toFsOps]
    rw [List.flatMap_cons, List.take_append]
    cases k with
    | zero => exact ⟨0, by simp⟩
    | succ k =>
      obtain ⟨j, hj⟩ := ih (k + 1 - w.toFsOps.length)
      refine ⟨j + 1, ?_⟩
      rw [hj, List.take_of_length_le (by omega)]
      simp

end CM
