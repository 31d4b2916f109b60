import Verif.Proofs.Walk
import Verif.Props.ModSource
/-! C45: every module reachable from a target's top file is walked. -/
namespace CM.Props
open CM CM.Spec

/-- No reachable file gives an error: each can be read and parsed. -/
def NoErrors (env : WalkEnv) (pkg : Package) : Prop := ∀ x, Reach env pkg x → walkOne env pkg x.1 x.2 ≠ none

/-- **C45**: the walk of a package ends, has visited exactly the reachable files inside the tree that are
not excluded, and each only once. -/
def C45_full : Prop :=
  ∀ (env : WalkEnv) (pkg : Package), pkg.topSources.Nodup → NoErrors env pkg →
    ∃ ms fs, WalksPackage env pkg ms fs ∧
      (∀ sf, sf ∈ fs ↔ ∃ x, Reach env pkg x ∧ sf ∈ fileOf env pkg x) ∧ (fs.map (·.path)).Nodup

/-- **C45**: the files are exactly the reachable ones that are inside the tree and not excluded. -/
theorem C45_files (env : WalkEnv) (pkg : Package) (ms : List Mutant) (fs : List SourceFile) (h : WalksPackage env pkg ms fs)
    (sf : SourceFile) : sf ∈ fs ↔ ∃ x, Reach env pkg x ∧ loadSource env.read env.root x.1 pkg x.2 = some (some sf) ∧
      env.options.allowsSourceFilePath sf.path = true := by
  obtain ⟨done, ha, _, hf, _, _, hr⟩ := walks_done h
  rw [hf, List.mem_flatMap]
  constructor
  · rintro ⟨x, hx, hs⟩
    refine ⟨x, hr x hx, ?_⟩
    unfold fileOf at hs
    cases hl : loadSource env.read env.root x.1 pkg x.2 with
    | none => rw [hl] at hs; cases hs
    | some o =>
      cases o with
      | none => rw [hl] at hs; cases hs
      | some sf' =>
        rw [hl] at hs
        dsimp only at hs
        by_cases hal : env.options.allowsSourceFilePath sf'.path = true
        · rw [if_pos hal] at hs
          cases List.mem_singleton.1 hs
          exact ⟨rfl, hal⟩
        · rw [if_neg hal] at hs; cases hs
  · rintro ⟨x, hx, hl, hal⟩
    refine ⟨x, mem_done ha x hx, ?_⟩
    unfold fileOf
    rw [hl]
    dsimp only
    rw [if_pos hal]
    exact List.mem_singleton.2 rfl

/-- **C45**: the mutants are exactly the ones in those files: at a position that is not left alone, and
allowed by the filters. -/
theorem C45_mutants (env : WalkEnv) (pkg : Package) (ms : List Mutant) (fs : List SourceFile) (h : WalksPackage env pkg ms fs)
    (m : Mutant) : m ∈ ms ↔ ∃ x sf syn, Reach env pkg x ∧ Content env pkg x sf syn ∧
      env.options.allowsSourceFilePath sf.path = true ∧ MutantOf env sf syn m := by
  have hfiles := C45_files env pkg ms fs h
  obtain ⟨done, ha, _, hf, hm, hg, hr⟩ := walks_done h
  rw [hm, List.mem_flatMap]
  constructor
  · rintro ⟨sf, hs, hmem⟩
    obtain ⟨x, hx, hl, hal⟩ := (hfiles sf).1 hs
    cases hp : env.parse sf.code with
    | none => unfold fileMutants at hmem; rw [hp] at hmem; cases hmem
    | some syn => exact ⟨x, sf, syn, hx, ⟨hl, hp⟩, hal, (mem_fileMutants env sf syn hp m).1 hmem⟩
  · rintro ⟨x, sf, syn, hx, hc, hal, hmo⟩
    exact ⟨sf, (hfiles sf).2 ⟨x, hx, hc.1, hal⟩, (mem_fileMutants env sf syn hc.2 m).2 hmo⟩

/-- **C45**: every file in the list contributes its mutants once, in the order of the files. -/
theorem C45_contributes (env : WalkEnv) (pkg : Package) (ms : List Mutant) (fs : List SourceFile) (h : WalksPackage env pkg ms fs) :
    ms = fs.flatMap (fileMutants env) := by
  obtain ⟨_, _, _, _, hm, _, _⟩ := walks_done h
  exact hm

/-- **C45**: a reachable file inside the tree that cannot be read or parsed is an error: nothing is
silently left out. -/
theorem C45_errors (env : WalkEnv) (pkg : Package) (ms : List Mutant) (fs : List SourceFile) (h : WalksPackage env pkg ms fs)
    (x : Path × Bool) (hx : Reach env pkg x) (hin : ascent x.1 ≤ 0) : ∃ sf syn, Content env pkg x sf syn := by
  obtain ⟨done, ha, _, _, _, hg, _⟩ := walks_done h
  have := hg x (mem_done ha x hx)
  cases hw : walkOne env pkg x.1 x.2 with
  | none => exact absurd hw this
  | some o =>
    cases o with
    | none =>
      have := walkOne_outside env pkg x.1 x.2 hw
      unfold loadSource at this
      rw [if_neg (by omega)] at this
      obtain ⟨t, _, h⟩ := Option.bind_eq_some_iff.1 this
      cases h
    | some r =>
      obtain ⟨sf, ms, mods⟩ := r
      obtain ⟨syn, hc, _⟩ := walkOne_some env pkg x.1 x.2 sf ms mods hw
      exact ⟨sf, syn, hc⟩

/-! ### When it ends -/

mutual
/-- How many files are taken from the queue because of one. -/
inductive Weight (env : WalkEnv) (pkg : Package) : Path × Bool → Nat → Prop
  | mk {x k} : Weights env pkg (nexts env pkg x) k → Weight env pkg x (k + 1)
inductive Weights (env : WalkEnv) (pkg : Package) : List (Path × Bool) → Nat → Prop
  | nil : Weights env pkg [] 0
  | cons {x l a b} : Weight env pkg x a → Weights env pkg l b → Weights env pkg (x :: l) (a + b)
end

theorem weights_append {env : WalkEnv} {pkg : Package} : ∀ {l l' : List (Path × Bool)} {a b : Nat}, Weights env pkg l a →
    Weights env pkg l' b → Weights env pkg (l ++ l') (b + a)
  | [], l', a, b, h, h' => by cases h; exact h'
  | x :: l, l', a, b, h, h' => by
    cases h with
    | cons h1 h2 =>
      have := Weights.cons h1 (weights_append h2 h')
      rw [List.cons_append]
      rw [show b + (_ + _) = _ from Nat.add_left_comm _ _ _]
      exact this

theorem weights_of {env : WalkEnv} {pkg : Package} (l : List (Path × Bool)) (h : ∀ x ∈ l, ∃ k, Weight env pkg x k) :
    ∃ k, Weights env pkg l k := by
  induction l with
  | nil => exact ⟨0, .nil⟩
  | cons x l ih =>
    obtain ⟨a, ha⟩ := h x (by simp)
    obtain ⟨b, hb⟩ := ih (fun y hy => h y (by simp [hy]))
    exact ⟨a + b, .cons ha hb⟩

/-- `y` is named by a `mod` statement of `x`. -/
def NamedBy (env : WalkEnv) (pkg : Package) (y x : Path × Bool) : Prop := y.2 = false ∧ Refers env pkg x y.1

theorem weight_of_acc {env : WalkEnv} {pkg : Package} {x : Path × Bool} (h : Acc (NamedBy env pkg) x) : ∃ k, Weight env pkg x k := by
  induction h with
  | intro x _ ih =>
    obtain ⟨k, hk⟩ := weights_of (nexts env pkg x) (fun y hy => ih y (mem_nexts.1 hy))
    exact ⟨k + 1, .mk hk⟩

theorem step_queue {env : WalkEnv} {pkg : Package} {done : List (Path × Bool)} {s : WalkState} {x : Path × Bool} {rest : List (Path × Bool)}
    (h : WalkInv env pkg done s) (hq : s.queue = x :: rest) (hg : walkOne env pkg x.1 x.2 ≠ none) :
    ∃ s', walkStep env pkg s = some s' ∧ s'.queue = rest ++ nexts env pkg x ∧ WalkInv env pkg (done ++ [x]) s' := by
  have : ∃ s', walkStep env pkg s = some s' := by
    unfold walkStep
    rw [hq]
    obtain ⟨p, t⟩ := x
    dsimp only at *
    cases hw : walkOne env pkg p t with
    | none => exact absurd hw hg
    | some o =>
      cases o with
      | none => exact ⟨_, rfl⟩
      | some r =>
        obtain ⟨sf, ms, mods⟩ := r
        dsimp only
        by_cases ha : env.options.allowsSourceFilePath sf.path = true
        · rw [if_pos ha]; exact ⟨_, rfl⟩
        · rw [if_neg ha]; exact ⟨_, rfl⟩
  obtain ⟨s', hs⟩ := this
  obtain ⟨done', hi, hd, _⟩ := walkInv_step h hs
  cases hd x rest hq
  refine ⟨s', hs, ?_, hi⟩
  have h1 := hi.all
  have h2 := h.all
  rw [hq] at h2
  rw [List.flatMap_append, ← List.append_assoc, ← h2] at h1
  simpa using h1

theorem walk_ends {env : WalkEnv} {pkg : Package} (hne : NoErrors env pkg) (n : Nat) (done : List (Path × Bool)) (s : WalkState)
    (hi : WalkInv env pkg done s) (hw : Weights env pkg s.queue n) : ∃ s', walkSteps env pkg n s = some s' ∧ s'.queue = [] := by
  induction n generalizing done s with
  | zero =>
    refine ⟨s, rfl, ?_⟩
    cases hq : s.queue with
    | nil => rfl
    | cons x rest =>
      rw [hq] at hw
      generalize hz : 0 = z at hw
      cases hw with
      | cons h1 h2 => cases h1; omega
  | succ n ih =>
    cases hq : s.queue with
    | nil => rw [hq] at hw; cases hw
    | cons x rest =>
      rw [hq] at hw
      generalize hz : n + 1 = z at hw
      cases hw with
      | cons h1 h2 =>
        cases h1 with
        | mk h1 =>
          obtain ⟨s1, hs, hq1, hi1⟩ := step_queue hi hq (hne x (hi.sound x (by rw [hq]; simp)))
          have hw' := weights_append h2 h1
          rw [← hq1] at hw'
          have hn := Nat.succ.inj (hz.trans (Nat.add_right_comm _ _ _))
          rw [← hn] at hw'
          obtain ⟨s', h1', h2'⟩ := ih _ s1 hi1 hw'
          exact ⟨s', by rw [← hz]; show (walkStep env pkg s).bind _ = _; rw [hs]; exact h1', h2'⟩

/-- **C45**: the walk of a package without errors ends exactly if there is no endless chain of `mod`
statements from a top file. -/
theorem C45_ends (env : WalkEnv) (pkg : Package) (hne : NoErrors env pkg) :
    (∃ ms fs, WalksPackage env pkg ms fs) ↔ ∀ p ∈ pkg.topSources, Acc (NamedBy env pkg) (p, true) := by
  constructor
  · rintro ⟨ms, fs, h⟩ p hp
    obtain ⟨done, ha, hl, _⟩ := walks_done h
    have key : ∀ n, ∀ pre x post, done = pre ++ x :: post → post.length ≤ n → Acc (NamedBy env pkg) x := by
      intro n
      induction n with
      | zero =>
        intro pre x post he hle
        refine ⟨_, fun y hy => ?_⟩
        have := hl pre x post he y (mem_nexts.2 hy)
        cases post with
        | nil => cases this
        | cons _ _ => simp at hle
      | succ n ih =>
        intro pre x post he hle
        refine ⟨_, fun y hy => ?_⟩
        obtain ⟨a, b, hab⟩ := List.append_of_mem (hl pre x post he y (mem_nexts.2 hy))
        refine ih (pre ++ x :: a) y b (by rw [he, hab]; simp) ?_
        rw [hab] at hle
        simp at hle; omega
    obtain ⟨a, b, hab⟩ := List.append_of_mem (mem_done ha (p, true) (.top hp))
    exact key b.length a _ b hab (Nat.le_refl _)
  · intro h
    obtain ⟨k, hk⟩ := weights_of (walkStart pkg).queue (by
      intro x hx
      obtain ⟨p, hp, rfl⟩ := List.mem_map.1 hx
      exact weight_of_acc (h p hp))
    obtain ⟨s, h1, h2⟩ := walk_ends hne k [] _ (walkInv_start env pkg) hk
    exact ⟨_, _, k, s, h1, h2, rfl, rfl⟩

/-! ### Once -/

/-- **C45**, for packages where every file is named only once: by being a top file or by one `mod`
statement. Then it is visited once. Without this it is not, see `C45_twice_false`. -/
theorem C45_once_partial (env : WalkEnv) (pkg : Package) (ms : List Mutant) (fs : List SourceFile) (h : WalksPackage env pkg ms fs)
    (htop : pkg.topSources.Nodup) (hnot : ∀ x p, Reach env pkg x → Refers env pkg x p → p ∉ pkg.topSources)
    (hone : ∀ x, Reach env pkg x → (modFiles env pkg x).Nodup)
    (hdis : ∀ x y p, Reach env pkg x → Reach env pkg y → Refers env pkg x p → Refers env pkg y p → x = y) :
    (fs.map (·.path)).Nodup := by
  have step : ∀ done s, WalkInv env pkg done s → ((done ++ s.queue).map Prod.fst).Nodup → ∀ n s', walkSteps env pkg n s = some s' →
      ∃ done', WalkInv env pkg done' s' ∧ ((done' ++ s'.queue).map Prod.fst).Nodup := by
    intro done s hi hn n
    induction n generalizing done s with
    | zero => intro s' hs; cases hs; exact ⟨done, hi, hn⟩
    | succ n ih =>
      intro s' hs
      obtain ⟨s1, h1, h2⟩ := Option.bind_eq_some_iff.1 hs
      cases hq : s.queue with
      | nil =>
        obtain ⟨_, _, _, he⟩ := walkInv_step hi h1
        cases he hq
        exact ih done s hi hn s' h2
      | cons x rest =>
        have hg : walkOne env pkg x.1 x.2 ≠ none := by
          intro hw
          unfold walkStep at h1
          rw [hq] at h1
          obtain ⟨p, t⟩ := x
          dsimp only at h1 hw
          rw [hw] at h1; cases h1
        obtain ⟨s2, h1', hq1, hi1⟩ := step_queue hi hq hg
        rw [h1] at h1'; cases h1'
        refine ih _ s1 hi1 ?_ s' h2
        have hall : (done ++ [x]) ++ s1.queue = (done ++ s.queue) ++ nexts env pkg x := by rw [hq, hq1]; simp
        have hx : Reach env pkg x := hi.sound x (by rw [hq]; simp)
        rw [hall, List.map_append]
        refine List.nodup_append.2 ⟨hn, ?_, ?_⟩
        · have : (nexts env pkg x).map Prod.fst = modFiles env pkg x := by
            unfold nexts; rw [List.map_map]; exact List.map_id' _
          rw [this]
          exact hone x hx
        · intro a ha b hb hab
          subst hab
          obtain ⟨y, hy, rfl⟩ := List.mem_map.1 hb
          have hry := (mem_nexts.1 hy).2
          obtain ⟨z, hz, hzy⟩ := List.mem_map.1 ha
          rw [hi.all] at hz
          rcases List.mem_append.1 hz with hz | hz
          · obtain ⟨p, hp, rfl⟩ := List.mem_map.1 hz
            exact hnot x _ hx hry (hzy ▸ hp)
          · obtain ⟨w, hw, hz⟩ := List.mem_flatMap.1 hz
            have hrz := (mem_nexts.1 hz).2
            rw [hzy] at hrz
            have := hdis w x _ (hi.sound w (List.mem_append_left _ hw)) hx hrz hry
            subst this
            rw [hq, List.map_append, List.nodup_append] at hn
            exact hn.2.2 w.1 (List.mem_map_of_mem hw) w.1 (by simp) rfl
  obtain ⟨n, s, h1, h2, h3, h4⟩ := h
  obtain ⟨done, hi, hn⟩ := step [] _ (walkInv_start env pkg) (by
    unfold walkStart
    rw [List.nil_append, List.map_map]
    have : (Prod.fst ∘ fun (p : Path) => (p, true)) = id := rfl
    rw [this, List.map_id]; exact htop) n s h1
  rw [h2, List.append_nil] at hn
  rw [← h4, hi.files]
  clear hi h1
  induction done with
  | nil => exact List.nodup_nil
  | cons x done ih =>
    rw [List.map_cons, List.nodup_cons] at hn
    have hf : ∀ y sf, sf ∈ fileOf env pkg y → sf.path = y.1 := by
      intro y sf hsf
      unfold fileOf loadSource at hsf
      by_cases ha : ascent y.1 > 0
      · rw [if_pos ha] at hsf; cases hsf
      · rw [if_neg ha] at hsf
        cases hr : env.read (joinPath env.root y.1) with
        | none => rw [hr] at hsf; cases hsf
        | some t =>
          rw [hr] at hsf
          simp only [Option.bind_eq_bind, Option.bind_some, Option.pure_def] at hsf
          by_cases hal : env.options.allowsSourceFilePath y.1 = true
          · rw [if_pos hal] at hsf; cases List.mem_singleton.1 hsf; rfl
          · rw [if_neg hal] at hsf; cases hsf
    have hlen : (fileOf env pkg x).length ≤ 1 := by
      unfold fileOf
      split
      · split <;> simp
      · simp
    rw [List.flatMap_cons, List.map_append]
    refine List.nodup_append.2 ⟨?_, ih hn.2, ?_⟩
    · match fileOf env pkg x, hlen with
      | [], _ => exact List.nodup_nil
      | [a], _ => simp
      | _ :: _ :: _, h => simp at h
    · intro a ha b hb hab
      subst hab
      obtain ⟨s1, hs1, rfl⟩ := List.mem_map.1 ha
      obtain ⟨s2, hs2, he⟩ := List.mem_map.1 hb
      obtain ⟨y, hy, hs2⟩ := List.mem_flatMap.1 hs2
      rw [hf x s1 hs1, hf y s2 hs2] at he
      exact hn.1 (he ▸ List.mem_map_of_mem hy)

/-! ### Examples -/

/-- A crate: files with `mod` statements, each with a name and a path attribute. -/
def sampleCrate (files : List (String × List (String × Option String))) : WalkEnv where
  root := []
  read p := (files.find? fun f => components f.1.toList == p).map fun f => f.1.toList
  isFile p := files.any fun f => components f.1.toList == p
  parse t := (files.find? fun f => f.1.toList == t).map fun f =>
    { attrs := [], items := f.2.map fun (name, path) =>
        .mk (.mod name.toList false (sampleSpan 1 1 9))
          (path.toList.map fun v => ⟨⟨false, ["path".toList]⟩, .nameValue (some v.toList)⟩) [] }
  errorExprs := []
  options := {}

def samplePkg (tops : List String) : Package := ⟨"p".toList, "1.0.0".toList, [], tops.map fun t => components t.toList⟩

theorem walkSteps_add (env : WalkEnv) (pkg : Package) (a b : Nat) (s : WalkState) :
    walkSteps env pkg (a + b) s = (walkSteps env pkg a s).bind (walkSteps env pkg b) := by
  induction a generalizing s with
  | zero => rw [Nat.zero_add]; rfl
  | succ a ih =>
    rw [Nat.add_right_comm]
    show (walkStep env pkg s).bind _ = ((walkStep env pkg s).bind _).bind _
    cases walkStep env pkg s with
    | none => rfl
    | some s1 => exact ih s1

theorem walkSteps_empty (env : WalkEnv) (pkg : Package) (n : Nat) (s : WalkState) (h : s.queue = []) : walkSteps env pkg n s = some s := by
  induction n with
  | zero => rfl
  | succ n ih =>
    show (walkStep env pkg s).bind _ = _
    unfold walkStep
    rw [h]
    exact ih

/-- **C45**: the walk has one result. -/
theorem C45_unique (env : WalkEnv) (pkg : Package) (ms ms' : List Mutant) (fs fs' : List SourceFile)
    (h : WalksPackage env pkg ms fs) (h' : WalksPackage env pkg ms' fs') : ms = ms' ∧ fs = fs' := by
  have key : ∀ n n' s s', n ≤ n' → walkSteps env pkg n (walkStart pkg) = some s → s.queue = [] →
      walkSteps env pkg n' (walkStart pkg) = some s' → s' = s := by
    intro n n' s s' hle h1 h2 h3
    obtain ⟨k, rfl⟩ := Nat.exists_eq_add_of_le hle
    rw [walkSteps_add, h1] at h3
    simp only [Option.bind_some] at h3
    rw [walkSteps_empty env pkg k s h2] at h3
    exact (Option.some.inj h3).symm
  obtain ⟨n, s, h1, h2, h3, h4⟩ := h
  obtain ⟨n', s', h1', h2', h3', h4'⟩ := h'
  have : s = s' := by
    rcases Nat.le_total n n' with hle | hle
    · exact (key n n' s s' hle h1 h2 h1').symm
    · exact key n' n s' s hle h1' h2' h1
  subst this
  exact ⟨h3 ▸ h3' ▸ rfl, h4 ▸ h4' ▸ rfl⟩

/-- All files of a list give no error, and they name only files of the list. -/
def checkClosed (env : WalkEnv) (pkg : Package) (l : List (Path × Bool)) : Bool :=
  pkg.topSources.all (fun p => l.contains (p, true)) &&
  l.all fun x =>
    match walkOne env pkg x.1 x.2 with
    | none => false
    | some none => true
    | some (some (_, _, mods)) => mods.all fun p => l.contains (p, false)

theorem reach_closed {env : WalkEnv} {pkg : Package} {l : List (Path × Bool)} (h : checkClosed env pkg l = true) :
    ∀ x, Reach env pkg x → x ∈ l ∧ walkOne env pkg x.1 x.2 ≠ none := by
  rw [checkClosed, Bool.and_eq_true, List.all_eq_true, List.all_eq_true] at h
  have hw : ∀ x ∈ l, walkOne env pkg x.1 x.2 ≠ none := by
    intro x hx hn
    have := h.2 x hx
    rw [hn] at this
    cases this
  intro x hx
  suffices hm : x ∈ l from ⟨hm, hw x hm⟩
  induction hx with
  | top hp => simpa using h.1 _ hp
  | @next x file hr href ih =>
    have hm := h.2 x ih
    have hf := (mem_modFiles env pkg x file).2 href
    cases ho : walkOne env pkg x.1 x.2 with
    | none => exact absurd ho (hw x ih)
    | some o =>
      rw [ho] at hm
      cases o with
      | none =>
        rw [modFiles_outside (walkOne_outside env pkg x.1 x.2 ho)] at hf
        cases hf
      | some r =>
        obtain ⟨sf, ms, mods⟩ := r
        obtain ⟨_, _, _, he⟩ := walkOne_some env pkg x.1 x.2 sf ms mods ho
        dsimp only at hm
        rw [List.all_eq_true] at hm
        rw [← he] at hf
        simpa using hm file hf

theorem noErrors_of {env : WalkEnv} {pkg : Package} (l : List (Path × Bool)) (h : checkClosed env pkg l = true) : NoErrors env pkg :=
  fun x hx => (reach_closed h x hx).2

def sampleTwice : WalkEnv := sampleCrate [("src/lib.rs", [("common", none)]), ("src/main.rs", [("common", none)]), ("src/common.rs", [])]

/-- **C45** does not hold in full: a module of both the library and the binary is walked twice. -/
theorem C45_twice_false : ¬ C45_full := by
  intro h
  obtain ⟨ms, fs, hw, _, hn⟩ := h sampleTwice (samplePkg ["src/lib.rs", "src/main.rs"]) (by decide)
    (noErrors_of [(components "src/lib.rs".toList, true), (components "src/main.rs".toList, true), (components "src/common.rs".toList, false)]
      (by decide +kernel))
  obtain ⟨n, s, h1, h2, h3, h4⟩ : ∃ n s, walkSteps sampleTwice (samplePkg ["src/lib.rs", "src/main.rs"]) n (walkStart (samplePkg ["src/lib.rs", "src/main.rs"])) = some s ∧
      s.queue = [] ∧ s.mutants = s.mutants ∧ ¬ (s.files.map (·.path)).Nodup := by
    refine ⟨4, _, rfl, by decide +kernel, rfl, by decide +kernel⟩
  have := (C45_unique _ _ _ _ _ _ hw ⟨n, s, h1, h2, rfl, rfl⟩).2
  exact h4 (this ▸ hn)

def sampleLoop : WalkEnv := sampleCrate [("src/lib.rs", [("a", some "lib.rs")])]

/-- **C45** does not hold in full: the walk does not end if a file names itself by a path attribute, or
names one that names it. (The compiler reports this as an error.) -/
theorem C45_cycle_false : ¬ C45_full := by
  intro h
  obtain ⟨ms, fs, hw, _⟩ := h sampleLoop (samplePkg ["src/lib.rs"]) (by decide)
    (noErrors_of [(components "src/lib.rs".toList, true), (components "src/lib.rs".toList, false)] (by decide +kernel))
  have hne : NoErrors sampleLoop (samplePkg ["src/lib.rs"]) :=
    noErrors_of [(components "src/lib.rs".toList, true), (components "src/lib.rs".toList, false)] (by decide +kernel)
  have hacc := (C45_ends _ _ hne).1 ⟨ms, fs, hw⟩ (components "src/lib.rs".toList) (by decide)
  have href : ∀ t, Refers sampleLoop (samplePkg ["src/lib.rs"]) (components "src/lib.rs".toList, t) (components "src/lib.rs".toList) := by
    intro t
    rw [← mem_modFiles]
    obtain ⟨sf, ms, h⟩ : ∃ sf ms, walkOne sampleLoop (samplePkg ["src/lib.rs"]) (components "src/lib.rs".toList) t =
        some (some (sf, ms, [components "src/lib.rs".toList])) := by
      have hd : ((walkOne sampleLoop (samplePkg ["src/lib.rs"]) (components "src/lib.rs".toList) t).map fun o => o.map fun r => r.2.2) =
          some (some [components "src/lib.rs".toList]) := by cases t <;> decide +kernel
      obtain ⟨o, ho, hd⟩ := Option.map_eq_some_iff.1 hd
      obtain ⟨⟨sf, ms, mods⟩, hr, hd⟩ := Option.map_eq_some_iff.1 hd
      dsimp only at hd
      subst hd
      exact ⟨sf, ms, by rw [ho, hr]⟩
    obtain ⟨_, _, _, he⟩ := walkOne_some _ _ _ _ _ _ _ h
    rw [← he]
    exact List.mem_singleton.2 rfl
  have hirr : ∀ x, Acc (NamedBy sampleLoop (samplePkg ["src/lib.rs"])) x → ¬ NamedBy sampleLoop (samplePkg ["src/lib.rs"]) x x := by
    intro x hx
    induction hx with
    | intro x _ ih => intro hxx; exact ih x hxx hxx
  exact hirr _ (hacc.inv (y := (components "src/lib.rs".toList, false)) ⟨rfl, href true⟩) ⟨rfl, href false⟩

/-- A crate for which the hypotheses of `C45_once_partial` and `C45_ends` are met, with a file outside the tree. -/
def sampleOnce : WalkEnv := sampleCrate [("src/lib.rs", [("a", none), ("gone", none), ("out", some "../../x.rs")]), ("src/a.rs", [("b", none)]), ("src/a/b.rs", []), ("src/../../x.rs", [])]

example : ((walkSteps sampleOnce (samplePkg ["src/lib.rs"]) 4 (walkStart (samplePkg ["src/lib.rs"]))).map fun s => (s.queue, s.files.map (·.path))) =
    some ([], ["src/lib.rs", "src/a.rs", "src/a/b.rs"].map fun f => components f.toList) := by decide +kernel

/-! ### The tree -/

/-- **C45** for a workspace: the files and mutants are those of the packages, in order. -/
theorem C45_tree (env : WalkEnv) (pkgs : List Package) (ms : List Mutant) (fs : List SourceFile) (h : WalksTree env pkgs ms fs) :
    (∀ sf, sf ∈ fs ↔ ∃ pkg ∈ pkgs, ∃ x, Reach env pkg x ∧ loadSource env.read env.root x.1 pkg x.2 = some (some sf) ∧
      env.options.allowsSourceFilePath sf.path = true) ∧
    (∀ m, m ∈ ms ↔ ∃ pkg ∈ pkgs, ∃ x sf syn, Reach env pkg x ∧ Content env pkg x sf syn ∧
      env.options.allowsSourceFilePath sf.path = true ∧ MutantOf env sf syn m) ∧
    ms = fs.flatMap (fileMutants env) := by
  induction h with
  | nil => simp
  | @cons pkg pkgs ms fs ms' fs' h1 h2 ih =>
    obtain ⟨ih1, ih2, ih3⟩ := ih
    refine ⟨fun sf => ?_, fun m => ?_, ?_⟩
    · rw [List.mem_append, ih1, C45_files env pkg ms fs h1]; simp only [List.mem_cons, exists_eq_or_imp]
    · rw [List.mem_append, ih2, C45_mutants env pkg ms fs h1]; simp only [List.mem_cons, exists_eq_or_imp]
    · rw [List.flatMap_append, ← ih3, ← C45_contributes env pkg ms fs h1]

end CM.Props
