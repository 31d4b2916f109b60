import Verif.Spec.Walk
import Verif.Props.Visit
/-! The queue of `walk_package`. -/
namespace CM.Props
open CM CM.Spec

theorem retain_eq (o : Options) (ms r : List Mutant) (h : retainAllowed o ms = some r) :
    r = ms.filter fun m => o.allowsMutant m = some true := by
  induction ms generalizing r with
  | nil => cases h; rfl
  | cons m rest ih =>
    rw [retainAllowed] at h
    obtain ⟨keep, hk, h⟩ := Option.bind_eq_some_iff.1 h
    obtain ⟨r', hr, h⟩ := Option.bind_eq_some_iff.1 h
    cases h
    rw [ih r' hr]
    cases keep <;> simp [hk]

theorem findMods_eq (isFile : Path → Bool) (sf : SourceFile) (ps : List (List ModNamespace)) (r : List Path)
    (h : findMods isFile sf ps = some r) : r = ps.filterMap fun parts => (findModSource isFile sf parts).join := by
  induction ps generalizing r with
  | nil => cases h; rfl
  | cons p rest ih =>
    rw [findMods] at h
    obtain ⟨found, hk, h⟩ := Option.bind_eq_some_iff.1 h
    obtain ⟨r', hr, h⟩ := Option.bind_eq_some_iff.1 h
    cases h
    rw [ih r' hr]
    cases found <;> simp [hk]

/-- What one file gives. -/
theorem walkOne_some (env : WalkEnv) (pkg : Package) (p : Path) (t : Bool) (sf : SourceFile) (ms : List Mutant) (mods : List Path)
    (h : walkOne env pkg p t = some (some (sf, ms, mods))) :
    ∃ syn, Content env pkg (p, t) sf syn ∧ ms = fileMutants env sf ∧ mods = modFiles env pkg (p, t) := by
  unfold walkOne at h
  obtain ⟨o, ho, h⟩ := Option.bind_eq_some_iff.1 h
  cases o with
  | none => cases h
  | some sf' =>
    dsimp only at h
    obtain ⟨syn, hs, h⟩ := Option.bind_eq_some_iff.1 h
    obtain ⟨⟨a, b⟩, hw, h⟩ := Option.bind_eq_some_iff.1 h
    obtain ⟨ms', hm, h⟩ := Option.bind_eq_some_iff.1 h
    obtain ⟨mods', hf, h⟩ := Option.bind_eq_some_iff.1 h
    cases h
    refine ⟨syn, ⟨ho, hs⟩, ?_, ?_⟩
    · rw [retain_eq _ _ _ hm]
      unfold fileMutants
      rw [hs]
      rw [walkFile_spec] at hw
      by_cases hk : ∃ a ∈ syn.attrs, Marks a
      · rw [if_pos hk] at hw
        cases hw
        simp [hk]
      · rw [if_neg hk] at hw
        cases hw
        simp [hk]
    · rw [findMods_eq _ _ _ _ hf]
      unfold modFiles
      dsimp only
      rw [ho]
      dsimp only
      rw [hs]
      rw [walkFile_spec] at hw
      by_cases hk : ∃ a ∈ syn.attrs, Marks a
      · rw [if_pos hk] at hw
        cases hw
        simp [hk]
      · rw [if_neg hk] at hw
        cases hw
        simp [hk]

theorem walkOne_outside (env : WalkEnv) (pkg : Package) (p : Path) (t : Bool) (h : walkOne env pkg p t = some none) :
    loadSource env.read env.root p pkg t = some none := by
  unfold walkOne at h
  obtain ⟨o, ho, h⟩ := Option.bind_eq_some_iff.1 h
  cases o with
  | none => exact ho
  | some sf' =>
    dsimp only at h
    obtain ⟨syn, hs, h⟩ := Option.bind_eq_some_iff.1 h
    obtain ⟨⟨a, b⟩, hw, h⟩ := Option.bind_eq_some_iff.1 h
    obtain ⟨ms', hm, h⟩ := Option.bind_eq_some_iff.1 h
    obtain ⟨mods', hf, h⟩ := Option.bind_eq_some_iff.1 h
    cases h

theorem modFiles_outside {env : WalkEnv} {pkg : Package} {x : Path × Bool}
    (h : loadSource env.read env.root x.1 pkg x.2 = some none) : modFiles env pkg x = [] := by
  unfold modFiles; rw [h]

theorem fileOf_outside {env : WalkEnv} {pkg : Package} {x : Path × Bool}
    (h : loadSource env.read env.root x.1 pkg x.2 = some none) : fileOf env pkg x = [] := by
  unfold fileOf; rw [h]

/-- The files named by `mod` statements are the ones referred to. -/
theorem mem_modFiles (env : WalkEnv) (pkg : Package) (x : Path × Bool) (file : Path) :
    file ∈ modFiles env pkg x ↔ Refers env pkg x file := by
  unfold modFiles Refers Content Unskipped
  constructor
  · intro h
    cases hl : loadSource env.read env.root x.1 pkg x.2 with
    | none => rw [hl] at h; cases h
    | some o =>
      cases o with
      | none => rw [hl] at h; cases h
      | some sf =>
        rw [hl] at h
        dsimp only at h
        cases hs : env.parse sf.code with
        | none => rw [hs] at h; cases h
        | some syn =>
          rw [hs] at h
          dsimp only at h
          by_cases hk : ∃ a ∈ syn.attrs, Marks a
          · rw [if_pos hk] at h; cases h
          · rw [if_neg hk] at h
            obtain ⟨parts, hp, hj⟩ := List.mem_filterMap.1 h
            obtain ⟨path, hpath, he⟩ := List.mem_filterMap.1 hp
            have hpm := List.mem_filter.1 hpath
            refine ⟨sf, syn, path, parts, ⟨rfl, hs⟩, ⟨fun a ha m => hk ⟨a, ha, m⟩, position_of_mem hpm.1, by simpa using hpm.2⟩, he, ?_⟩
            cases hf : findModSource env.isFile sf parts with
            | none => rw [hf] at hj; cases hj
            | some o => rw [hf] at hj; cases o <;> cases hj; rfl
  · rintro ⟨sf, syn, path, parts, ⟨hl, hs⟩, ⟨hm, hpos, hn⟩, he, hf⟩
    rw [hl]
    dsimp only
    rw [hs]
    dsimp only
    rw [if_neg (by rintro ⟨a, ha, m⟩; exact hm a ha m)]
    refine List.mem_filterMap.2 ⟨parts, List.mem_filterMap.2 ⟨path, List.mem_filter.2 ⟨mem_of_position hpos, by simpa using hn⟩, he⟩, ?_⟩
    rw [hf]; rfl

theorem mem_fileMutants (env : WalkEnv) (sf : SourceFile) (syn : SynFile) (hs : env.parse sf.code = some syn) (m : Mutant) :
    m ∈ fileMutants env sf ↔ MutantOf env sf syn m := by
  unfold fileMutants MutantOf Unskipped
  rw [hs]
  dsimp only
  by_cases hk : ∃ a ∈ syn.attrs, Marks a
  · rw [if_pos hk]
    constructor
    · intro h; cases h
    · rintro ⟨_, path, ⟨h, _⟩, _⟩
      obtain ⟨a, ha, hma⟩ := hk
      exact absurd hma (h a ha)
  · rw [if_neg hk, List.mem_filter, List.mem_flatMap]
    constructor
    · rintro ⟨⟨path, hp, hm⟩, ha⟩
      have hpm := List.mem_filter.1 hp
      exact ⟨by simpa using ha, path, ⟨fun a ha m => hk ⟨a, ha, m⟩, position_of_mem hpm.1, by simpa using hpm.2⟩, hm⟩
    · rintro ⟨ha, path, ⟨_, hpos, hn⟩, hm⟩
      exact ⟨⟨path, List.mem_filter.2 ⟨mem_of_position hpos, by simpa using hn⟩, hm⟩, by simpa using ha⟩

/-- The next files of a file. -/
noncomputable def nexts (env : WalkEnv) (pkg : Package) (x : Path × Bool) : List (Path × Bool) :=
  (modFiles env pkg x).map fun p => (p, false)

theorem mem_nexts {env : WalkEnv} {pkg : Package} {x y : Path × Bool} :
    y ∈ nexts env pkg x ↔ y.2 = false ∧ Refers env pkg x y.1 := by
  unfold nexts
  rw [List.mem_map]
  constructor
  · rintro ⟨p, hp, rfl⟩
    exact ⟨rfl, (mem_modFiles env pkg x p).1 hp⟩
  · rintro ⟨h1, h2⟩
    exact ⟨y.1, (mem_modFiles env pkg x y.1).2 h2, by rw [← h1]⟩

/-- After the files `done` have been taken from the queue. -/
structure WalkInv (env : WalkEnv) (pkg : Package) (done : List (Path × Bool)) (s : WalkState) : Prop where
  all : done ++ s.queue = pkg.topSources.map (fun p => (p, true)) ++ done.flatMap (nexts env pkg)
  later : ∀ pre x post, done ++ s.queue = pre ++ x :: post → pre.length < done.length → ∀ y ∈ nexts env pkg x, y ∈ post
  files : s.files = done.flatMap (fileOf env pkg)
  mutants : s.mutants = s.files.flatMap (fileMutants env)
  good : ∀ x ∈ done, walkOne env pkg x.1 x.2 ≠ none
  sound : ∀ x ∈ done ++ s.queue, Reach env pkg x

theorem walkInv_start (env : WalkEnv) (pkg : Package) : WalkInv env pkg [] (walkStart pkg) :=
  ⟨by simp [walkStart], by intro _ _ _ _ h; simp at h, rfl, rfl, by simp, by
    intro x hx
    obtain ⟨p, hp, rfl⟩ := List.mem_map.1 hx
    exact .top hp⟩

theorem append_eq_cons_cases {α : Type} {l r pre post : List α} {x : α} (h : l ++ r = pre ++ x :: post) (hlen : pre.length < l.length) :
    ∃ mid, l = pre ++ x :: mid ∧ post = mid ++ r := by
  rcases List.append_eq_append_iff.1 h with ⟨a, h1, h2⟩ | ⟨a, h1, h2⟩
  · rw [h1] at hlen; simp at hlen; omega
  · cases a with
    | nil => rw [h1] at hlen; simp at hlen
    | cons y mid =>
      simp only [List.cons_append, List.cons.injEq] at h2
      obtain ⟨rfl, h2⟩ := h2
      exact ⟨mid, h1, h2⟩

/-- How the invariant moves over one file. -/
theorem walkInv_next {env : WalkEnv} {pkg : Package} {done : List (Path × Bool)} {s s' : WalkState} {x : Path × Bool} {rest : List (Path × Bool)}
    (h : WalkInv env pkg done s) (hq : s.queue = x :: rest) (hq' : s'.queue = rest ++ nexts env pkg x)
    (hf : s'.files = s.files ++ fileOf env pkg x) (hm : s'.mutants = s.mutants ++ (fileOf env pkg x).flatMap (fileMutants env))
    (hg : walkOne env pkg x.1 x.2 ≠ none) : WalkInv env pkg (done ++ [x]) s' := by
  have hall : (done ++ [x]) ++ s'.queue = (done ++ s.queue) ++ nexts env pkg x := by
    rw [hq, hq']; simp
  refine ⟨?_, ?_, ?_, ?_, ?_, ?_⟩
  · rw [hall, h.all]; simp
  · intro pre y post he hlen z hz
    by_cases hlt : pre.length < done.length
    · rw [hall] at he
      obtain ⟨mid, h1, h2⟩ := append_eq_cons_cases he (by simp; omega)
      rw [h2]
      exact List.mem_append_left _ (h.later pre y mid h1 hlt z hz)
    · have hle : pre.length = done.length := by simp at hlen; omega
      have he' : done ++ (x :: s'.queue) = pre ++ y :: post := by simpa using he
      obtain ⟨h1, h2⟩ := List.append_inj he' hle.symm
      simp only [List.cons.injEq] at h2
      obtain ⟨rfl, rfl⟩ := h2
      rw [hq']
      exact List.mem_append_right _ hz
  · rw [hf, h.files]; simp
  · rw [hm, hf, h.mutants]; simp
  · intro y hy
    rcases List.mem_append.1 hy with hy | hy
    · exact h.good y hy
    · cases List.mem_singleton.1 hy; exact hg
  · intro y hy
    rw [hall] at hy
    rcases List.mem_append.1 hy with hy | hy
    · exact h.sound y hy
    · obtain ⟨h1, h2⟩ := mem_nexts.1 hy
      obtain ⟨p, b⟩ := y
      cases h1
      exact .next (h.sound x (by rw [hq]; simp)) h2

theorem walkInv_step {env : WalkEnv} {pkg : Package} {done : List (Path × Bool)} {s s' : WalkState}
    (h : WalkInv env pkg done s) (hs : walkStep env pkg s = some s') : ∃ done', WalkInv env pkg done' s' ∧
      (∀ x rest, s.queue = x :: rest → done' = done ++ [x]) ∧ (s.queue = [] → s' = s) := by
  unfold walkStep at hs
  cases hq : s.queue with
  | nil =>
    rw [hq] at hs; cases hs
    exact ⟨done, h, (fun _ _ h' => nomatch h'), fun _ => rfl⟩
  | cons x rest =>
    obtain ⟨path, top⟩ := x
    rw [hq] at hs
    dsimp only at hs
    refine ⟨done ++ [(path, top)], ?_, (fun x r h => by cases h; rfl), (fun h' => nomatch h')⟩
    cases hw : walkOne env pkg path top with
    | none => rw [hw] at hs; cases hs
    | some o =>
      have hg : walkOne env pkg (path, top).1 (path, top).2 ≠ none := by simp [hw]
      cases o with
      | none =>
        rw [hw] at hs; cases hs
        have hl := walkOne_outside env pkg path top hw
        exact walkInv_next h hq (by simp [nexts, modFiles_outside (x := (path, top)) hl])
          (by simp [fileOf_outside (x := (path, top)) hl]) (by simp [fileOf_outside (x := (path, top)) hl]) hg
      | some r =>
        obtain ⟨sf, ms, mods⟩ := r
        rw [hw] at hs
        dsimp only at hs
        obtain ⟨syn, hc, hms, hmods⟩ := walkOne_some env pkg path top sf ms mods hw
        have hfo : fileOf env pkg (path, top) = if env.options.allowsSourceFilePath sf.path then [sf] else [] := by
          unfold fileOf; rw [hc.1]
        by_cases ha : env.options.allowsSourceFilePath sf.path = true
        · rw [if_pos ha] at hs hfo; cases hs
          exact walkInv_next h hq (by simp [nexts, hmods]) (by rw [hfo]) (by rw [hfo]; simp [hms]) hg
        · rw [if_neg ha] at hs hfo; cases hs
          exact walkInv_next h hq (by simp [nexts, hmods]) (by rw [hfo]; simp) (by rw [hfo]; simp) hg

theorem walkInv_steps {env : WalkEnv} {pkg : Package} (n : Nat) {done : List (Path × Bool)} {s s' : WalkState}
    (h : WalkInv env pkg done s) (hs : walkSteps env pkg n s = some s') : ∃ done', WalkInv env pkg done' s' := by
  induction n generalizing done s with
  | zero => cases hs; exact ⟨done, h⟩
  | succ n ih =>
    obtain ⟨s1, h1, h2⟩ := Option.bind_eq_some_iff.1 hs
    obtain ⟨d, hd, _⟩ := walkInv_step h h1
    exact ih hd h2

/-- A finished walk. -/
theorem walks_done {env : WalkEnv} {pkg : Package} {ms : List Mutant} {fs : List SourceFile} (h : WalksPackage env pkg ms fs) :
    ∃ done : List (Path × Bool),
      done = pkg.topSources.map (fun p => (p, true)) ++ done.flatMap (nexts env pkg) ∧
      (∀ pre x post, done = pre ++ x :: post → ∀ y ∈ nexts env pkg x, y ∈ post) ∧
      fs = done.flatMap (fileOf env pkg) ∧ ms = fs.flatMap (fileMutants env) ∧
      (∀ x ∈ done, walkOne env pkg x.1 x.2 ≠ none) ∧ ∀ x ∈ done, Reach env pkg x := by
  obtain ⟨n, s, h1, h2, h3, h4⟩ := h
  obtain ⟨done, hi⟩ := walkInv_steps n (walkInv_start env pkg) h1
  have ha := hi.all
  have hl := hi.later
  rw [h2, List.append_nil] at ha hl
  refine ⟨done, ha, ?_, h4 ▸ hi.files, h3 ▸ h4 ▸ hi.mutants, hi.good, fun x hx => hi.sound x (List.mem_append_left _ hx)⟩
  intro pre x post he
  exact hl pre x post he (by rw [he]; simp)

/-- A finished walk has taken whatever is reachable. -/
theorem mem_done {env : WalkEnv} {pkg : Package} {done : List (Path × Bool)}
    (h : done = pkg.topSources.map (fun p => (p, true)) ++ done.flatMap (nexts env pkg))
    (x : Path × Bool) (hx : Reach env pkg x) : x ∈ done := by
  induction hx with
  | top hp => rw [h]; exact List.mem_append_left _ (List.mem_map_of_mem hp)
  | next hx' hr ih =>
    rw [h]
    exact List.mem_append_right _ (List.mem_flatMap.2 ⟨_, ih, mem_nexts.2 ⟨rfl, hr⟩⟩)

end CM.Props
