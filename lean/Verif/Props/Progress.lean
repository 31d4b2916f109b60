import Verif.Spec.Progress
import Verif.Props.Interrupt
/-! C92: the display while the tree is searched and copied. -/
namespace CM.Props
open CM CM.Spec

/-! ### Searching -/

/-- What is shown, and what has been found. -/
def SearchOk (w : World) (s : Progress.State) : Prop :=
  match s.intr.pc with
  | .opening | .starting => s.walk = none ∧ s.shown = []
  | .walking o exprs _ walk _ ms fs =>
    ∃ loaded : List (SourceFile × List Mutant), (∀ x ∈ loaded, FoundIn w o exprs x) ∧
      s.walk = some ⟨loaded.length, (loaded.flatMap (·.2)).length⟩ ∧
      fs ++ walk.files = (examined o loaded).map (·.1) ∧ ms ++ walk.mutants = (examined o loaded).flatMap (·.2)
  | .failed => True
  | _ => s.walk = none

/-- One turn of the loop that goes well. -/
theorem turn_ok {env : WalkEnv} {pkg : Package} {flag : Bool} {s t : WalkState} (h : Intr.walkTurn env pkg flag s = some t)
    (m : Progress.WalkModel) :
    (Progress.turnShown env pkg flag s m = [] ∧ t.files = s.files ∧ t.mutants = s.mutants) ∨
    ∃ (sf : SourceFile) (ms : List Mutant) (syn : SynFile) (all : List Mutant) (ext : List (List ModNamespace)),
      env.parse sf.code = some syn ∧
      walkFile { sourceFile := sf, errorExprs := env.errorExprs, skipCalls := env.options.skipCalls } syn = some (all, ext) ∧
      retainAllowed env.options all = some ms ∧
      Progress.turnShown env pkg flag s m =
        [{ m with files := m.files + 1 }, { files := m.files + 1, mutants := m.mutants + ms.length }] ∧
      t.files = s.files ++ (if env.options.allowsSourceFilePath sf.path then [sf] else []) ∧
      t.mutants = s.mutants ++ (if env.options.allowsSourceFilePath sf.path then ms else []) := by
  unfold Intr.walkTurn at h
  unfold Progress.turnShown
  cases hq : s.queue with
  | nil => rw [hq] at h; cases h; exact .inl ⟨rfl, rfl, rfl⟩
  | cons x rest =>
    obtain ⟨path, top⟩ := x
    rw [hq] at h
    dsimp only at h ⊢
    cases hl : loadSource env.read env.root path pkg top with
    | none => rw [hl] at h; cases h
    | some r =>
      rw [hl] at h
      cases r with
      | none => cases h; exact .inl ⟨rfl, rfl, rfl⟩
      | some sf =>
        right
        cases flag with
        | true => cases h
        | false =>
          dsimp only at h ⊢
          rw [if_neg (by decide)] at h ⊢
          unfold walkStep at h
          rw [hq] at h
          dsimp only at h
          cases hp : env.parse sf.code with
          | none =>
            have : walkOne env pkg path top = none := by
              unfold walkOne; rw [hl]; simp only [Option.bind_eq_bind, Option.bind_some, hp]; rfl
            rw [this] at h; cases h
          | some syn =>
            cases hw : walkFile { sourceFile := sf, errorExprs := env.errorExprs, skipCalls := env.options.skipCalls } syn with
            | none =>
              have : walkOne env pkg path top = none := by
                unfold walkOne; rw [hl]; simp only [Option.bind_eq_bind, Option.bind_some, hp, hw]; rfl
              rw [this] at h; cases h
            | some r =>
              obtain ⟨all, ext⟩ := r
              cases hr : retainAllowed env.options all with
              | none =>
                have : walkOne env pkg path top = none := by
                  unfold walkOne; rw [hl]; simp only [Option.bind_eq_bind, Option.bind_some, hp, hw, hr]; rfl
                rw [this] at h; cases h
              | some ms =>
                refine ⟨sf, ms, syn, all, ext, hp, hw, hr, ?_, ?_⟩
                · simp only [Option.bind_some, hw, hr]
                · cases hf : findMods env.isFile sf ext with
                  | none =>
                    have : walkOne env pkg path top = none := by
                      unfold walkOne; rw [hl]; simp only [Option.bind_eq_bind, Option.bind_some, hp, hw, hr, hf]; rfl
                    rw [this] at h; cases h
                  | some mods =>
                    have : walkOne env pkg path top = some (some (sf, ms, mods)) := by
                      unfold walkOne; rw [hl]; simp only [Option.bind_eq_bind, Option.bind_some, hp, hw, hr, hf]; rfl
                    rw [this] at h
                    dsimp only at h
                    split at h
                    · rename_i hal
                      cases h
                      rw [if_pos hal, if_pos hal]
                      exact ⟨rfl, rfl⟩
                    · rename_i hal
                      cases h
                      rw [if_neg hal, if_neg hal, List.append_nil, List.append_nil]
                      exact ⟨rfl, rfl⟩

theorem search_ctrl {w : World} {s : Progress.State} (i : Intr.State) (h : SearchOk w s) (hi : i.pc = s.intr.pc ∨ i.pc = .failed) :
    SearchOk w { s with intr := i } := by
  unfold SearchOk at h ⊢
  cases hi with
  | inl hi => dsimp only; rw [hi]; exact h
  | inr hi => dsimp only; rw [hi]; trivial

theorem search_next {w : World} {s : Progress.State} {o : Options} {exprs : List Tokens} {pkgs : List Package} {ms : List Mutant}
    {fs : List SourceFile} (b : Bool) (loaded : List (SourceFile × List Mutant)) (hl : ∀ x ∈ loaded, FoundIn w o exprs x)
    (hw : s.walk = if pkgs = [] then none else some ⟨loaded.length, (loaded.flatMap (·.2)).length⟩)
    (hfs : fs = (examined o loaded).map (·.1)) (hms : ms = (examined o loaded).flatMap (·.2)) :
    SearchOk w { s with intr := ⟨b, Intr.nextPackage o exprs pkgs ms fs⟩ } := by
  unfold SearchOk Intr.nextPackage
  cases pkgs with
  | nil => rw [if_pos rfl] at hw; exact hw
  | cons pkg pkgs =>
    rw [if_neg (by simp)] at hw
    exact ⟨loaded, hl, hw, by rw [← hfs]; exact List.append_nil _, by rw [← hms]; exact List.append_nil _⟩

theorem search_step {w : World} {a : MainArgs} {s t : Progress.State} {e : Intr.Event} (h : SearchOk w s)
    (he : Progress.step w a s e = some t) : SearchOk w t := by
  unfold Progress.step at he
  obtain ⟨i, hi, rfl⟩ := Option.map_eq_some_iff.1 he
  cases e with
  | ctrlC => cases hi; exact search_ctrl _ h (.inl rfl)
  | lockBusy =>
    dsimp only [Intr.step] at hi ⊢
    split at hi
    · rename_i act hpc
      cases hi
      apply search_ctrl _ h
      dsimp only
      split
      · exact .inr rfl
      · exact .inl hpc.symm
    · cases hi
  | go =>
    dsimp only [Intr.step] at hi ⊢
    obtain ⟨pc', hpc', rfl⟩ := Option.map_eq_some_iff.1 hi
    cases hpc : s.intr.pc with
    | opening =>
      rw [hpc] at hpc'
      unfold SearchOk at h
      rw [hpc] at h
      have hg : s.goes w pc' = s := by unfold Progress.State.goes; rw [hpc]
      dsimp only at h ⊢
      rw [hg]
      cases hpc'
      unfold SearchOk
      dsimp only
      cases s.intr.interrupted with
      | true => trivial
      | false => exact h
    | starting =>
      rw [hpc] at hpc'
      dsimp only [Intr.Pc.go] at hpc'
      split at hpc'
      · rename_i o pkgs _ _
        split at hpc'
        · rename_i exprs _
          cases hpc'
          have := search_next (w := w) (s := s.goes w (Intr.nextPackage o exprs pkgs [] [])) (o := o) (exprs := exprs) (pkgs := pkgs)
            (ms := []) (fs := []) s.intr.interrupted [] (fun _ h => by cases h) ?_ rfl rfl
          · exact this
          · unfold Progress.State.goes Intr.nextPackage
            rw [hpc]
            cases pkgs with
            | nil => rfl
            | cons pkg pkgs => rfl
        · cases hpc'
          unfold SearchOk
          trivial
      · cases hpc'
        unfold SearchOk
        trivial
    | walking o exprs pkg walk pkgs ms fs =>
      rw [hpc] at hpc'
      dsimp only [Intr.Pc.go] at hpc'
      unfold SearchOk at h
      rw [hpc] at h
      dsimp only at h
      obtain ⟨loaded, hl, hw, hfs, hms⟩ := h
      split at hpc'
      · rename_i hq
        cases hpc'
        refine search_next (s := s.goes w _) s.intr.interrupted loaded hl ?_ hfs hms
        unfold Progress.State.goes Intr.nextPackage
        rw [hpc]
        cases pkgs with
        | nil => rfl
        | cons pkg' pkgs =>
          dsimp only
          rw [hw, if_neg (by simp)]
          dsimp only
          unfold Progress.turnShown
          rw [hq]
          exact hw
      · split at hpc'
        · rename_i walk' hturn
          cases hpc'
          have hg : s.goes w (.walking o exprs pkg walk' pkgs ms fs) =
              (Progress.turnShown (w.walkEnv o exprs) pkg s.intr.interrupted walk ⟨loaded.length, (loaded.flatMap (·.2)).length⟩).foldl
                (fun s m => s.set (some m)) s := by
            unfold Progress.State.goes
            rw [hpc]
            dsimp only
            rw [hw]
          rw [hg]
          unfold SearchOk
          dsimp only
          cases turn_ok hturn ⟨loaded.length, (loaded.flatMap (·.2)).length⟩ with
          | inl ht =>
            obtain ⟨h1, h2, h3⟩ := ht
            rw [h1, h2, h3]
            exact ⟨loaded, hl, hw, hfs, hms⟩
          | inr ht =>
            obtain ⟨sf, found, syn, all, ext, hp, hwf, hr, h1, h2, h3⟩ := ht
            rw [h1, h2, h3]
            refine ⟨loaded ++ [(sf, found)], ?_, ?_, ?_, ?_⟩
            · intro x hx
              cases List.mem_append.1 hx with
              | inl hx => exact hl x hx
              | inr hx => cases List.mem_singleton.1 hx; exact ⟨syn, all, ext, hp, hwf, hr⟩
            · simp [Progress.State.set]
            · rw [← List.append_assoc, hfs]
              unfold examined
              rw [List.filter_append, List.map_append]
              congr 1
              show (if o.allowsSourceFilePath sf.path = true then [sf] else []) = _
              cases ha : o.allowsSourceFilePath sf.path <;> simp [ha]
            · rw [← List.append_assoc, hms]
              unfold examined
              rw [List.filter_append, List.flatMap_append]
              congr 1
              show (if o.allowsSourceFilePath sf.path = true then found else []) = _
              cases ha : o.allowsSourceFilePath sf.path <;> simp [ha]
        · cases hpc'
          unfold SearchOk
          trivial
    | found ms fs =>
      rw [hpc] at hpc'
      unfold SearchOk at h
      rw [hpc] at h
      have hg : s.goes w pc' = s := by unfold Progress.State.goes; rw [hpc]
      dsimp only at h ⊢
      rw [hg]
      dsimp only [Intr.Pc.go] at hpc'
      split at hpc' <;> (cases hpc'; unfold SearchOk; first | exact h | trivial)
    | waiting act =>
      rw [hpc] at hpc'
      unfold SearchOk at h
      rw [hpc] at h
      have hg : s.goes w pc' = s := by unfold Progress.State.goes; rw [hpc]
      dsimp only at h ⊢
      rw [hg]
      cases hpc'
      exact h
    | acts act => rw [hpc] at hpc'; cases hpc'
    | failed => rw [hpc] at hpc'; cases hpc'

theorem search_exec {w : World} {a : MainArgs} (es : List Intr.Event) {s t : Progress.State} (h : SearchOk w s)
    (he : Progress.exec w a s es = some t) : SearchOk w t := by
  induction es generalizing s with
  | nil => cases he; exact h
  | cons e es ih =>
    obtain ⟨u, hu, he⟩ := Option.bind_eq_some_iff.1 he
    exact ih (search_step h hu) he

/-- **C92**: while the tree is searched, the display counts the source files that were loaded, and the mutants in them that are
allowed by name; those of files that are to be examined are the ones found so far. -/
theorem C92_search (w : World) (a : MainArgs) (es : List Intr.Event) (s : Progress.State) (h : Progress.exec w a {} es = some s)
    (o : Options) (exprs : List Tokens) (pkg : Package) (walk : WalkState) (pkgs : List Package) (ms : List Mutant)
    (fs : List SourceFile) (hpc : s.intr.pc = .walking o exprs pkg walk pkgs ms fs) :
    ∃ loaded : List (SourceFile × List Mutant), (∀ x ∈ loaded, FoundIn w o exprs x) ∧
      s.walk = some ⟨loaded.length, (loaded.flatMap (·.2)).length⟩ ∧
      fs ++ walk.files = (examined o loaded).map (·.1) ∧ ms ++ walk.mutants = (examined o loaded).flatMap (·.2) := by
  have := search_exec es (s := {}) ⟨rfl, rfl⟩ h
  unfold SearchOk at this
  rw [hpc] at this
  exact this

/-- **C92**: before and after the search nothing of it is shown. -/
theorem C92_search_only (w : World) (a : MainArgs) (es : List Intr.Event) (s : Progress.State) (h : Progress.exec w a {} es = some s)
    (hpc : ∀ o exprs pkg walk pkgs ms fs, s.intr.pc ≠ .walking o exprs pkg walk pkgs ms fs) (hf : s.intr.pc ≠ .failed) :
    s.walk = none := by
  have := search_exec es (s := {}) ⟨rfl, rfl⟩ h
  unfold SearchOk at this
  cases hp : s.intr.pc with
  | walking => exact (hpc _ _ _ _ _ _ _ hp).elim
  | failed => exact absurd hp hf
  | opening => rw [hp] at this; exact this.1
  | starting => rw [hp] at this; exact this.1
  | found => rw [hp] at this; exact this
  | waiting => rw [hp] at this; exact this
  | acts => rw [hp] at this; exact this

/-- **C92**: the number of mutants shown is that of the mutants found so far. -/
def C92_full : Prop :=
  ∀ (w : World) (a : MainArgs) (es : List Intr.Event) (s : Progress.State), Progress.exec w a {} es = some s →
    ∀ o exprs pkg walk pkgs ms fs, s.intr.pc = .walking o exprs pkg walk pkgs ms fs →
      s.walk = some ⟨(fs ++ walk.files).length, (ms ++ walk.mutants).length⟩

/-- **C92**: so it is if no files are chosen by name. -/
theorem C92_mutants_partial (w : World) (a : MainArgs) (es : List Intr.Event) (s : Progress.State)
    (h : Progress.exec w a {} es = some s) (o : Options) (exprs : List Tokens) (pkg : Package) (walk : WalkState)
    (pkgs : List Package) (ms : List Mutant) (fs : List SourceFile) (hpc : s.intr.pc = .walking o exprs pkg walk pkgs ms fs)
    (hi : o.examineGlobset = none) (he : o.excludeGlobset = none) :
    s.walk = some ⟨(fs ++ walk.files).length, (ms ++ walk.mutants).length⟩ := by
  obtain ⟨loaded, _, hw, hfs, hms⟩ := C92_search w a es s h o exprs pkg walk pkgs ms fs hpc
  have : examined o loaded = loaded := by
    unfold examined
    rw [List.filter_eq_self]
    intro x _
    unfold Options.allowsSourceFilePath
    rw [hi, he]
    rfl
  rw [this] at hfs hms
  rw [hw, hfs, hms, List.length_map]

theorem sample_search : (Progress.exec sampleWorld sampleRun {} [.go, .go, .go, .go]).map (fun s =>
    (s.walk.map fun m => (m.files, m.mutants), match s.intr.pc with
      | .walking _ _ _ walk _ ms fs => some ((fs ++ walk.files).length, (ms ++ walk.mutants).length)
      | _ => none)) = some (some (2, 5), some (1, 3)) := by decide +kernel

/-- **C92** does not hold in full: mutants in files that are excluded are counted, and so are the files. -/
theorem C92_excluded_false : ¬ C92_full := by
  intro hf
  obtain ⟨s, hs, he⟩ := Option.map_eq_some_iff.1 sample_search
  have h1 := congrArg (·.1) he
  have h2 := congrArg (·.2) he
  dsimp only at h1 h2
  cases hpc : s.intr.pc with
  | walking o exprs pkg walk pkgs ms fs =>
    have hw := hf _ _ _ _ hs _ _ _ _ _ _ _ hpc
    rw [hpc] at h2
    rw [hw] at h1
    have h1 := Option.some.inj h1
    have h2 : ((fs ++ walk.files).length, (ms ++ walk.mutants).length) = (1, 3) := Option.some.inj h2
    exact absurd (h2.symm.trans h1) (by decide)
  | _ => rw [hpc] at h2; cases h2

/-! The numbers never go down. -/

theorem turn_shown (env : WalkEnv) (pkg : Package) (flag : Bool) (s : WalkState) (m : Progress.WalkModel) :
    ∀ x ∈ Progress.turnShown env pkg flag s m, x.files = m.files + 1 ∧ m.mutants ≤ x.mutants := by
  unfold Progress.turnShown
  split
  · intro x hx; cases hx
  · split
    · dsimp only
      split
      · intro x hx; cases List.mem_singleton.1 hx; exact ⟨rfl, Nat.le_refl _⟩
      · split
        · intro x hx
          simp only [List.mem_cons, List.not_mem_nil, or_false] at hx
          rcases hx with rfl | rfl
          · exact ⟨rfl, Nat.le_refl _⟩
          · exact ⟨rfl, Nat.le_add_right ..⟩
        · intro x hx; cases List.mem_singleton.1 hx; exact ⟨rfl, Nat.le_refl _⟩
    · intro x hx; cases hx

theorem turn_shown_sorted (env : WalkEnv) (pkg : Package) (flag : Bool) (s : WalkState) (m : Progress.WalkModel) :
    (Progress.turnShown env pkg flag s m).Pairwise notMore := by
  unfold Progress.turnShown
  split
  · exact .nil
  · split
    · dsimp only
      split
      · exact List.pairwise_singleton ..
      · split
        · refine .cons ?_ (List.pairwise_singleton ..)
          intro x hx
          cases List.mem_singleton.1 hx
          exact ⟨Nat.le_refl _, Nat.le_add_right ..⟩
        · exact List.pairwise_singleton ..
    · exact .nil

/-- Everything shown is no more than what is shown now, and was in order. -/
structure ShownOk (walk : Option Progress.WalkModel) (shown : List (Option Progress.WalkModel)) : Prop where
  now : ∀ m, walk = some m → ∀ x, some x ∈ shown → notMore x m
  sorted : shown.Pairwise fun later earlier => ∀ x y, later = some x → earlier = some y → notMore y x

theorem ShownOk.off {walk : Option Progress.WalkModel} {shown : List (Option Progress.WalkModel)} (h : ShownOk walk shown) :
    ShownOk none (none :: shown) :=
  ⟨fun _ h => (by cases h), .cons (fun _ _ _ _ h => by cases h) h.sorted⟩

theorem ShownOk.cons {walk : Option Progress.WalkModel} {shown : List (Option Progress.WalkModel)} (h : ShownOk walk shown)
    (m : Progress.WalkModel) (hm : ∀ x, some x ∈ shown → notMore x m) : ShownOk (some m) (some m :: shown) where
  now := by
    intro m' hm' x hx
    cases hm'
    cases List.mem_cons.1 hx with
    | inl h => cases h; exact ⟨Nat.le_refl _, Nat.le_refl _⟩
    | inr h => exact hm x h
  sorted := by
    refine .cons ?_ h.sorted
    rintro e he x y hx rfl
    cases hx
    exact hm y he

theorem shown_fold (l : List Progress.WalkModel) (s : Progress.State) (h : ShownOk s.walk s.shown) (hl : l.Pairwise notMore)
    (hm : ∀ m ∈ l, ∀ x, some x ∈ s.shown → notMore x m) :
    ShownOk (l.foldl (fun s m => s.set (some m)) s).walk (l.foldl (fun s m => s.set (some m)) s).shown := by
  induction l generalizing s with
  | nil => exact h
  | cons m l ih =>
    cases hl with
    | cons h1 h2 =>
      apply ih (s.set (some m)) (h.cons m (hm m (List.mem_cons_self ..))) h2
      intro m' hm' x hx
      cases List.mem_cons.1 hx with
      | inl hx => cases hx; exact h1 m' hm'
      | inr hx => exact hm m' (List.mem_cons_of_mem _ hm') x hx

theorem shown_step {w : World} {a : MainArgs} {s t : Progress.State} {e : Intr.Event} (h : ShownOk s.walk s.shown) (hs : SearchOk w s)
    (he : Progress.step w a s e = some t) : ShownOk t.walk t.shown := by
  unfold Progress.step at he
  obtain ⟨i, hi, rfl⟩ := Option.map_eq_some_iff.1 he
  cases e with
  | ctrlC => exact h
  | lockBusy => exact h
  | go =>
    dsimp only
    unfold Progress.State.goes
    unfold SearchOk at hs
    split
    · rename_i hpc _
      rw [hpc] at hs
      exact h.cons _ (by rw [hs.2]; intro x hx; cases hx)
    · rename_i hpc _
      rw [hpc] at hs
      exact (h.cons {} (by rw [hs.2]; intro x hx; cases hx)).off
    · exact h.off
    · split
      · rename_i m hm
        apply shown_fold _ _ h (turn_shown_sorted ..)
        intro x hx y hy
        have h1 := turn_shown _ _ _ _ _ x hx
        have h2 := h.now m hm y hy
        exact ⟨by have := h2.1; omega, Nat.le_trans h2.2 h1.2⟩
      · exact h
    · exact h

/-- **C92**: the numbers that are shown never go down. -/
theorem C92_search_grows (w : World) (a : MainArgs) (es : List Intr.Event) (s : Progress.State) (h : Progress.exec w a {} es = some s)
    (i j : Nat) (x y : Progress.WalkModel) (hij : i ≤ j) (hx : s.shown.reverse[i]? = some (some x))
    (hy : s.shown.reverse[j]? = some (some y)) : x.files ≤ y.files ∧ x.mutants ≤ y.mutants := by
  have key : ∀ (es : List Intr.Event) (s t : Progress.State), ShownOk s.walk s.shown → SearchOk w s →
      Progress.exec w a s es = some t → ShownOk t.walk t.shown := by
    intro es
    induction es with
    | nil => intro s t h _ he; cases he; exact h
    | cons e es ih =>
      intro s t h hs he
      obtain ⟨u, hu, he⟩ := Option.bind_eq_some_iff.1 he
      exact ih u t (shown_step h hs hu) (search_step hs hu) he
  have hs := (key es {} s ⟨fun _ h => (by cases h), .nil⟩ ⟨rfl, rfl⟩ h).sorted
  cases Nat.lt_or_eq_of_le hij with
  | inr he => subst he; rw [hx] at hy; cases hy; exact ⟨Nat.le_refl _, Nat.le_refl _⟩
  | inl hlt =>
    obtain ⟨hi', hx⟩ := List.getElem?_eq_some_iff.1 hx
    obtain ⟨hj', hy⟩ := List.getElem?_eq_some_iff.1 hy
    have := List.pairwise_iff_getElem.1 (List.pairwise_reverse.2 hs) i j hi' hj' hlt
    exact this y x hy hx

/-- **C92**: the line says that metadata are read until the first file was loaded, and then has the numbers. -/
theorem C92_search_text (m : Progress.WalkModel) :
    (m.files = 0 → m.render = "Scanning tree metadata...\n".toList) ∧
    (m.files ≠ 0 → m.render = "Finding mutation opportunities: ".toList ++ Nat.toDigits 10 m.files ++ " files done, ".toList ++
      Nat.toDigits 10 m.mutants ++ " mutants found\n".toList) := by
  unfold Progress.WalkModel.render
  exact ⟨fun h => if_pos h, fun h => if_neg h⟩

/-- **C92**: what is displayed changes nothing. -/
theorem C92_adds_nothing (w : World) (a : MainArgs) (es : List Intr.Event) :
    (Progress.exec w a {} es).map (·.intr) = Intr.exec w a {} es := by
  have : ∀ (es : List Intr.Event) (s : Progress.State), (Progress.exec w a s es).map (·.intr) = Intr.exec w a s.intr es := by
    intro es
    induction es with
    | nil => intro s; rfl
    | cons e es ih =>
      intro s
      unfold Progress.exec Intr.exec Progress.step
      cases hi : Intr.step w a s.intr e with
      | none => rfl
      | some i =>
        dsimp only [Option.map_some, Option.bind_some]
        rw [ih]
        cases e <;> rfl
  exact this es {}

/-! ### Copying -/

theorem swapRemove_perm {α} (l : List α) (i : Nat) (h : i < l.length) : l.Perm (l[i] :: Progress.swapRemove l i) := by
  unfold Progress.swapRemove
  rcases List.eq_nil_or_concat l with rfl | ⟨init, x, rfl⟩
  · cases h
  · simp only [List.concat_eq_append] at h ⊢
    rw [List.getLast?_append]
    simp only [List.getLast?_singleton, Option.some_or]
    by_cases hi : i < init.length
    · rw [List.set_append_left _ _ hi, List.dropLast_concat, List.getElem_append_left hi]
      have h1 : init = init.take i ++ init[i] :: init.drop (i + 1) := by
        rw [← List.drop_eq_getElem_cons hi, List.take_append_drop]
      have h2 : init.set i x = init.take i ++ x :: init.drop (i + 1) := by
        rw [List.set_eq_take_append_cons_drop, if_pos hi]
      rw [h2]
      calc (init ++ [x]).Perm (x :: init) := List.perm_append_singleton ..
        _ = x :: (init.take i ++ init[i] :: init.drop (i + 1)) := by rw [← h1]
        List.Perm _ (x :: init[i] :: (init.take i ++ init.drop (i + 1))) := .cons _ List.perm_middle
        List.Perm _ (init[i] :: x :: (init.take i ++ init.drop (i + 1))) := .swap ..
        List.Perm _ (init[i] :: (init.take i ++ x :: init.drop (i + 1))) := .cons _ List.perm_middle.symm
    · have hi : i = init.length := by simp at h; omega
      subst hi
      rw [List.set_append_right _ _ (Nat.le_refl _)]
      simp

/-- The lines are those of copies that are going on or failed. -/
structure CopiesOk (size : Text → Nat) (es : List Progress.CopyEvent) (s : Progress.Copies) : Prop where
  distinct : (s.lines.map (·.dest)).Nodup
  linesUsed : ∀ l ∈ s.lines, l.dest ∈ s.used
  noPanic : ∀ i, s.threads i ≠ .panicked
  line : ∀ i dest total dir todo, s.threads i = .copying dest total dir todo → ⟨dest, total⟩ ∈ s.lines
  owner : ∀ l ∈ s.lines, ∃ i, (∃ total dir todo, s.threads i = .copying l.dest total dir todo) ∨ s.threads i = .failed l.dest
  apart : ∀ i j dest t d r t' d' r', s.threads i = .copying dest t d r → s.threads j = .copying dest t' d' r' → i = j
  failedUsed : ∀ i dest, s.threads i = .failed dest → dest ∈ s.used
  failedApart : ∀ i j dest t d r, s.threads i = .copying dest t d r → s.threads j ≠ .failed dest
  total : ∀ i dest total dir todo, s.threads i = .copying dest total dir todo →
    ∃ done, .start i dest (done ++ todo) ∈ es ∧ Copy.copyEntries .empty done = some dir ∧ total = bytesOf size done

theorem copyProgress_spec {dest : Path} {n : Nat} {ls : List Progress.Line} (hd : (ls.map (·.dest)).Nodup)
    (hm : ∃ b, (⟨dest, b⟩ : Progress.Line) ∈ ls) :
    Progress.copyProgress dest n ls = some (ls.map fun l => if l.dest = dest then ⟨dest, n⟩ else l) := by
  induction ls with
  | nil => obtain ⟨b, hb⟩ := hm; cases hb
  | cons l ls ih =>
    unfold Progress.copyProgress
    rw [List.map_cons] at hd
    obtain ⟨hd1, hd2⟩ := List.nodup_cons.1 hd
    by_cases he : l.dest = dest
    · rw [if_pos he, List.map_cons, if_pos he]
      have : ls.map (fun l => if l.dest = dest then (⟨dest, n⟩ : Progress.Line) else l) = ls := by
        rw [List.map_congr_left (g := id), List.map_id]
        intro x hx
        rw [if_neg fun hxe => hd1 (List.mem_map.2 ⟨x, hx, hxe.trans he.symm⟩)]
        rfl
      rw [this, ← he]
    · rw [if_neg he, List.map_cons, if_neg he, ih hd2]
      · rfl
      · obtain ⟨b, hb⟩ := hm
        cases List.mem_cons.1 hb with
        | inl h => rw [← h] at he; exact absurd rfl he
        | inr h => exact ⟨b, h⟩

theorem finishCopy_spec {dest : Path} {ls : List Progress.Line} {b : Nat} (hd : (ls.map (·.dest)).Nodup)
    (hm : (⟨dest, b⟩ : Progress.Line) ∈ ls) :
    ∃ ls', Progress.finishCopy dest ls = some ls' ∧ (ls'.map (·.dest)).Nodup ∧ ∀ l, l ∈ ls' ↔ l ∈ ls ∧ l.dest ≠ dest := by
  unfold Progress.finishCopy
  cases hf : ls.findIdx? fun l => l.dest == dest with
  | none =>
    have := List.findIdx?_eq_none_iff.1 hf _ hm
    simp at this
  | some i =>
    obtain ⟨hi, hp, _⟩ := List.findIdx?_eq_some_iff_getElem.1 hf
    have hp : ls[i].dest = dest := by simpa using hp
    have hperm := swapRemove_perm ls i hi
    have hn := (hperm.map (·.dest)).nodup_iff.1 hd
    rw [List.map_cons] at hn
    obtain ⟨h1, h2⟩ := List.nodup_cons.1 hn
    refine ⟨_, rfl, h2, fun l => ⟨fun hl => ⟨hperm.mem_iff.2 (List.mem_cons_of_mem _ hl), fun he => ?_⟩, fun ⟨hl, he⟩ => ?_⟩⟩
    · exact h1 (List.mem_map.2 ⟨l, hl, he.trans hp.symm⟩)
    · cases List.mem_cons.1 (hperm.mem_iff.1 hl) with
      | inl h => exact absurd (h ▸ hp) he
      | inr h => exact h

theorem at_same (s : Progress.Copies) (i : Nat) (t : Progress.Thread) : (s.at i t).threads i = t := if_pos rfl

theorem at_other (s : Progress.Copies) {i j : Nat} (t : Progress.Thread) (h : j ≠ i) : (s.at i t).threads j = s.threads j := if_neg h

/-- A thread goes from copying to being done or to having failed, and its line stays or goes. -/
theorem copies_leave {size : Text → Nat} {es : List Progress.CopyEvent} {s : Progress.Copies} (h : CopiesOk size es s) {i : Nat} {dest : Path}
    {total : Nat} {dir : Copy.Dest} {todo : List (Path × Copy.Kind)} (hi : s.threads i = .copying dest total dir todo) :
    CopiesOk size es (s.at i (.failed dest)) := by
  have hl := h.line i _ _ _ _ hi
  constructor
  · exact h.distinct
  · exact h.linesUsed
  · intro j
    by_cases hj : j = i
    · subst hj; rw [at_same]; exact fun h => by cases h
    · rw [at_other _ _ hj]; exact h.noPanic j
  · intro j d t dir todo hc
    by_cases hj : j = i
    · subst hj; rw [at_same] at hc; cases hc
    · rw [at_other _ _ hj] at hc; exact h.line j _ _ _ _ hc
  · intro l hl
    obtain ⟨j, hj⟩ := h.owner l hl
    by_cases hji : j = i
    · subst hji
      refine ⟨j, .inr ?_⟩
      rw [at_same]
      cases hj with
      | inl hj => obtain ⟨_, _, _, hj⟩ := hj; rw [hi] at hj; cases hj; rfl
      | inr hj => rw [hi] at hj; cases hj
    · refine ⟨j, ?_⟩
      rw [at_other _ _ hji]
      exact hj
  · intro j k d t dd r t' d' r' hj hk
    by_cases hji : j = i
    · subst hji; rw [at_same] at hj; cases hj
    · by_cases hki : k = i
      · subst hki; rw [at_same] at hk; cases hk
      · rw [at_other _ _ hji] at hj
        rw [at_other _ _ hki] at hk
        exact h.apart _ _ _ _ _ _ _ _ _ hj hk
  · intro j d hj
    by_cases hji : j = i
    · subst hji
      rw [at_same] at hj
      cases hj
      exact h.linesUsed _ hl
    · rw [at_other _ _ hji] at hj
      exact h.failedUsed j d hj
  · intro j k d t dd r hj hk
    by_cases hji : j = i
    · subst hji; rw [at_same] at hj; cases hj
    · rw [at_other _ _ hji] at hj
      by_cases hki : k = i
      · subst hki
        rw [at_same] at hk
        cases hk
        exact hji (h.apart _ _ _ _ _ _ _ _ _ hj hi)
      · rw [at_other _ _ hki] at hk
        exact h.failedApart _ _ _ _ _ _ hj hk
  · intro j d t dd r hj
    by_cases hji : j = i
    · subst hji; rw [at_same] at hj; cases hj
    · rw [at_other _ _ hji] at hj
      exact h.total _ _ _ _ _ hj

/-- A thread goes on copying. -/
theorem copies_on {size : Text → Nat} {es : List Progress.CopyEvent} {s : Progress.Copies} (h : CopiesOk size es s) {i : Nat} {dest : Path}
    {total total' : Nat} {dir dir' : Copy.Dest} {todo todo' : List (Path × Copy.Kind)} (hi : s.threads i = .copying dest total dir todo)
    (ht : ∃ done, .start i dest (done ++ todo') ∈ es ∧ Copy.copyEntries .empty done = some dir' ∧ total' = bytesOf size done) :
    CopiesOk size es { s.at i (.copying dest total' dir' todo') with
      lines := s.lines.map fun l => if l.dest = dest then ⟨dest, total'⟩ else l } := by
  have hl := h.line i _ _ _ _ hi
  have hdest : ∀ l : Progress.Line, (if l.dest = dest then (⟨dest, total'⟩ : Progress.Line) else l).dest = l.dest := by
    intro l
    split
    · rename_i he; exact he.symm
    · rfl
  have hth : ∀ j, ({ s.at i (.copying dest total' dir' todo') with
      lines := s.lines.map fun l => if l.dest = dest then (⟨dest, total'⟩ : Progress.Line) else l } : Progress.Copies).threads j =
      if j = i then .copying dest total' dir' todo' else s.threads j := fun _ => rfl
  constructor
  · have : (s.lines.map fun l => if l.dest = dest then (⟨dest, total'⟩ : Progress.Line) else l).map (·.dest) = s.lines.map (·.dest) := by
      rw [List.map_map]
      exact List.map_congr_left fun l _ => hdest l
    dsimp only
    rw [this]
    exact h.distinct
  · intro l hl
    obtain ⟨l', hl', rfl⟩ := List.mem_map.1 hl
    rw [hdest]
    exact h.linesUsed l' hl'
  · intro j
    rw [hth]
    split
    · exact fun h => by cases h
    · exact h.noPanic j
  · intro j d t dd r hj
    rw [hth] at hj
    split at hj
    · cases hj
      exact List.mem_map.2 ⟨_, hl, if_pos rfl⟩
    · rename_i hji
      refine List.mem_map.2 ⟨_, h.line j _ _ _ _ hj, if_neg fun he => ?_⟩
      dsimp only at he
      subst he
      exact hji (h.apart _ _ _ _ _ _ _ _ _ hj hi)
  · intro l hl
    obtain ⟨l', hl', rfl⟩ := List.mem_map.1 hl
    rw [hdest]
    obtain ⟨j, hj⟩ := h.owner l' hl'
    refine ⟨j, ?_⟩
    rw [hth]
    split
    · rename_i hji
      subst hji
      rw [hi] at hj
      cases hj with
      | inl hj => obtain ⟨_, _, _, hj⟩ := hj; cases hj; exact .inl ⟨_, _, _, rfl⟩
      | inr hj => cases hj
    · exact hj
  · intro j k d t dd r t' d' r' hj hk
    rw [hth] at hj hk
    split at hj
    · rename_i hji
      split at hk
      · rename_i hki; exact hji.trans hki.symm
      · cases hj; exact hji.trans (h.apart _ _ _ _ _ _ _ _ _ hi hk)
    · split at hk
      · rename_i hki; cases hk; exact (h.apart _ _ _ _ _ _ _ _ _ hj hi).trans hki.symm
      · exact h.apart _ _ _ _ _ _ _ _ _ hj hk
  · intro j d hj
    rw [hth] at hj
    split at hj
    · cases hj
    · exact h.failedUsed j d hj
  · intro j k d t dd r hj hk
    rw [hth] at hj hk
    split at hk
    · cases hk
    · split at hj
      · cases hj; exact h.failedApart _ _ _ _ _ _ hi hk
      · exact h.failedApart _ _ _ _ _ _ hj hk
  · intro j d t dd r hj
    rw [hth] at hj
    split at hj
    · rename_i hji; subst hji; cases hj; exact ht
    · exact h.total _ _ _ _ _ hj

theorem copies_more {size : Text → Nat} {es : List Progress.CopyEvent} {s : Progress.Copies} (h : CopiesOk size es s) (e : Progress.CopyEvent) :
    CopiesOk size (es ++ [e]) s :=
  ⟨h.distinct, h.linesUsed, h.noPanic, h.line, h.owner, h.apart, h.failedUsed, h.failedApart, fun i dest total dir todo hi => by
    obtain ⟨done, hd, hr⟩ := h.total i dest total dir todo hi
    exact ⟨done, List.mem_append_left _ hd, hr⟩⟩

theorem copyEntries_append (d : Copy.Dest) (es : List (Path × Copy.Kind)) (e : Path × Copy.Kind) :
    Copy.copyEntries d (es ++ [e]) = (Copy.copyEntries d es).bind fun d => Copy.copyEntry d e := by
  induction es generalizing d with
  | nil =>
    show (Copy.copyEntry d e).bind (fun d => some d) = Copy.copyEntry d e
    cases Copy.copyEntry d e <;> rfl
  | cons x es ih =>
    show (Copy.copyEntry d x).bind (fun d => Copy.copyEntries d (es ++ [e])) = ((Copy.copyEntry d x).bind fun d => Copy.copyEntries d es).bind _
    cases Copy.copyEntry d x with
    | none => rfl
    | some d => exact ih d

theorem bytesOf_append (size : Text → Nat) (es : List (Path × Copy.Kind)) (e : Path × Copy.Kind) :
    bytesOf size (es ++ [e]) = bytesOf size es + (match e.2 with | .file c => size c | _ => 0) := by
  unfold bytesOf
  rw [List.map_append, List.sum_append, List.map_singleton, List.sum_singleton]
  congr 1

theorem copies_step {size : Text → Nat} {es : List Progress.CopyEvent} {s t : Progress.Copies} {e : Progress.CopyEvent}
    (h : CopiesOk size es s) (he : Progress.copyStep size s e = some t) : CopiesOk size (es ++ [e]) t := by
  have hm := copies_more h e
  cases e with
  | fail i =>
    dsimp only [Progress.copyStep] at he
    split at he
    · rename_i hi
      cases he
      exact copies_leave hm hi
    · cases he
  | start i dest entries =>
    dsimp only [Progress.copyStep] at he
    split at he
    · rename_i hi
      split at he
      · cases he
      · rename_i hu
        cases he
        have hth : ∀ j, (s.at i (.copying dest 0 .empty entries)).threads j = if j = i then .copying dest 0 .empty entries else s.threads j :=
          fun _ => rfl
        have hnew : ∀ l ∈ s.lines, l.dest ≠ dest := fun l hl he => hu (he ▸ h.linesUsed l hl)
        constructor
        · dsimp only
          rw [List.map_append, List.nodup_append]
          refine ⟨h.distinct, by simp, ?_⟩
          intro a ha b hb
          obtain ⟨l, hl, rfl⟩ := List.mem_map.1 ha
          cases List.mem_singleton.1 hb
          exact hnew l hl
        · intro l hl
          cases List.mem_append.1 hl with
          | inl hl => exact List.mem_cons_of_mem _ (h.linesUsed l hl)
          | inr hl => cases List.mem_singleton.1 hl; exact List.mem_cons_self ..
        · intro j
          dsimp only
          rw [hth]
          split
          · exact fun h => by cases h
          · exact h.noPanic j
        · intro j d t dd r hj
          dsimp only at hj
          rw [hth] at hj
          split at hj
          · cases hj; exact List.mem_append_right _ (List.mem_cons_self ..)
          · exact List.mem_append_left _ (h.line _ _ _ _ _ hj)
        · intro l hl
          dsimp only
          cases List.mem_append.1 hl with
          | inr hl =>
            cases List.mem_singleton.1 hl
            refine ⟨i, .inl ⟨0, .empty, entries, ?_⟩⟩
            rw [hth, if_pos rfl]
          | inl hl =>
            obtain ⟨j, hj⟩ := h.owner l hl
            refine ⟨j, ?_⟩
            have : j ≠ i := by
              rintro rfl
              rw [hi] at hj
              rcases hj with ⟨_, _, _, hj⟩ | hj <;> cases hj
            rw [hth, if_neg this]
            exact hj
        · intro j k d t dd r t' d' r' hj hk
          dsimp only at hj hk
          rw [hth] at hj hk
          split at hj
          · rename_i hji
            split at hk
            · rename_i hki; exact hji.trans hki.symm
            · cases hj; exact absurd rfl (hnew _ (h.line _ _ _ _ _ hk))
          · split at hk
            · cases hk; exact absurd rfl (hnew _ (h.line _ _ _ _ _ hj))
            · exact h.apart _ _ _ _ _ _ _ _ _ hj hk
        · intro j d hj
          dsimp only at hj
          rw [hth] at hj
          split at hj
          · cases hj
          · exact List.mem_cons_of_mem _ (h.failedUsed j d hj)
        · intro j k d t dd r hj hk
          dsimp only at hj hk
          rw [hth] at hj hk
          split at hk
          · cases hk
          · split at hj
            · cases hj; exact hu (h.failedUsed k _ hk)
            · exact h.failedApart _ _ _ _ _ _ hj hk
        · intro j d t dd r hj
          dsimp only at hj
          rw [hth] at hj
          split at hj
          · rename_i hji
            subst hji
            cases hj
            exact ⟨[], List.mem_append_right _ (List.mem_cons_self ..), rfl, rfl⟩
          · exact hm.total _ _ _ _ _ hj
    · cases he
  | go i =>
    dsimp only [Progress.copyStep] at he
    split at he
    · rename_i dest total dir hi
      obtain ⟨ls, hf, hn, hmem⟩ := finishCopy_spec h.distinct (h.line _ _ _ _ _ hi)
      rw [hf] at he
      cases he
      have hth : ∀ j, (s.at i .idle).threads j = if j = i then .idle else s.threads j := fun _ => rfl
      constructor
      · exact hn
      · exact fun l hl => h.linesUsed l ((hmem l).1 hl).1
      · intro j
        dsimp only
        rw [hth]
        split
        · exact fun h => by cases h
        · exact h.noPanic j
      · intro j d t dd r hj
        dsimp only at hj
        rw [hth] at hj
        split at hj
        · cases hj
        · rename_i hji
          refine (hmem _).2 ⟨h.line _ _ _ _ _ hj, fun he => ?_⟩
          dsimp only at he
          subst he
          exact hji (h.apart _ _ _ _ _ _ _ _ _ hj hi)
      · intro l hl
        obtain ⟨hl, hne⟩ := (hmem l).1 hl
        obtain ⟨j, hj⟩ := h.owner l hl
        refine ⟨j, ?_⟩
        dsimp only
        have : j ≠ i := by
          rintro rfl
          rw [hi] at hj
          rcases hj with ⟨_, _, _, hj⟩ | hj
          · cases hj; exact hne rfl
          · cases hj
        rw [hth, if_neg this]
        exact hj
      · intro j k d t dd r t' d' r' hj hk
        dsimp only at hj hk
        rw [hth] at hj hk
        split at hj
        · cases hj
        · split at hk
          · cases hk
          · exact h.apart _ _ _ _ _ _ _ _ _ hj hk
      · intro j d hj
        dsimp only at hj
        rw [hth] at hj
        split at hj
        · cases hj
        · exact h.failedUsed j d hj
      · intro j k d t dd r hj hk
        dsimp only at hj hk
        rw [hth] at hj hk
        split at hk
        · cases hk
        · split at hj
          · cases hj
          · exact h.failedApart _ _ _ _ _ _ hj hk
      · intro j d t dd r hj
        dsimp only at hj
        rw [hth] at hj
        split at hj
        · cases hj
        · exact hm.total _ _ _ _ _ hj
    · rename_i dest total dir x todo hi
      obtain ⟨done, hstart, hdir, htot⟩ := hm.total _ _ _ _ _ hi
      split at he
      · cases he
        exact copies_leave hm hi
      · rename_i dir' hdir'
        have hd : Copy.copyEntries .empty (done ++ [x]) = some dir' := by
          rw [copyEntries_append, hdir]; exact hdir'
        have hstart : .start i dest ((done ++ [x]) ++ todo) ∈ es ++ [.go i] := by
          rw [List.append_assoc]; exact hstart
        split at he
        · rename_i content hx
          rw [copyProgress_spec h.distinct ⟨_, h.line _ _ _ _ _ hi⟩] at he
          cases he
          refine copies_on hm hi ⟨done ++ [x], hstart, hd, ?_⟩
          rw [bytesOf_append, hx, htot]
        · rename_i hx
          cases he
          have ht' : total = bytesOf size (done ++ [x]) := by
            rw [bytesOf_append, htot]
            split
            · rename_i c hc; exact absurd hc (hx c)
            · rfl
          have hls : (s.lines.map fun l => if l.dest = dest then (⟨dest, total⟩ : Progress.Line) else l) = s.lines := by
            rw [List.map_congr_left (g := id), List.map_id]
            intro l hl
            split
            · rename_i hle
              obtain ⟨j, hj⟩ := List.getElem?_of_mem hl
              obtain ⟨k, hk⟩ := List.getElem?_of_mem (h.line _ _ _ _ _ hi)
              obtain ⟨hj', hj⟩ := List.getElem?_eq_some_iff.1 hj
              obtain ⟨hk', hk⟩ := List.getElem?_eq_some_iff.1 hk
              have hjk : j = k := by
                apply (List.getElem_inj (h₀ := by simpa using hj') (h₁ := by simpa using hk') h.distinct).1
                simp [hj, hk, hle]
              subst hjk
              rw [hj] at hk
              exact hk.symm
            · rfl
          have := copies_on (total' := total) hm hi ⟨done ++ [x], hstart, hd, ht'⟩
          rw [hls] at this
          exact this
    · cases he

theorem copies_exec {size : Text → Nat} (es : List Progress.CopyEvent) {s : Progress.Copies}
    (h : Progress.copyExec size {} es = some s) : CopiesOk size es s := by
  have key : ∀ (es' es : List Progress.CopyEvent) (s t : Progress.Copies), CopiesOk size es s →
      Progress.copyExec size s es' = some t → CopiesOk size (es ++ es') t := by
    intro es'
    induction es' with
    | nil => intro es s t h he; cases he; rw [List.append_nil]; exact h
    | cons e es' ih =>
      intro es s t h he
      obtain ⟨u, hu, he⟩ := Option.bind_eq_some_iff.1 he
      have := ih (es ++ [e]) u t (copies_step h hu) he
      rw [List.append_assoc] at this
      exact this
  refine key es [] {} s ?_ h
  constructor
  · exact .nil
  · intro l hl; cases hl
  · intro i h; cases h
  · intro i d t dd r h; cases h
  · intro l hl; cases hl
  · intro i j d t dd r t' d' r' h; cases h
  · intro i d h; cases h
  · intro i j d t dd r h; cases h
  · intro i d t dd r h; cases h

/-- **C92**: for each copy that is going on there is exactly one line, with the bytes of the files that have been copied. -/
theorem C92_copy (size : Text → Nat) (es : List Progress.CopyEvent) (s : Progress.Copies) (h : Progress.copyExec size {} es = some s)
    (i : Nat) (dest : Path) (total : Nat) (dir : Copy.Dest) (todo : List (Path × Copy.Kind))
    (hi : s.threads i = .copying dest total dir todo) :
    ∃ done, .start i dest (done ++ todo) ∈ es ∧ Copy.copyEntries .empty done = some dir ∧
      s.lines.filter (fun l => l.dest = dest) = [⟨dest, bytesOf size done⟩] := by
  have ok := copies_exec es h
  obtain ⟨done, h1, h2, h3⟩ := ok.total _ _ _ _ _ hi
  refine ⟨done, h1, h2, ?_⟩
  have hl := ok.line _ _ _ _ _ hi
  rw [← h3]
  have hd := ok.distinct
  generalize s.lines = ls at hl hd
  induction ls with
  | nil => cases hl
  | cons l ls ih =>
    rw [List.map_cons] at hd
    obtain ⟨hd1, hd2⟩ := List.nodup_cons.1 hd
    cases List.mem_cons.1 hl with
    | inl he =>
      subst he
      rw [List.filter_cons_of_pos (by simp)]
      congr 1
      rw [List.filter_eq_nil_iff]
      intro x hx he
      exact hd1 (List.mem_map.2 ⟨x, hx, by simpa using he⟩)
    | inr hm =>
      rw [List.filter_cons_of_neg]
      · exact ih hm hd2
      · intro he
        exact hd1 (List.mem_map.2 ⟨_, hm, (of_decide_eq_true he).symm⟩)

/-- **C92**: and every line is that of a copy that is going on or has failed. -/
theorem C92_copy_only (size : Text → Nat) (es : List Progress.CopyEvent) (s : Progress.Copies) (h : Progress.copyExec size {} es = some s)
    (l : Progress.Line) (hl : l ∈ s.lines) :
    ∃ i, (∃ total dir todo, s.threads i = .copying l.dest total dir todo) ∨ s.threads i = .failed l.dest :=
  (copies_exec es h).owner l hl

/-- **C92**: looking for the line of a copy never fails. -/
theorem C92_copy_found (size : Text → Nat) (es : List Progress.CopyEvent) (s : Progress.Copies) (h : Progress.copyExec size {} es = some s)
    (i : Nat) : s.threads i ≠ .panicked := (copies_exec es h).noPanic i

/-- **C92**: a line has the whole megabytes. -/
theorem C92_copy_text (secs : Text) (l : Progress.Line) :
    ∃ mb, l.render secs = "copy     ".toList ++ Nat.toDigits 10 mb ++ " MB in ".toList ++ secs ∧
      mb * 1000000 ≤ l.bytes ∧ l.bytes < (mb + 1) * 1000000 := by
  refine ⟨l.bytes / 1000000, ?_, by omega, by omega⟩
  unfold Progress.Line.render
  have : padTo 8 "copy".toList = "copy    ".toList := by decide
  rw [this]
  simp [decimal]

/-- two copies at once; the second is done first, and then the first fails -/
def sampleCopies : List Progress.CopyEvent :=
  [.start 0 ["a".toList] [([], .dir), (["x".toList], .file "12345".toList), (["y".toList], .file "12".toList)], .go 0, .go 0,
   .start 1 ["b".toList] [([], .dir), (["x".toList], .file "123".toList)], .go 0, .go 1, .go 1]

theorem sample_copies : (Progress.copyExec List.length {} sampleCopies).map (·.lines) = some [⟨["a".toList], 7⟩, ⟨["b".toList], 3⟩] := by
  decide +kernel
example : (Progress.copyExec List.length {} (sampleCopies ++ [.go 1])).map (·.lines) = some [⟨["a".toList], 7⟩] := by decide +kernel
example : (Progress.copyExec List.length {} (sampleCopies ++ [.fail 0, .go 1])).map (·.lines) = some [⟨["a".toList], 7⟩] := by
  decide +kernel
example : (⟨["a".toList], 12345678⟩ : Progress.Line).render "1.5s".toList = "copy     12 MB in 1.5s".toList := by decide
example : (⟨3, 17⟩ : Progress.WalkModel).render = "Finding mutation opportunities: 3 files done, 17 mutants found\n".toList := by decide
/-- **C92**, about the lines, in full: every line is that of a copy that is going on. -/
def C92_lines_full : Prop :=
  ∀ (size : Text → Nat) (es : List Progress.CopyEvent) (s : Progress.Copies), Progress.copyExec size {} es = some s →
    ∀ l ∈ s.lines, ∃ i total dir todo, s.threads i = .copying l.dest total dir todo

theorem sample_failed : (Progress.copyExec List.length {} [.start 0 ["a".toList] [([], .dir)], .fail 0]).map (fun s => (s.lines, s.used)) =
    some ([⟨["a".toList], 0⟩], [["a".toList]]) := by decide +kernel

/-- **C92**: it is not so: `copy_tree` returns on an error without `finish_copy`. -/
theorem C92_failed_line_false : ¬ C92_lines_full := by
  intro hf
  obtain ⟨s, hs, he⟩ := Option.map_eq_some_iff.1 sample_failed
  obtain ⟨i, total, dir, todo, hi⟩ := hf _ _ _ hs ⟨["a".toList], 0⟩ (by rw [(Prod.mk.inj he).1]; exact List.mem_cons_self ..)
  cases hs
  by_cases h : i = 0
  · subst h; cases hi
  · dsimp only at hi
    rw [at_other _ _ h, at_other _ _ h] at hi
    cases hi

/-- what was shown in the search of the sample: the metadata, a file, its mutants, and so on -/
example : (Progress.exec sampleWorld sampleRun {} [.go, .go, .go, .go, .go]).map (fun s =>
    s.shown.reverse.map fun m => m.map fun m => (m.files, m.mutants)) =
    some [some (0, 0), some (1, 0), some (1, 3), some (2, 3), some (2, 5), none] := by decide +kernel

end CM.Props
