import Verif.Model.Pipeline
import Verif.Props.Walk
import Verif.Props.OutputDir
import Verif.Props.InDiff
import Verif.Props.Shard
/-! Lemmas about the steps from arguments to mutants. -/
namespace CM.Props
open CM CM.Spec

theorem walksTree_unique {env : WalkEnv} {pkgs : List Package} {ms ms' : List Mutant} {fs fs' : List SourceFile}
    (h : WalksTree env pkgs ms fs) (h' : WalksTree env pkgs ms' fs') : ms = ms' ∧ fs = fs' := by
  induction h generalizing ms' fs' with
  | nil => cases h'; exact ⟨rfl, rfl⟩
  | cons h1 _ ih =>
    cases h' with
    | cons h1' h2' =>
      obtain ⟨e1, e2⟩ := C45_unique _ _ _ _ _ _ h1 h1'
      obtain ⟨e3, e4⟩ := ih h2'
      exact ⟨by rw [e1, e3], by rw [e2, e4]⟩

theorem discovers_unique {w : World} {a : MainArgs} {ms ms' : List Mutant} {fs fs' : List SourceFile}
    (h : Discovers w a ms fs) (h' : Discovers w a ms' fs') : ms = ms' ∧ fs = fs' := by
  obtain ⟨o, pkgs, exprs, h1, h2, h3, h4⟩ := h
  obtain ⟨o', pkgs', exprs', h1', h2', h3', h4'⟩ := h'
  rw [h1] at h1'; cases h1'
  rw [h2] at h2'; cases h2'
  rw [h3] at h3'; cases h3'
  exact walksTree_unique h4 h4'

theorem name_of_name {m : Mutant} {n : Text} (h : m.name true = some n) (b : Bool) : ∃ n', m.name b = some n' := by
  unfold Mutant.name at h ⊢
  obtain ⟨d, hd, _⟩ := Option.map_eq_some_iff.1 h
  exact ⟨_, by rw [hd]; rfl⟩

theorem walksTree_named {env : WalkEnv} {pkgs : List Package} {ms : List Mutant} {fs : List SourceFile}
    (h : WalksTree env pkgs ms fs) (m : Mutant) (hm : m ∈ ms) (b : Bool) : ∃ n, m.name b = some n := by
  obtain ⟨pkg, _, x, sf, syn, _, _, _, hmo⟩ := ((C45_tree env pkgs ms fs h).2.1 m).1 hm
  have := hmo.1
  unfold Options.allowsMutant at this
  obtain ⟨n, hn, _⟩ := Option.map_eq_some_iff.1 this
  exact name_of_name hn b

/-- Mutants of a file have that file. -/
theorem sourceFile_of_mutantsAt {c : VConfig} {p : List Node} {m : Mutant} (h : m ∈ mutantsAt c p) : m.sourceFile = c.sourceFile := by
  unfold mutantsAt at h
  cases hl : p.getLast? with
  | none => rw [hl] at h; cases h
  | some n =>
    rw [hl] at h
    obtain ⟨x, _, rfl⟩ := List.mem_map.1 h
    rfl

theorem fileMutants_source {env : WalkEnv} {sf : SourceFile} {m : Mutant} (h : m ∈ fileMutants env sf) : m.sourceFile = sf := by
  cases hp : env.parse sf.code with
  | none => unfold fileMutants at h; rw [hp] at h; cases h
  | some syn =>
    obtain ⟨_, path, _, hm⟩ := (mem_fileMutants env sf syn hp m).1 h
    exact sourceFile_of_mutantsAt hm

/-- What is known about the source file of a mutant that was found. -/
theorem walksTree_source {env : WalkEnv} {pkgs : List Package} {ms : List Mutant} {fs : List SourceFile}
    (h : WalksTree env pkgs ms fs) (m : Mutant) (hm : m ∈ ms) :
    m.sourceFile.package ∈ pkgs ∧ ∃ t, env.read (joinPath env.root m.sourceFile.path) = some t ∧ m.sourceFile.code = normalizeNewlines t := by
  obtain ⟨pkg, hp, x, sf, syn, _, ⟨hl, hs⟩, _, hmo⟩ := ((C45_tree env pkgs ms fs h).2.1 m).1 hm
  have hsf := fileMutants_source ((mem_fileMutants env sf syn hs m).2 hmo)
  rw [hsf]
  unfold loadSource at hl
  by_cases ha : ascent x.1 > 0
  · rw [if_pos ha] at hl; cases hl
  · rw [if_neg ha] at hl
    obtain ⟨t, ht, hl⟩ := Option.bind_eq_some_iff.1 hl
    cases hl
    exact ⟨hp, t, ht, rfl⟩

/-! ### Filters on files and names do not change what is walked -/

/-- The options without filters. -/
def unfiltered (o : Options) : Options :=
  { o with examineGlobset := none, excludeGlobset := none, examineNames := [], excludeNames := [] }

def unfilteredEnv (env : WalkEnv) : WalkEnv := { env with options := unfiltered env.options }

/-- Allowed by the filters on names. -/
def nameOk (o : Options) (m : Mutant) : Bool := o.allowsMutant m == some true

/-- Allowed by the filters on files. -/
def fileOk (o : Options) (m : Mutant) : Bool := o.allowsSourceFilePath m.sourceFile.path

theorem unfiltered_allows (o : Options) (p : Path) : (unfiltered o).allowsSourceFilePath p = true := rfl

theorem retain_unfiltered (o : Options) (ms : List Mutant) :
    retainAllowed o ms = (retainAllowed (unfiltered o) ms).map fun l => l.filter (nameOk o) := by
  induction ms with
  | nil => rfl
  | cons m ms ih =>
    unfold retainAllowed
    rw [ih]
    cases hn : m.name true with
    | none =>
      have h1 : o.allowsMutant m = none := by unfold Options.allowsMutant; rw [hn]; rfl
      have h2 : (unfiltered o).allowsMutant m = none := by unfold Options.allowsMutant; rw [hn]; rfl
      rw [h1, h2]; rfl
    | some n =>
      have h2 : (unfiltered o).allowsMutant m = some true := by unfold Options.allowsMutant; rw [hn]; rfl
      have h1 : ∃ b, o.allowsMutant m = some b := by unfold Options.allowsMutant; rw [hn]; exact ⟨_, rfl⟩
      obtain ⟨b, h1⟩ := h1
      rw [h1, h2]
      cases retainAllowed (unfiltered o) ms with
      | none => rfl
      | some l => cases b <;> simp [nameOk, h1]

theorem walkOne_unfiltered (env : WalkEnv) (pkg : Package) (p : Path) (t : Bool) :
    walkOne env pkg p t = (walkOne (unfilteredEnv env) pkg p t).map fun o => o.map fun (sf, ms, mods) =>
      (sf, ms.filter (nameOk env.options), mods) := by
  unfold walkOne
  show (loadSource env.read env.root p pkg t).bind _ = Option.map _ ((loadSource env.read env.root p pkg t).bind _)
  cases loadSource env.read env.root p pkg t with
  | none => rfl
  | some o =>
    cases o with
    | none => rfl
    | some sf =>
      show (env.parse sf.code).bind _ = Option.map _ ((env.parse sf.code).bind _)
      cases env.parse sf.code with
      | none => rfl
      | some syn =>
        show (walkFile _ syn).bind _ = Option.map _ ((walkFile _ syn).bind _)
        show (walkFile ⟨sf, env.errorExprs, env.options.skipCalls⟩ syn).bind _ =
          Option.map _ ((walkFile ⟨sf, env.errorExprs, env.options.skipCalls⟩ syn).bind _)
        cases walkFile ⟨sf, env.errorExprs, env.options.skipCalls⟩ syn with
        | none => rfl
        | some r =>
          obtain ⟨ms, ext⟩ := r
          show (retainAllowed env.options ms).bind _ = Option.map _ ((retainAllowed (unfiltered env.options) ms).bind _)
          rw [retain_unfiltered]
          cases retainAllowed (unfiltered env.options) ms with
          | none => rfl
          | some l =>
            show (findMods env.isFile sf ext).bind _ = Option.map _ ((findMods env.isFile sf ext).bind _)
            cases findMods env.isFile sf ext <;> rfl

/-- What the filters leave of a state. -/
def filterState (o : Options) (s : WalkState) : WalkState :=
  { queue := s.queue, mutants := s.mutants.filter fun m => fileOk o m && nameOk o m,
    files := s.files.filter fun f => o.allowsSourceFilePath f.path }

theorem walkStep_unfiltered (env : WalkEnv) (pkg : Package) (s : WalkState) :
    walkStep env pkg (filterState env.options s) = (walkStep (unfilteredEnv env) pkg s).map (filterState env.options) := by
  unfold walkStep
  cases hq : s.queue with
  | nil => simp [filterState, hq]
  | cons x rest =>
    obtain ⟨p, t⟩ := x
    show (match (filterState env.options s).queue with | [] => _ | (path, top) :: rest => _) = _
    have hq' : (filterState env.options s).queue = (p, t) :: rest := hq
    rw [hq']
    dsimp only
    rw [walkOne_unfiltered]
    cases hw : walkOne (unfilteredEnv env) pkg p t with
    | none => rfl
    | some o =>
      cases o with
      | none => simp [filterState]
      | some r =>
        obtain ⟨sf, ms, mods⟩ := r
        obtain ⟨syn, _, hms, _⟩ := walkOne_some _ _ _ _ _ _ _ hw
        have hsrc : ∀ m ∈ ms, m.sourceFile = sf := by
          intro m hm
          rw [hms] at hm
          exact fileMutants_source hm
        simp only [Option.map_some]
        have h0 : (unfilteredEnv env).options.allowsSourceFilePath sf.path = true := rfl
        rw [if_pos h0]
        by_cases ha : env.options.allowsSourceFilePath sf.path = true
        · rw [if_pos ha]
          have hf : (ms.filter fun m => fileOk env.options m && nameOk env.options m) = ms.filter (nameOk env.options) := by
            refine List.filter_congr fun m hm => ?_
            simp [fileOk, hsrc m hm, ha]
          simp [filterState, List.filter_append, hf, ha]
        · rw [if_neg ha]
          have hf : (ms.filter fun m => fileOk env.options m && nameOk env.options m) = [] := by
            refine List.filter_eq_nil_iff.2 fun m hm => ?_
            simp [fileOk, hsrc m hm, ha]
          simp [filterState, List.filter_append, hf, ha]

theorem walkSteps_unfiltered (env : WalkEnv) (pkg : Package) (n : Nat) (s : WalkState) :
    walkSteps env pkg n (filterState env.options s) = (walkSteps (unfilteredEnv env) pkg n s).map (filterState env.options) := by
  induction n generalizing s with
  | zero => rfl
  | succ n ih =>
    show (walkStep env pkg (filterState env.options s)).bind _ = ((walkStep (unfilteredEnv env) pkg s).bind _).map _
    rw [walkStep_unfiltered]
    cases walkStep (unfilteredEnv env) pkg s with
    | none => rfl
    | some s1 => exact ih s1

theorem walksPackage_filter {env : WalkEnv} {pkg : Package} {ms : List Mutant} {fs : List SourceFile}
    (h : WalksPackage (unfilteredEnv env) pkg ms fs) :
    WalksPackage env pkg (ms.filter fun m => fileOk env.options m && nameOk env.options m)
      (fs.filter fun f => env.options.allowsSourceFilePath f.path) := by
  obtain ⟨n, s, h1, h2, rfl, rfl⟩ := h
  refine ⟨n, filterState env.options s, ?_, h2, rfl, rfl⟩
  have : filterState env.options (walkStart pkg) = walkStart pkg := rfl
  rw [← this, walkSteps_unfiltered, h1]; rfl

theorem walksTree_filter {env : WalkEnv} {pkgs : List Package} {ms : List Mutant} {fs : List SourceFile}
    (h : WalksTree (unfilteredEnv env) pkgs ms fs) :
    WalksTree env pkgs (ms.filter fun m => fileOk env.options m && nameOk env.options m)
      (fs.filter fun f => env.options.allowsSourceFilePath f.path) := by
  induction h with
  | nil => exact .nil
  | cons h1 _ ih =>
    rw [List.filter_append, List.filter_append]
    exact .cons (walksPackage_filter h1) ih

/-! ### `--iterate` and `--in-diff` are filters -/

/-- Not listed as caught before. -/
def notCaught (previous : List Text) (m : Mutant) : Bool :=
  match m.name true with
  | some n => !decide (n ∈ previous)
  | none => true

theorem iterate_eq {previous : List Text} {ms r : List Mutant} (h : removePreviouslyCaught previous ms = some r) :
    r = ms.filter (notCaught previous) := by
  induction ms generalizing r with
  | nil => cases h; rfl
  | cons m ms ih =>
    unfold removePreviouslyCaught at h
    obtain ⟨n, hn, h⟩ := Option.bind_eq_some_iff.1 h
    obtain ⟨r', hr, h⟩ := Option.bind_eq_some_iff.1 h
    cases h
    rw [ih hr]
    by_cases hm : n ∈ previous <;> simp [notCaught, hn, hm]

theorem iterate_some {previous : List Text} {ms : List Mutant} (h : ∀ m ∈ ms, ∃ n, m.name true = some n) :
    removePreviouslyCaught previous ms = some (ms.filter (notCaught previous)) := by
  obtain ⟨r, hr⟩ := C36_total previous ms fun m hm => by obtain ⟨n, hn⟩ := h m hm; simp [hn]
  rw [hr, iterate_eq hr]

/-- Some line of the mutant is changed by the diff. -/
def inDiff (parse : Text → Option (List Patch)) (text : Text) (m : Mutant) : Bool :=
  !isBlank (fixedDiff text) &&
  match parse (fixedDiff text) with
  | none => false
  | some patches =>
    match linesChangedByPath [] patches with
    | none => false
    | some changed =>
      match changed.lookup m.sourceFile.path with
      | some lines => probeLines lines m.span.start.line (m.span.stop.line + 1 - m.span.start.line)
      | none => false

theorem diff_eq {parse : Text → Option (List Patch)} {text : Text} {ms r : List Mutant} (h : diffFilter parse ms text = some r) :
    r = ms.filter (inDiff parse text) := by
  unfold diffFilter at h
  unfold inDiff
  by_cases hb : isBlank (fixedDiff text) = true
  · rw [if_pos hb] at h; cases h
    rw [hb]
    symm
    refine List.filter_eq_nil_iff.2 fun m hm => ?_
    simp
  · rw [if_neg hb] at h
    have hb' : isBlank (fixedDiff text) = false := by cases h' : isBlank (fixedDiff text) <;> simp_all
    rw [hb']
    cases hp : parse (fixedDiff text) with
    | none => rw [hp] at h; cases h
    | some patches =>
      rw [hp] at h
      dsimp only at h
      unfold diffFilterPatches at h
      by_cases hc : checkDiffNewTextMatches patches ms = true
      · rw [if_pos hc] at h
        obtain ⟨changed, hl, h⟩ := Option.map_eq_some_iff.1 h
        rw [← h]
        dsimp only
        rw [hl]
        rfl
      · rw [if_neg hc] at h; cases h

/-- The same path means the same text. -/
def SameCode (ms : List Mutant) : Prop :=
  ∀ m ∈ ms, ∀ m' ∈ ms, m.sourceFile.path = m'.sourceFile.path → m.sourceFile.code = m'.sourceFile.code

theorem diff_sub {parse : Text → Option (List Patch)} {text : Text} {ms r : List Mutant} (h : diffFilter parse ms text = some r)
    (hs : SameCode ms) (p : Mutant → Bool) : diffFilter parse (ms.filter p) text = some ((ms.filter p).filter (inDiff parse text)) := by
  suffices hx : ∃ r', diffFilter parse (ms.filter p) text = some r' by
    obtain ⟨r', hr⟩ := hx
    rw [hr, ← diff_eq hr]
  unfold diffFilter at h ⊢
  by_cases hb : isBlank (fixedDiff text) = true
  · rw [if_pos hb]; exact ⟨_, rfl⟩
  · rw [if_neg hb] at h ⊢
    cases hp : parse (fixedDiff text) with
    | none => rw [hp] at h; cases h
    | some patches =>
      rw [hp] at h
      dsimp only at h ⊢
      unfold diffFilterPatches at h ⊢
      by_cases hc : checkDiffNewTextMatches patches ms = true
      · rw [if_pos hc] at h
        obtain ⟨changed, hl, h⟩ := Option.map_eq_some_iff.1 h
        have hc' : checkDiffNewTextMatches patches (ms.filter p) = true := by
          unfold checkDiffNewTextMatches at hc ⊢
          rw [List.all_eq_true] at hc ⊢
          intro q hq
          have := hc q hq
          cases hf : (ms.filter p).find? fun m => decide (m.sourceFile.path = stripPatchPath q.newPath) with
          | none => rfl
          | some m =>
            dsimp only
            have hm := List.mem_of_find?_eq_some hf
            have hpath := List.find?_some hf
            have hm' := (List.mem_filter.1 hm).1
            cases hf0 : ms.find? fun m => decide (m.sourceFile.path = stripPatchPath q.newPath) with
            | none =>
              have := List.find?_eq_none.1 hf0 m hm'
              exact absurd hpath this
            | some m0 =>
              rw [hf0] at this
              dsimp only at this
              have hm0 := List.mem_of_find?_eq_some hf0
              have hpath0 := List.find?_some hf0
              have e : m.sourceFile.code = m0.sourceFile.code := by
                refine hs m hm' m0 hm0 ?_
                simp only [decide_eq_true_eq] at hpath hpath0
                rw [hpath, hpath0]
              rw [e]; exact this
        rw [if_pos hc', hl]
        exact ⟨_, rfl⟩
      · rw [if_neg hc] at h; cases h

theorem walksTree_sameCode {env : WalkEnv} {pkgs : List Package} {ms : List Mutant} {fs : List SourceFile}
    (h : WalksTree env pkgs ms fs) : SameCode ms := by
  intro m hm m' hm' he
  obtain ⟨_, t, ht, hc⟩ := walksTree_source h m hm
  obtain ⟨_, t', ht', hc'⟩ := walksTree_source h m' hm'
  rw [he, ht'] at ht
  cases ht
  rw [hc, hc']

end CM.Props
