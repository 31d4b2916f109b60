import Verif.Model.Walk
import Verif.Spec.Visit
/-! Which files of a package should be walked, by reachability through `mod` statements, and without a
queue. A file is named by its path, and whether it is the top file of a target. -/
namespace CM.Spec
open CM

/-- The path names a file inside the tree that can be read and parsed. -/
def Content (env : WalkEnv) (pkg : Package) (x : Path × Bool) (sf : SourceFile) (syn : SynFile) : Prop :=
  loadSource env.read env.root x.1 pkg x.2 = some (some sf) ∧ env.parse sf.code = some syn

/-- The position of something in a file that is not left alone. -/
def Unskipped (env : WalkEnv) (syn : SynFile) (path : List Node) : Prop :=
  (∀ a ∈ syn.attrs, ¬ Marks a) ∧ Position syn.items path ∧ ∀ n ∈ path, ¬ Skipped env.options.skipCalls n

/-- A file has a `mod` statement for another one. -/
def Refers (env : WalkEnv) (pkg : Package) (x : Path × Bool) (file : Path) : Prop :=
  ∃ sf syn path parts, Content env pkg x sf syn ∧ Unskipped env syn path ∧ externalAt path = some parts ∧
    findModSource env.isFile sf parts = some (some file)

/-- The files that are reachable from the top files. -/
inductive Reach (env : WalkEnv) (pkg : Package) : Path × Bool → Prop
  | top {p} : p ∈ pkg.topSources → Reach env pkg (p, true)
  | next {x file} : Reach env pkg x → Refers env pkg x file → Reach env pkg (file, false)

/-- The mutants of a file. -/
def MutantOf (env : WalkEnv) (sf : SourceFile) (syn : SynFile) (m : Mutant) : Prop :=
  env.options.allowsMutant m = some true ∧ ∃ path, Unskipped env syn path ∧
    m ∈ mutantsAt ⟨sf, env.errorExprs, env.options.skipCalls⟩ path

open Classical in
/-- The mutants of a file, in document order. -/
noncomputable def fileMutants (env : WalkEnv) (sf : SourceFile) : List Mutant :=
  match env.parse sf.code with
  | some syn =>
    if ∃ a ∈ syn.attrs, Marks a then []
    else ((unskipped env.options.skipCalls (positionsAll [] syn.items)).flatMap
      (mutantsAt ⟨sf, env.errorExprs, env.options.skipCalls⟩)).filter fun m => env.options.allowsMutant m = some true
  | none => []

open Classical in
/-- The files that the `mod` statements of a file name, in document order. -/
noncomputable def modFiles (env : WalkEnv) (pkg : Package) (x : Path × Bool) : List Path :=
  match loadSource env.read env.root x.1 pkg x.2 with
  | some (some sf) =>
    match env.parse sf.code with
    | some syn =>
      if ∃ a ∈ syn.attrs, Marks a then []
      else ((unskipped env.options.skipCalls (positionsAll [] syn.items)).filterMap externalAt).filterMap
        fun parts => (findModSource env.isFile sf parts).join
    | none => []
  | _ => []

/-- The file itself, if it is inside the tree and not excluded. -/
def fileOf (env : WalkEnv) (pkg : Package) (x : Path × Bool) : List SourceFile :=
  match loadSource env.read env.root x.1 pkg x.2 with
  | some (some sf) => if env.options.allowsSourceFilePath sf.path then [sf] else []
  | _ => []

end CM.Spec
