import Verif.Spec.Visit
/-! Conditional compilation: what the predicate of a `cfg` attribute means to the compiler, and what is compiled. -/
namespace CM.Spec
open CM

/-- A predicate of conditional compilation (Rust reference, "Conditional compilation"). -/
inductive CfgPred
  /-- `unix`, `test` -/
  | name (n : Text)
  /-- `feature = "x"` -/
  | keyValue (key value : Text)
  | all (ps : List CfgPred)
  | any (ps : List CfgPred)
  | not (p : CfgPred)

/-- The options that are set. -/
structure CfgEnv where
  names : Text → Bool
  values : Text → Text → Bool

mutual
/-- Is a predicate true? -/
def CfgPred.holds (env : CfgEnv) : CfgPred → Bool
  | .name n => env.names n
  | .keyValue k v => env.values k v
  | .all ps => allHold env ps
  | .any ps => anyHolds env ps
  | .not p => !(p.holds env)
def allHold (env : CfgEnv) : List CfgPred → Bool
  | [] => true
  | p :: ps => p.holds env && allHold env ps
def anyHolds (env : CfgEnv) : List CfgPred → Bool
  | [] => false
  | p :: ps => p.holds env || anyHolds env ps
end

/-- How a predicate looks to `syn::Attribute::parse_nested_meta`: a path, alone or with something after it. -/
def CfgPred.item : CfgPred → MetaItem
  | .name n => ⟨⟨false, [n]⟩, true⟩
  | .keyValue k _ => ⟨⟨false, [k]⟩, false⟩
  | .all _ => ⟨⟨false, ["all".toList]⟩, false⟩
  | .any _ => ⟨⟨false, ["any".toList]⟩, false⟩
  | .not _ => ⟨⟨false, ["not".toList]⟩, false⟩

/-- `#[cfg(p)]` -/
def cfgAttr (p : CfgPred) : Attr := ⟨⟨false, ["cfg".toList]⟩, .list [p.item]⟩

/-- The `cfg` attributes among some. -/
def cfgs (attrs : List Attr) : List Attr := attrs.filter fun a => a.path.idents == ["cfg".toList]

/-- The others. -/
def notCfgs (attrs : List Attr) : List Attr := attrs.filter fun a => a.path.idents != ["cfg".toList]

/-- The node without its `cfg` attributes. -/
def withoutCfgs : Node → Node
  | .mk k attrs cs => .mk k (notCfgs attrs) cs

/-- The predicates of a file and of the nodes from the root down to some place. -/
structure Conditions (f : SynFile) (path : List Node) where
  file : List CfgPred
  nodes : List (List CfgPred)
  file_reads : cfgs f.attrs = file.map cfgAttr
  nodes_read : path.map (fun n => cfgs n.attrs) = nodes.map (·.map cfgAttr)

/-- The place is compiled with these options. -/
def Conditions.Compiled {f : SynFile} {path : List Node} (cs : Conditions f path) (env : CfgEnv) : Prop :=
  (∀ p ∈ cs.file, p.holds env) ∧ ∀ ps ∈ cs.nodes, ∀ p ∈ ps, p.holds env

/-- It is compiled for tests, and only for them. -/
def Conditions.TestOnly {f : SynFile} {path : List Node} (cs : Conditions f path) : Prop :=
  (∃ env, cs.Compiled env) ∧ ∀ env, cs.Compiled env → env.names "test".toList = true

end CM.Spec
