import Verif.Model.Span
/-! Sharding: `src/shard.rs`. -/
namespace CM

/-- `src/shard.rs:9-16` `Shard`. -/
structure Shard where
  k : Nat
  n : Nat
deriving DecidableEq, Repr

/-- `src/shard.rs:20-26` `Shard::select`. `none` is the panic of `i % 0` (reached only when there
is an element to compute it for). -/
def Shard.select {α} (s : Shard) (mutants : List α) : Option (List α) :=
  if s.n = 0 ∧ mutants ≠ [] then none
  else some (mutants.zipIdx.filterMap fun (m, i) => if i % s.n = s.k then some m else none)

/-- Largest value of Rust's `usize`, taken to be 64 bits wide. -/
def usizeMax : Nat := 2 ^ 64 - 1

/-- Value of an ASCII digit, as in `char::to_digit(10)`. -/
def digitValue (c : Char) : Option Nat :=
  if '0' ≤ c ∧ c ≤ '9' then some (c.toNat - '0'.toNat) else none

/-- The digit loop of Rust's `usize::from_str`: fails on a non-digit and on overflow. -/
def parseDigits (acc : Nat) : Text → Option Nat
  | [] => some acc
  | c :: cs =>
    match digitValue c with
    | none => none
    | some d => if acc * 10 + d ≤ usizeMax then parseDigits (acc * 10 + d) cs else none

/-- Rust's `usize::from_str` (used at `src/shard.rs:34-35`): an optional leading `+`, then at least
one digit. A leading `-` is an invalid digit. -/
def parseUsize : Text → Option Nat
  | [] => none
  | [c] => parseDigits 0 [c]
  | c :: cs => if c = '+' then parseDigits 0 cs else parseDigits 0 (c :: cs)

/-- Rust's `str::split_once` with a single `char`: split at the first occurrence. -/
def splitOnce (sep : Char) : Text → Option (Text × Text)
  | [] => none
  | c :: cs =>
    if c = sep then some ([], cs)
    else (splitOnce sep cs).map fun (a, b) => (c :: a, b)

/-- `src/shard.rs:32-38` `Shard::from_str`; `none` is any of its errors. -/
def Shard.fromStr (s : Text) : Option Shard :=
  match splitOnce '/' s with
  | none => none
  | some (a, b) =>
    match parseUsize a, parseUsize b with
    | some k, some n => if k < n then some ⟨k, n⟩ else none
    | _, _ => none

end CM
