/-! The order of mutants: `src/lab.rs:40-42`. -/
namespace CM

/-- `fastrand::shuffle` (version 2, a dependency; Fisher-Yates): for `i` from 1 up, swap the elements
at `i` and at a random index `r i` of at most `i`. -/
def shuffleFrom {α} (r : Nat → Nat) (xs : Array α) (i : Nat) : Nat → Array α
  | 0 => xs
  | n + 1 => shuffleFrom r (xs.swapIfInBounds i (r i % (i + 1))) (i + 1) n

/-- The whole shuffle. -/
def fastShuffle {α} (r : Nat → Nat) (xs : List α) : List α :=
  (shuffleFrom r xs.toArray 1 (xs.length - 1)).toList

/-- `src/lab.rs:40-42`, with `src/options.rs:314` `shuffle: !args.no_shuffle`. -/
def orderMutants {α} (noShuffle : Bool) (r : Nat → Nat) (mutants : List α) : List α :=
  if !noShuffle then fastShuffle r mutants else mutants

end CM
