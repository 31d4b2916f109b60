import Verif.Model.Span
/-! Sorting, as `slice::sort` and `itertools::sorted*` do it: stable, by a comparison. Insertion sort is
used for its simple definition; only the result matters. -/
namespace CM

/-- Insert before the first element that is strictly larger. -/
def insertBy {α} (le : α → α → Bool) (x : α) : List α → List α
  | [] => [x]
  | y :: ys => if le x y then x :: y :: ys else y :: insertBy le x ys

/-- A stable sort. -/
def sortBy {α} (le : α → α → Bool) : List α → List α
  | [] => []
  | x :: xs => insertBy le x (sortBy le xs)

/-- Lexicographic comparison of lists, as for Rust slices and texts (`str` compares its bytes, which for
UTF-8 is the order of the characters). -/
def lexLe {α} [DecidableEq α] (lt : α → α → Bool) : List α → List α → Bool
  | [], _ => true
  | _ :: _, [] => false
  | x :: xs, y :: ys => if x = y then lexLe lt xs ys else lt x y

/-- `a <= b` for texts. -/
def textLe (a b : Text) : Bool := lexLe (fun x y => decide (x.toNat < y.toNat)) a b

/-- `a <= b` for paths. Only the order of names of ordinary components is modelled; `std` puts the root
and `..` before all others. -/
def pathLe (a b : List Text) : Bool := lexLe (fun x y => textLe x y) a b

/-- `Vec::dedup`: drop elements equal to the one before. -/
def dedup {α} [DecidableEq α] : List α → List α
  | [] => []
  | [x] => [x]
  | x :: y :: rest => if x = y then dedup (y :: rest) else x :: dedup (y :: rest)

/-- `itertools::unique`: keep the first of equal elements. -/
def uniqueFrom {α} [DecidableEq α] (seen : List α) : List α → List α
  | [] => []
  | x :: xs => if x ∈ seen then uniqueFrom seen xs else x :: uniqueFrom (x :: seen) xs

def unique {α} [DecidableEq α] (l : List α) : List α := uniqueFrom [] l

end CM
