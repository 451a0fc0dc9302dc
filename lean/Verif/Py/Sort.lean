/-
Python's `sorted` (stable), as insertion sort over the `<` of the elements.
-/
namespace Opy

variable {α : Type}

/-- Insert an element in front of everything that is not smaller. -/
def insertSorted (lt : α → α → Bool) (x : α) : List α → List α
  | [] => [x]
  | y :: ys => if lt y x then y :: insertSorted lt x ys else x :: y :: ys

/-- `sorted(l)` (built-in, stable; compares with `<`): elements are inserted from the last to the
first, so that equal elements keep their order. -/
def pySorted (lt : α → α → Bool) : List α → List α
  | [] => []
  | x :: xs => insertSorted lt x (pySorted lt xs)

end Opy
