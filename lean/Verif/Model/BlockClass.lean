import Mathlib.Data.List.Sort
import Mathlib.Algebra.Order.Ring.Defs
import Mathlib.Algebra.Field.Defs

/-!
# The classes of jittered sampling

Model of `get_class` (`nevergrad/common/sphere.py` 569-590), which gives the stratum of a point of `jittered` (593-622).
An array is a function of the list of its indices.  The result is the list itself: `hash(str(result))` only names it.
Ties are sorted by index; `np.argsort` leaves their order open.
-/

namespace NG.BlockClass

variable {α : Type} [Field α] [LinearOrder α]

/-- The indices of a box, the last one varying first: `itertools.product` and the flattening of an array
(sphere.py 574, 585).  Every axis has a first index and an end. -/
def box : List (Nat × Nat) → List (List Nat)
  | [] => [[]]
  | (a, b) :: l => (List.range' a (b - a)).flatMap fun i => (box l).map (i :: ·)

/-- The start of a block (sphere.py 580). -/
def start (s n p : Nat) : Nat := p * s / n

/-- The end of a block (sphere.py 581). -/
def stop (s n p : Nat) : Nat := min ((p + 1) * s / n) s

/-- The number of blocks of every axis (sphere.py 572). -/
def padded (shape blocks : List Nat) : List Nat := blocks ++ List.replicate (shape.length - blocks.length) 1

/-- `slices` (sphere.py 576-583). -/
def slices : List Nat → List Nat → List Nat → List (Nat × Nat)
  | s :: shape, n :: blocks, p :: index => (start s n p, stop s n p) :: slices shape blocks index
  | _, _, _ => []

/-- `np.sum(x[slices], tuple(range(split_volume))).flatten()` (sphere.py 586, 589). -/
def blockSums (x : List Nat → α) (split : Nat) (sl : List (Nat × Nat)) : List α :=
  (box (sl.drop split)).map fun j => ((box (sl.take split)).map fun i => x (i ++ j)).sum

/-- `np.argsort` (sphere.py 586, 589). -/
def argsort (l : List α) : List Nat :=
  (List.range l.length).insertionSort fun i j => l.getD i 0 ≤ l.getD j 0

/-- What one block adds to the result (sphere.py 584-589); `none` is the error of the last index of an empty list. -/
def part (justMax : Bool) (l : List α) : Option (List Nat) :=
  if justMax then (argsort l).getLast?.map fun k => [k] else some (argsort l)

/-- The parts of all the blocks in order, an error if one of them is. -/
def gather (justMax : Bool) : List (List α) → Option (List Nat)
  | [] => some []
  | l :: ls =>
    match part justMax l, gather justMax ls with
    | some a, some b => some (a ++ b)
    | _, _ => none

/-- The indices of the blocks (sphere.py 573-575). -/
def blockIndices (shape blocks : List Nat) : List (List Nat) := box ((padded shape blocks).map fun n => (0, n))

/-- `get_class` (sphere.py 569-590), for at most as many numbers of blocks as axes. -/
def getClass (x : List Nat → α) (shape blocks : List Nat) (justMax : Bool) : Option (List Nat) :=
  gather justMax ((blockIndices shape blocks).map fun p =>
    blockSums x blocks.length (slices shape (padded shape blocks) p))

end NG.BlockClass
