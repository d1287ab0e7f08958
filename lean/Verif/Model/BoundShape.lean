import Mathlib.Data.List.Basic

/-!
# The shapes of bounds

Model of `BoundTransform._check_shape` (`nevergrad/parametrization/transforms.py` 145-148), which every forward and backward transformation with bounds runs
before its operations on arrays.  Both bounds have the same shape (`self.shape` is that of the first one, line 143).
-/

namespace NG.BoundShape

/-- `itertools.zip_longest(x.shape, self.shape, fillvalue=1)` (transforms.py 146). -/
def pairs : List Nat → List Nat → List (Nat × Nat)
  | [], bounds => bounds.map fun b => (1, b)
  | a :: x, bounds => (a, bounds.headD 1) :: pairs x bounds.tail

/-- `_check_shape` (transforms.py 145-148): true if it does not raise. -/
def check (x bounds : List Nat) : Bool := (pairs x bounds).all fun d => !(d.1 != d.2 && !(d.1 == 1 || d.2 == 1))

/-- The size of an axis of the result of an operation of numpy on two arrays (used in transforms.py 172-183): the sizes are equal or one of them is 1. -/
def axis (a b : Nat) : Option Nat := if a = b then some a else if a = 1 then some b else if b = 1 then some a else none

/-- The sizes of the result from the last axis to the first one; a missing axis has size 1. -/
def fromLast : List Nat → List Nat → Option (List Nat)
  | [], m => some m
  | a :: l, [] => some (a :: l)
  | a :: l, b :: m =>
    match axis a b, fromLast l m with
    | some c, some k => some (c :: k)
    | _, _ => none

/-- The shape of the result of an operation of numpy on two arrays (used in transforms.py 172-183), `none` if it raises: axes are matched from the last one. -/
def broadcast (x bounds : List Nat) : Option (List Nat) := (fromLast x.reverse bounds.reverse).map List.reverse

/-- The shape of a transformed array (transforms.py 169-183): `none` for an error, of the check or of numpy. -/
def transformed (x bounds : List Nat) : Option (List Nat) := if check x bounds then broadcast x bounds else none

end NG.BoundShape
