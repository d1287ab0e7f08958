import Mathlib.Algebra.Order.Field.Basic
import Mathlib.Algebra.Order.Group.Abs

/-!
# The function with a far optimum

Model of `FarOptimumFunction` (`nevergrad/functions/functionlib.py` 318-362): its losses, its evaluation and its upper bounds.
The parametrization (326-336) is not modelled: a point is the array of two coordinates that the function receives.
-/

namespace NG.FarOptimum

variable {α : Type} [Field α] [LinearOrder α]

/-- `_multifunc` (functionlib.py 341-342). -/
def multi (optimum x : α × α) : α × α := (|x.1 - optimum.1|, |x.2 - optimum.2|)

/-- `_monofunc` (functionlib.py 344-345). -/
def mono (optimum x : α × α) : α := (multi optimum x).1 + (multi optimum x).2

/-- `evaluation_function` (functionlib.py 347-348): the least loss of the recommendations, `none` (an error) without any. -/
def evaluation (optimum : α × α) : List (α × α) → Option α
  | [] => none
  | x :: l =>
    match evaluation optimum l with
    | none => some (mono optimum x)
    | some v => some (min (mono optimum x) v)

/-- The value given to `multiobjective_upper_bounds` (functionlib.py 338). The call of the base class (339) replaces it by `None`, see `Model/IterCases.lean`. -/
def upper (optimum : α × α) : α × α := (2 * optimum.1, 2 * optimum.2)

end NG.FarOptimum
