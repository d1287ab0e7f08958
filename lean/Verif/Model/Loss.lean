import Mathlib.Algebra.Order.Field.Basic

/-!
# Model of the loss checks at the beginning of `Optimizer.tell`

Source: nevergrad/optimization/base.py 176-185 (`num_objectives`), 334-370 (`tell`).

Floats are elements of an ordered field extended with NaN and the two infinities; comparisons follow IEEE
rules (every comparison with NaN is false). Rounding is not modelled.
-/

namespace NG

/-- Extended float. Used in `clip` (base.py 342-347). -/
inductive Flt (α : Type) where
  | nan
  | negInf
  | fin (x : α)
  | posInf
deriving DecidableEq, Repr

namespace Flt
variable {α : Type}

/-- IEEE `<`. Used in `clip` (base.py 342-347). -/
def lt [LT α] [DecidableLT α] : Flt α → Flt α → Bool
  | .nan, _ => false
  | _, .nan => false
  | .fin x, .fin y => decide (x < y)
  | .negInf, .negInf => false
  | .negInf, _ => true
  | _, .negInf => false
  | .posInf, _ => false
  | .fin _, .posInf => true

end Flt

/-- Element of a loss list: a float or a Python `int` (which is not a `float` instance). Used in `parse` (base.py 337-353). -/
inductive LossElem (α : Type) where
  | flt (x : Flt α)
  | int (n : Int)
deriving Repr

/-- Argument `loss` of `tell`: a real number (already converted by `float(loss)`), a list/tuple/1-d array, or
anything else. Used in `parse` (base.py 337-353). -/
inductive LossArg (α : Type) where
  | scalar (x : Flt α)
  | seq (xs : List (LossElem α))
  | other

/-- Result of the checks: a scalar loss or a vector of losses. Used in `parse` (base.py 337-353). -/
inductive Loss (α : Type) where
  | scalar (x : Flt α)
  | vector (xs : List (Flt α))
deriving DecidableEq

/-- Exceptions raised by the checks. Used in `parse` (base.py 337-353). -/
inductive LossErr where
  /-- unsupported type (base.py 350-353) -/
  | typeError
  /-- `loss.size` on a Python int (base.py 368) -/
  | attributeError
  /-- zero objectives or a number of objectives different from the first one (base.py 179-185) -/
  | valueError
deriving DecidableEq

namespace Loss
variable {α : Type} [Field α] [LinearOrder α]

/-- The constant `5.0e20` (base.py 342, 347). -/
def cap : α := 5 * 10 ^ 20

/-- Clipping of scalar losses (base.py 342-347). -/
def clip (x : Flt α) : Flt α := if !(Flt.lt x (.fin cap)) then .fin cap else x

/-- `np.asarray(loss, dtype=float)` on one element. Used in `parse` (base.py 337-353). -/
def LossElem.toFlt : LossElem α → Flt α
  | .flt x => x
  | .int n => .fin (n : α)

/-- Scalars are clipped, sequences of length one are unwrapped without clipping, others become vectors
(base.py 337-353). The intermediate value may be a Python `int` (`none`). -/
def parse : LossArg α → Except LossErr (Option (Loss α))
  | .scalar x => .ok (some (.scalar (clip x)))
  | .seq [.flt x] => .ok (some (.scalar x))
  | .seq [.int _] => .ok none
  | .seq xs => .ok (some (.vector (xs.map LossElem.toFlt)))
  | .other => .error .typeError

/-- Number of objectives of a parsed loss (base.py 368). -/
def size : Loss α → Nat
  | .scalar _ => 1
  | .vector xs => xs.length

/-- State: `_num_objectives` (0 means not set), `num_tell` and `optim_curve` (most recent first). Used in `curveUpdate` (base.py 354-357). -/
structure St (α : Type) where
  numObjectives : Nat
  numTell : Nat
  curve : List (Nat × Flt α)

/-- Initial state. Built on `St` (base.py 354-357). -/
def St.init : St α := ⟨0, 0, []⟩

/-- Update of `optim_curve` (base.py 354-357). `num_tell > last * 1.1` is `10 * num_tell > 11 * last`. -/
def curveUpdate (s : St α) : Loss α → List (Nat × Flt α)
  | .scalar x =>
    match s.curve with
    | [] => [(s.numTell, x)]
    | (n, y) :: rest => if 10 * s.numTell > 11 * n then (s.numTell, x) :: (n, y) :: rest else s.curve
  | .vector _ => s.curve

/-- The checks of `tell` followed by a successful end of `tell` (base.py 337-368, 431): the parsed loss, or
an exception with the state it leaves. -/
def tell (s : St α) (arg : LossArg α) : Except LossErr (Loss α) × St α :=
  match parse arg with
  | .error e => (.error e, s)
  | .ok none => (.error .attributeError, s)
  | .ok (some l) =>
    let s := { s with curve := curveUpdate s l }
    let num := l.size
    if num = 0 then (.error .valueError, s)
    else if s.numObjectives = 0 then (.ok l, { s with numObjectives := num, numTell := s.numTell + 1 })
    else if num ≠ s.numObjectives then (.error .valueError, s)
    else (.ok l, { s with numTell := s.numTell + 1 })

/-- A history of tells; results are listed most recent first. Built on `tell` (base.py 337-368, 431). -/
def tells (args : List (LossArg α)) : St α × List (Except LossErr (Loss α)) :=
  args.foldl (fun r a => let q := tell r.1 a; (q.2, q.1 :: r.2)) (St.init, [])

end Loss
end NG
