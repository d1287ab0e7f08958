/-
The problems of photonics with simulated fields, `gambas_function` (nevergrad/functions/photonics/gambas.py 14-122).

Simplifications. Numbers are exact (rationals). The simulators are functions of the design, without errors. The gradient of `autograd` is a function of the
design. An array is its shape and its entries. What is printed is left out.
-/
import Mathlib.Algebra.Order.Floor.Ring
import Mathlib.Data.Rat.Floor

namespace NG.Ceviche

/-- The argument `x` (gambas.py 14-18, 71-73): nothing, a text (`name` or another one), or an array. -/
inductive X where
  | nothing
  | name
  | text
  | array (shape : List Nat) (entries : List ℚ)
deriving DecidableEq, Repr

/-- Errors of Python (gambas.py 68, 72, 76, 107). -/
inductive Err where
  | type | key | attribute | unbound | assertion
deriving DecidableEq, Repr

/-- What is returned (gambas.py 57, 72, 74, 112, 118, 122). -/
inductive Out (L G F : Type) where
  | undefined
  | title (benchmark : Nat)
  | shape (s : List Nat)
  | loss (l : L)
  | lossGrad (l : L) (g : G)
  | lossFields (l : L) (f : F)
  | error (e : Err)
deriving DecidableEq, Repr

/-- `design_variable_shape` (gambas.py 42-57): unbound for the other benchmarks. -/
def designShape (benchmark : Nat) : Option (List Nat) :=
  if benchmark = 2 then some [30, 30] else if benchmark = 0 then some [45, 45] else none

/-- `np.round` of a number (gambas.py 68): halves go to the even neighbour. -/
def npRound (q : ℚ) : ℤ :=
  if q - ⌊q⌋ < 1 / 2 then ⌊q⌋ else if 1 / 2 < q - ⌊q⌋ then ⌊q⌋ + 1 else if ⌊q⌋ % 2 = 0 then ⌊q⌋ else ⌊q⌋ + 1

/-- `x = np.round(x)` (gambas.py 66-68): `none` is the TypeError for what is not an array. -/
def discretized (d : Bool) (x : X) : Option X :=
  if d then
    match x with
    | .array s l => some (.array s (l.map fun q => (npRound q : ℚ)))
    | _ => none
  else some x

/-- One call (gambas.py 14-122). `first` is the global `first_time_ceviche`; the result, the designs that are simulated, in order, and the global afterwards. -/
def call {L G F : Type} (sim : Nat → List ℚ → L × F) (grad : Nat → List ℚ → G) (first : Bool) (x : X) (benchmark : Nat)
    (discretize wantgrad wantfields : Bool) : Out L G F × List (List ℚ) × Bool :=
  if (first = true ∨ x = .nothing) ∧ designShape benchmark = none then (.undefined, [], first)
  else
    match discretized discretize x with
    | none => (.error .type, [], first)
    | some .name => (if benchmark < 4 then .title benchmark else .error .key, [], first)
    | some .nothing => (match designShape benchmark with | some s => .shape s | none => .error .unbound, [], first)
    | some .text => (.error .attribute, [], first)
    | some (.array s l) =>
      match designShape benchmark with
      | none => (.error .unbound, [], first)
      | some s' =>
        if s ≠ s' then (.error .assertion, [], first)
        else if wantgrad && wantfields then (.error .assertion, [l], false)
        else if wantgrad then (.lossGrad (sim benchmark l).1 (grad benchmark l), [l], false)
        else if wantfields then (.lossFields (sim benchmark l).1 (sim benchmark l).2, [l, l], false)
        else (.loss (sim benchmark l).1, [l], false)

/-- The arguments of a call. Used in `run` (gambas.py 14-16). -/
structure Args where
  x : X
  benchmark : Nat
  discretize : Bool
  wantgrad : Bool
  wantfields : Bool

/-- The global after a sequence of calls (gambas.py 11, 29, 106). -/
def run {L G F : Type} (sim : Nat → List ℚ → L × F) (grad : Nat → List ℚ → G) (calls : List Args) : Bool :=
  calls.foldl (fun first a => (call sim grad first a.x a.benchmark a.discretize a.wantgrad a.wantfields).2.2) true

end NG.Ceviche
