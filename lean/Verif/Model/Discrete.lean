import Mathlib.Algebra.Order.Field.Basic
import Mathlib.Algebra.Order.Floor.Ring
import Mathlib.Data.List.Basic
import Verif.Model.Transforms

/-!
# Discretization and choices

Sources: nevergrad/parametrization/discretization.py, choice.py 21-157, _datalayers.py 282-310.
-/

namespace NG
namespace Disc

/-- A float: not a number, an infinity, or a number. Used in `W.clean` (discretization.py 35, 95). -/
inductive W (α : Type) where
  | nan
  | neg
  | fin (x : α)
  | pos
  deriving DecidableEq

variable {α : Type}

/-- `weights[np.isnan(weights)] = -np.inf` (discretization.py 35, 95). -/
def W.clean : W α → W α
  | .nan => .neg
  | w => w

section threshold
variable [Field α] [LinearOrder α] [FloorRing α]

/-- The cdf on extended reals. Used in `threshold` (discretization.py 32-39). -/
def cdfW (cdf : α → α) : W α → α
  | .nan => 0
  | .neg => 0
  | .fin x => cdf x
  | .pos => 1

/-- `threshold_discretization` for one entry (discretization.py 32-39); the cast to int truncates a non-negative
number. -/
def threshold (cdf : α → α) (arity : Nat) (x : W α) : Int :=
  let x := x.clean
  if arity = 2 then
    match x with
    | .fin y => if 0 < y then 1 else 0
    | .pos => 1
    | _ => 0
  else ⌊min (max (arity * cdfW cdf x) 0) (arity - 1)⌋

/-- The quantile used by `inverse_threshold_discretization` (discretization.py 46-48): the middle of the bin. -/
def binMiddle (arity k : Nat) : α := k * (1 / arity) + (1 / arity) / 2

/-- The quantile used by `noisy_inverse_threshold_discretization` (discretization.py 60-62) with the draw `u`. -/
def binDraw (arity k : Nat) (u : α) : α := k * (1 / arity) + u * (1 / arity)

end threshold

section encoder
variable [Field α] [LinearOrder α]

/-- Comparison of cleaned weights. Used in `maxW` (discretization.py 101-111). -/
def W.le : W α → W α → Bool
  | .nan, _ => true
  | .neg, _ => true
  | .fin _, .nan => false
  | .fin _, .neg => false
  | .fin x, .fin y => decide (x ≤ y)
  | .fin _, .pos => true
  | .pos, .pos => true
  | .pos, _ => false

/-- `np.max` of a row. Used in `expRow` (discretization.py 101-111). -/
def maxW : List (W α) → W α
  | [] => .neg
  | w :: ws => if W.le (maxW ws) w then w else maxW ws

/-- `np.argmax` of a row: the first index of the maximum. Used in `encode` (discretization.py 118-132). -/
def argmaxW (ws : List (W α)) : Nat := ws.findIdx (fun w => W.le (maxW ws) w)

/-- One row of the exponentials in `Encoder.probabilities` (discretization.py 101-111); `ex` is the exponential, which
does not underflow here. -/
def expRow (ex : α → α) (ws : List (W α)) : List α :=
  let m := maxW ws
  match m with
  | .pos => ws.map (fun w => match w with
    | .pos => 1
    | _ => 0)
  | _ =>
    let m0 := match m with
      | .fin x => x
      | _ => 0
    ws.map (fun w => match w with
      | .fin x => ex (x - m0)
      | _ => 0)

/-- One row of `Encoder.probabilities` (discretization.py 98-116). -/
def probRow (ex : α → α) (ws : List (W α)) : List α :=
  let e := expRow ex ws
  let e := if e.sum = 0 then e.map (fun _ => 1) else e
  e.map (fun x => x / e.sum)

/-- `np.cumsum` (discretization.py 130), entry `k`. -/
def cum (p : List α) (k : Nat) : α := (p.take (k + 1)).sum

/-- `np.argmin(cumprob < rand)` (discretization.py 132): the first index whose cumulated probability is not below the
draw, 0 if there is none. -/
def pick (p : List α) (rand : α) : Nat := ((List.range p.length).find? (fun k => decide (¬ cum p k < rand))).getD 0

/-- `Encoder.encode` on one row (discretization.py 118-132). -/
def encode (ex : α → α) (deterministic : Bool) (ws : List (W α)) (rand : α) : Nat :=
  let ws := ws.map W.clean
  if deterministic then argmaxW ws else pick (probRow ex ws) rand

/-- Row of weights for the index `k` in `SoftmaxSampling._layered_set_value` (_datalayers.py 307-309); `w` is
`weight_for_reset(arity)`. -/
def resetRow (arity : Nat) (w : W α) (k : Nat) : List (W α) :=
  (List.range arity).map (fun i => if i = k then w else .fin 0)

/-- The array under a `SoftmaxSampling` layer, one row of weights per repetition, and the cache of the layer
(_datalayers.py 282-310). -/
structure Softmax (α : Type) where
  rows : List (List (W α))
  cache : Option (List Nat)

/-- `SoftmaxSampling._layered_get_value` (_datalayers.py 292-299); `draws i` is the number drawn for row `i`. -/
def Softmax.read (ex : α → α) (deterministic : Bool) (draws : Nat → α) (s : Softmax α) : List Nat × Softmax α :=
  match s.cache with
  | some ks => (ks, s)
  | none =>
    let ks := s.rows.mapIdx (fun i row => encode ex deterministic row (draws i))
    (ks, { rows := s.rows, cache := some ks })

/-- `SoftmaxSampling._layered_set_value` (_datalayers.py 301-310). -/
def Softmax.set (arity : Nat) (w : W α) (ks : List Nat) : Softmax α :=
  { rows := ks.map (resetRow arity w), cache := some ks }

/-- `_layered_del_value` (_layering.py 287-288), called for copies, children and new standardized data. -/
def Softmax.clear (s : Softmax α) : Softmax α := { rows := s.rows, cache := none }

end encoder

section choice
variable {O V : Type}

/-- Trying the options in turn (choice.py 80-86). `trySet o v` is `choice.value = val`: the option afterwards and
whether it accepted. The options tried without success may have been altered. -/
def tryOptions (trySet : O → V → O × Bool) (v : V) : List O → Nat → List O × Option Nat
  | [], _ => ([], none)
  | o :: os, k =>
    let r := trySet o v
    if r.2 then (r.1 :: os, some k)
    else
      let rs := tryOptions trySet v os (k + 1)
      (r.1 :: rs.1, rs.2)

/-- The loop over the values (choice.py 79-88), one per repetition; `none` when a value finds no option (line 88). -/
def setAll (trySet : O → V → O × Bool) : List V → List O → List O × Option (List Nat)
  | [], os => (os, some [])
  | v :: vs, os =>
    let r := tryOptions trySet v os 0
    match r.2 with
    | none => (r.1, none)
    | some k =>
      let rs := setAll trySet vs r.1
      (rs.1, rs.2.map (fun ks => k :: ks))

/-- Reading the value (choice.py 66-69) for given indices. -/
def readAll (get : O → V) (os : List O) (ks : List Nat) : Option (List V) := ks.mapM (fun k => os[k]?.map get)

/-- A `Choice`: its options and the array of its indices (choice.py 135-150). -/
structure Choice (O α : Type) where
  options : List O
  indices : Softmax α

section
variable [Field α] [LinearOrder α]

/-- `choice.value = values` (choice.py 71-89), with one value per repetition. The flag is false when the exception is
raised; the indices are then unchanged. -/
def Choice.set (trySet : O → V → O × Bool) (w : W α) (c : Choice O α) (vs : List V) : Choice O α × Bool :=
  let r := setAll trySet vs c.options
  match r.2 with
  | none => ({ options := r.1, indices := c.indices }, false)
  | some ks => ({ options := r.1, indices := Softmax.set c.options.length w ks }, true)

/-- `choice.value` (choice.py 66-69); `none` stands for an index out of range. -/
def Choice.read (get : O → V) (ex : α → α) (deterministic : Bool) (draws : Nat → α) (c : Choice O α) : Option (List V) :=
  readAll get c.options (c.indices.read ex deterministic draws).1
end

/-- New index in `TransitionChoice.mutate` (choice.py 241): `np.clip(index + sign * move, 0, n - 1)`. -/
def moveIndex (n : Nat) (i : Int) (sign : Int) (move : Int) : Int := min (max (i + sign * move) 0) (n - 1)

end choice

section transition

/-- The index of a `TransitionChoice` with `n` options, from the number `x` held by its array (choice.py 195-200): the
gaussian bounds `(0, n)`, then minus one half, then integer casting with the bounds `(-1/2, n - 1/2)`. -/
noncomputable def transGet (cdf : ℝ → ℝ) (n : Nat) (scale x : ℝ) : Int :=
  Tr.intGet none (some (-(1 / 2))) (some ((n : ℝ) - 1 / 2)) (Tr.cdfForward cdf 0 n scale (fun _ : Unit => x) () - 1 / 2)

/-- Setting that index to `k` (choice.py 89, _datalayers.py 219-223 and 278-279, transforms.py 299-305): the number stored. -/
noncomputable def transSet (ppf : ℝ → ℝ) (n : Nat) (eps scale : ℝ) (k : Int) : Tr.Res (Unit → ℝ) :=
  Tr.cdfBackward ppf 0 n eps scale (fun _ : Unit => (k : ℝ) + 1 / 2)

/-- `weight_for_reset` (discretization.py 65-69). With a single option the logarithm is that of zero, which numpy
evaluates to minus infinity. -/
noncomputable def weightForReset (arity : Nat) : W ℝ :=
  let p : ℝ := (1 / arity) * (3 / 2)
  if p * (arity - 1) / (1 - p) = 0 then .neg else .fin (Real.log (p * (arity - 1) / (1 - p)))

/-- Subtraction of floats, as in `_internal_get_standardized_data` (data.py 308-309). -/
def W.sub [Sub α] : W α → W α → W α
  | .fin x, .fin y => .fin (x - y)
  | .fin _, .neg => .pos
  | .fin _, .pos => .neg
  | .pos, .fin _ => .pos
  | .pos, .neg => .pos
  | .neg, .fin _ => .neg
  | .neg, .pos => .neg
  | _, _ => .nan

end transition
end Disc
end NG
