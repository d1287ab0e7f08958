/-
The antireflective coating of `nevergrad/functions/arcoating/core.py`: the reflection of a stack of slabs (lines 16-29) and the objective function (lines 54-84).

Simplifications. Real and complex numbers are exact, and `tan` is the total function of Mathlib, which is 0 where the cosine is 0 (in the code the floating point
angle is never there). An `AssertionError` is `none`. The parametrization and the leaderboard are not modelled.
-/
import Mathlib.Analysis.SpecialFunctions.Trigonometric.Basic
import Mathlib.Analysis.Complex.Trigonometric
import Mathlib.Analysis.Real.Sqrt
import Mathlib.Order.WithBot

namespace NG.Arcoating

/-- One turn of the loop (core.py 26-27): the impedance in front of a slab with refraction index `n`, from the one behind. -/
noncomputable def slab (k0d n : ℝ) (Z : ℂ) : ℂ :=
  let etha : ℂ := ((1 / n : ℝ) : ℂ)
  let t : ℂ := ((Real.tan (k0d * n) : ℝ) : ℂ)
  etha * (Z + Complex.I * etha * t) / (etha + Complex.I * Z * t)

/-- The impedance in front of all slabs (core.py 22-27); the loop goes through the reversed list. -/
noncomputable def impedance (x : List ℝ) (dpix lam epf : ℝ) : ℂ :=
  (x.map Real.sqrt).reverse.foldl (fun Z n => slab (2 * Real.pi * dpix / lam) n Z) ((1 / Real.sqrt epf : ℝ) : ℂ)

/-- `impedance_pix` (core.py 16-29): the reflection in percent. -/
noncomputable def reflection (x : List ℝ) (dpix lam ep0 epf : ℝ) : ℝ :=
  let Z := impedance x dpix lam epf
  ‖(Z - ((1 / Real.sqrt ep0 : ℝ) : ℂ)) / (Z + ((1 / Real.sqrt ep0 : ℝ) : ℂ))‖ ^ 2 * 100

/-- `np.arange(400, 900, 5)` (core.py 56). -/
noncomputable def lambdas : List ℝ := (List.range 100).map fun k => 400 + 5 * (k : ℝ)

/-- `_get_minimum_average_reflexion` (core.py 75-84) with the constants of lines 61-63. -/
noncomputable def objective (nbslab : Nat) (depth : ℝ) (x : List ℝ) : Option (WithTop ℝ) :=
  if x.length ≠ nbslab then none
  else if ∃ e ∈ x, e < 1 ∨ 9 < e then some ⊤
  else some (((lambdas.map fun lam => reflection x (depth / nbslab) lam 1 9 / 100).foldl (· + ·) 0 : ℝ) : WithTop ℝ)

end NG.Arcoating
