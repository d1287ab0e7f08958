/-
The toy topology optimization of `nevergrad/functions/topology_optimization/core.py`, lines 18-59.

Simplifications. Real numbers instead of floats; the Gaussian filter of `scipy` is an argument, and the theorems say what they need of it.
-/
import Mathlib.Analysis.SpecialFunctions.Trigonometric.Basic
import Mathlib.Analysis.Real.Sqrt
import Mathlib.Algebra.BigOperators.Fin

namespace NG.Topology

/-- The truth values of the two patterns before the transposition (core.py 30-51). -/
noncomputable def pattern (n idx i j : Nat) : Prop :=
  let xa := idx % 3
  let xb := 2 - xa
  if (idx / 12) % 2 > 0 then Real.cos ((idx : ℝ) * 0.01 + xa * i + xb * j) < 0 else (idx : ℝ) * 0.01 + xa * i + xb * j > 1.6 * n

open Classical in
/-- The target `xs` (core.py 34-55). -/
noncomputable def target (n idx i j : Nat) : ℝ :=
  let xs : Nat → Nat → ℝ := fun i j => 1.5 * ((if pattern n idx i j then 1 else 0) - 0.5)
  let xs : Nat → Nat → ℝ := if (idx / 3) % 2 > 0 then fun i j => xs j i else xs
  if (idx / 6) % 2 > 0 then -xs i j else xs i j

open Classical in
/-- `_simulate_to` (core.py 26-59); `filter` is `gaussian_filter(·, sigma=3)`. -/
noncomputable def objective (n idx : Nat) (filter : (Fin n → Fin n → ℝ) → Fin n → Fin n → ℝ) (x : Fin n → Fin n → ℝ) : ℝ :=
  5 * (((Finset.univ.filter fun p : Fin n × Fin n => |x p.1 p.2 - target n idx p.1 p.2| > 0.3).card : ℕ) : ℝ) / ((n * n : ℕ) : ℝ) +
    3 * Real.sqrt (∑ p : Fin n × Fin n, (x p.1 p.2 - filter x p.1 p.2) ^ 2) / (n : ℝ)

end NG.Topology
