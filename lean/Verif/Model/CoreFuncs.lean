import Mathlib.Analysis.SpecialFunctions.Pow.Real
import Mathlib.Analysis.SpecialFunctions.Trigonometric.Arctan
import Mathlib.Analysis.SpecialFunctions.Trigonometric.DerivHyp
import Mathlib.Analysis.Real.Sqrt

/-!
# Model of the core benchmark functions

`functions/corefuncs.py`. Arrays are lists of reals; floating point overflow and rounding are not modelled, `none` stands for an exception, NaN or
infinite value, as said in each definition.
-/

namespace NG
namespace Core

/-- `sphere` (100-106) and `DelayedSphere.__call__` (87-88): `x.dot(x)`. -/
def sphere (x : List ℝ) : ℝ := (x.map (fun v => v ^ 2)).sum

/-- `sphere1`, `sphere2`, `sphere4` (109-124). -/
def shiftedSphere (k : ℝ) (x : List ℝ) : ℝ := sphere (x.map (fun v => v - k))

/-- `DelayedSphere.compute_pseudotime` (90-94). -/
noncomputable def delay (x0 : ℝ) : ℝ := if x0 ≠ 0 then |1 / x0| / 1000 else 0

/-- `cigar` (153-159); `none` is the IndexError of an empty array. -/
def cigar : List ℝ → Option ℝ
  | [] => none
  | a :: r => some (a ^ 2 + 1000000 * sphere r)

/-- `altcigar` (139-144). -/
def altcigar (x : List ℝ) : Option ℝ :=
  match x.getLast? with
  | none => none
  | some a => some (a ^ 2 + 1000000 * sphere x.dropLast)

/-- `discus` (147-150). -/
def discus : List ℝ → Option ℝ
  | [] => none
  | a :: r => some (sphere r + 1000000 * a ^ 2)

/-- One coordinate of `bentcigar` (165-170), at least two coordinates. -/
noncomputable def bent (n : Nat) (i : Nat) (v : ℝ) : ℝ :=
  if 0 < v then v ^ (1 + 0.5 * Real.sqrt v * ((i : ℝ) - 1) / ((n : ℝ) - 1)) else v

/-- `bentcigar` (162-171). -/
noncomputable def bentcigar (x : List ℝ) : Option ℝ := cigar (x.mapIdx (fun i v => bent x.length i v))

/-- The `a`-th centre of `multipeak` (179). -/
noncomputable def peak (n a : Nat) : List ℝ := (List.range n).map (fun i => Real.cos (a + Real.sqrt i))

/-- `multipeak` (174-182). -/
noncomputable def multipeak (x : List ℝ) : ℝ :=
  (List.range 101).foldl
    (fun v a => min v (a / 101 + Real.exp (min 100 (sphere (List.zipWith (fun u w => u - w) x (peak x.length a)))))) 10000

/-- `10 ** np.linspace(0, 6, dim)` (207, 218), by index. -/
noncomputable def weight (n i : Nat) : ℝ := (10 : ℝ) ^ (6 * (i : ℝ) / ((n : ℝ) - 1))

/-- `ellipsoid` (211-219). -/
noncomputable def ellipsoid (x : List ℝ) : ℝ := (x.mapIdx (fun i v => weight x.length i * v ^ 2)).sum

/-- `altellipsoid` (185-190). -/
noncomputable def altellipsoid (x : List ℝ) : ℝ := ellipsoid x.reverse

/-- Python's `int` on a float: truncation towards zero. Used in `step` (corefuncs.py 193-196). -/
noncomputable def trunc (t : ℝ) : ℤ := if 0 ≤ t then ⌊t⌋ else ⌈t⌉

/-- `step` (193-196); `np.nextafter(0.0, 1.0)` is `2 ** -1074`. -/
noncomputable def step (s : ℝ) : ℝ := Real.exp (trunc (Real.log (if s = 0 then (2 : ℝ)⁻¹ ^ 1074 else s)))

/-- `stepellipsoid` (199-208). -/
noncomputable def stepellipsoid (x : List ℝ) : ℝ := step (ellipsoid x)

/-- `rastrigin` (222-226). -/
noncomputable def rastrigin (x : List ℝ) : ℝ := 10 * (x.length - (x.map (fun v => Real.cos (2 * Real.pi * v))).sum) + sphere x

/-- The scaling of `bucherastrigin` (232-237). -/
noncomputable def bucheScale (n i : Nat) (v : ℝ) : ℝ :=
  v * (if 0 < v ∧ i % 2 ≠ 0 then 10 else 1) * (10 : ℝ) ^ (((i : ℝ) - 1) / (2 * ((n : ℝ) - 1)))

/-- `bucherastrigin` (229-239): with one coordinate, `(i - 1) / (2 * (len(x) - 1))` is a ZeroDivisionError. -/
noncomputable def bucherastrigin (x : List ℝ) : Option ℝ :=
  if x.length = 1 then none else some (rastrigin (x.mapIdx (fun i v => bucheScale x.length i v)))

/-- `doublelinearslope` (242-246). -/
noncomputable def doublelinearslope (x : List ℝ) : ℝ := |x.sum|

/-- `hm` (254-257); `none` is NaN, `np.cos(1.0 / 0.0)`. -/
noncomputable def hm (x : List ℝ) : Option ℝ :=
  if (0 : ℝ) ∈ x then none else some (x.map (fun v => v ^ 2 * (1.1 + Real.cos (1 / v)))).sum

/-- `rosenbrock` (260-264). -/
def rosenbrock : List ℝ → ℝ
  | a :: b :: r => 100 * (a ^ 2 - b) ^ 2 + (a - 1) ^ 2 + rosenbrock (b :: r)
  | _ => 0

/-- `ackley` (267-271). -/
noncomputable def ackley (x : List ℝ) : ℝ :=
  -20 * Real.exp (-0.2 * Real.sqrt (sphere x / x.length)) - Real.exp ((x.map (fun v => Real.cos (2 * Real.pi * v))).sum / x.length)
    + 20 + Real.exp 1

/-- `np.cumsum`, from a starting value. Used in `schwefel` (corefuncs.py 274-277). -/
def cumsum : ℝ → List ℝ → List ℝ
  | _, [] => []
  | s, a :: r => (s + a) :: cumsum (s + a) r

/-- `schwefel_1_2` (274-277). -/
def schwefel (x : List ℝ) : ℝ := sphere (cumsum 0 x)

/-- `griewank` (280-285). -/
noncomputable def griewank (x : List ℝ) : ℝ :=
  1 + sphere x / 4000 - (x.mapIdx (fun i v => Real.cos (v / Real.sqrt (1 + i)))).prod

/-- `deceptiveillcond` (288-298) on the first two coordinates; `none` is infinity. -/
noncomputable def deceptiveillcond (a b : ℝ) : Option ℝ :=
  if a ≠ 0 then some (max (max |Real.arctan (b / a)| (Real.sqrt (a ^ 2 + b ^ 2))) (if 0 < a then 1 else 0)) else none

/-- The end of `deceptivepath` (301-314) and `deceptivemultimodal` (317-328): `inv` is `1 / distance`, truncated for the second. -/
noncomputable def deceptive (inv : ℝ → ℝ) (a b : ℝ) : ℝ :=
  if Real.sqrt (a ^ 2 + b ^ 2) = 0 then 0
  else if 0.1 < |Real.cos (inv (Real.sqrt (a ^ 2 + b ^ 2))) - (if b ≠ 0 then Real.arctan (a / b) else Real.pi / 2)| then 1
  else Real.sqrt (a ^ 2 + b ^ 2)

/-- `deceptivepath` (301-314). -/
noncomputable def deceptivepath (a b : ℝ) : ℝ := deceptive (fun d => 1 / d) a b

/-- `deceptivemultimodal` (317-328). -/
noncomputable def deceptivemultimodal (a b : ℝ) : ℝ := deceptive (fun d => trunc (1 / d)) a b

/-- `mu2` of `lunacek` (337-339). -/
noncomputable def mu2 (n : Nat) : ℝ := -Real.sqrt |((2.5 : ℝ) ^ 2 - 1) / (1 - 1 / (2 * Real.sqrt (n + 20) - 8.2))|

/-- `lunacek` (331-347). -/
noncomputable def lunacek (x : List ℝ) : ℝ :=
  min (sphere (x.map (fun v => v - 2.5))) (x.length + sphere (x.map (fun v => v - mu2 x.length)))
    + 10 * (x.map (fun v => 1 - Real.cos (2 * Real.pi * (v - 2.5)))).sum

/-- `genzcornerpeak` (350-358), a non-empty array: `np.tanh` is strictly between -1 and 1, so that the value is not 0. -/
noncomputable def cornerpeak (y : List ℝ) : ℝ := ((1 + (y.map Real.tanh).sum / y.length) ^ (y.length + 1))⁻¹

/-- `genzgaussianpeakintegral` (369-374). -/
noncomputable def gaussianpeak (x : List ℝ) : ℝ := Real.exp (-sphere x / 4)

/-- `slope` (385-387). -/
def slope (x : List ℝ) : ℝ := x.sum

/-- `_styblinksitang` (78-83) without its noise. -/
noncomputable def styblinski (x : List ℝ) : ℝ :=
  39.16599 * x.length + 0.5 * ((x.map (fun v => v ^ 2 * v ^ 2)).sum + (x.map (fun v => 5 * v - 16 * v ^ 2)).sum)

/-! ## Discrete functions -/

/-- `DiscreteFunction.onemax` (60-62); the values are already rounded (`np.round`). -/
def onemax (arity : Nat) (x : List ℤ) : Nat := ((x.mapIdx (fun i v => v - ((i % arity : Nat) : ℤ))).filter (fun d => decide (d ≠ 0))).length

/-- `DiscreteFunction.leadingones` (64-67). -/
def leadingones (arity : Nat) (x : List ℤ) : Nat :=
  match (x.mapIdx (fun i v => v - ((i % arity : Nat) : ℤ))).findIdx? (fun d => decide (d ≠ 0)) with
  | none => 0
  | some k => x.length - k

/-- `DiscreteFunction.jump` (69-75). -/
def jump (arity : Nat) (x : List ℤ) : ℤ :=
  if x.length - onemax arity x = x.length ∨ x.length - onemax arity x ≤ x.length - x.length / 4 then
    (x.length : ℤ) - (x.length / 4 : Nat) - ((x.length - onemax arity x : Nat) : ℤ)
  else ((x.length - onemax arity x : Nat) : ℤ)

end Core
end NG
