/-
The machine learning and data analysis problems of `nevergrad/functions/mlda/problems.py`: clustering (21-77), perceptron (80-140), Sammon mapping (143-208) and
landscape (211-252), with the data of `datasets.py` (91-105) for the perceptron.

Simplifications. Numbers are exact reals. An array of points is a list of points, a point a function of its coordinates. A loss that is `nan` or an exception is `none`;
an infinite one is `⊤`. Not modelled: the downloads and files of the data sets, and the parametrizations (except for the initial points in the statements).
-/
import Mathlib.Analysis.Real.Sqrt
import Mathlib.Analysis.SpecialFunctions.Trigonometric.Basic
import Mathlib.Algebra.Order.Floor.Ring
import Mathlib.Data.Real.Archimedean

namespace NG.Mlda

/-! ### Clustering (problems.py 21-77) -/

section
variable {ι : Type} [Fintype ι]

/-- The squared distance (problems.py 26). -/
def sqDist (x c : ι → ℝ) : ℝ := ∑ i, (x i - c i) ^ 2

/-- `np.min(distances, axis=1)` for one point (problems.py 27); an error without centers. -/
noncomputable def affect (centers : List (ι → ℝ)) (x : ι → ℝ) : Option ℝ :=
  match centers with
  | [] => none
  | c :: l => some ((l.map (sqDist x)).foldl min (sqDist x c))

/-- `_kmeans_distance` (problems.py 21-28). -/
noncomputable def kmeans (points centers : List (ι → ℝ)) : Option ℝ := (points.mapM (affect centers)).map List.sum

/-- `np.mean(points, axis=0)` (problems.py 46). -/
noncomputable def mean (points : List (ι → ℝ)) (i : ι) : ℝ := (points.map (· i)).sum / points.length

/-- `np.std(points, axis=0)` (problems.py 47). -/
noncomputable def std (points : List (ι → ℝ)) (i : ι) : ℝ := Real.sqrt ((points.map fun x => (x i - mean points i) ^ 2).sum / points.length)

open Classical in
/-- The rescaling of `Clustering.__init__` (problems.py 44-47): the mean is subtracted, then the points are divided by the standard deviation of what is left; `none` if
one of them is zero (`nan`). -/
noncomputable def rescale (points : List (ι → ℝ)) : Option (List (ι → ℝ)) :=
  let centered := points.map fun x i => x i - mean points i
  if ∀ i, std centered i ≠ 0 then some (centered.map fun x i => x i / std centered i) else none

/-- `Clustering` (problems.py 42-48, 73-77). -/
noncomputable def clustering (points : List (ι → ℝ)) (resc : Bool) (centers : List (ι → ℝ)) : Option ℝ :=
  if resc then (rescale points).bind fun p => kmeans p centers else kmeans points centers

end

/-! ### Perceptron (problems.py 80-140) -/

/-- The parameters of the perceptron (problems.py 131-133): three weights, three biases, three output weights, and the output bias. -/
structure Weights where
  weight : Fin 3 → ℝ
  bias : Fin 3 → ℝ
  out : Fin 3 → ℝ
  last : ℝ

/-- `apply` (problems.py 115-134) for one input. -/
noncomputable def Weights.apply (p : Weights) (x : ℝ) : ℝ := (∑ j, Real.tanh (x * p.weight j + p.bias j) * p.out j) + p.last

/-- `_compute_loss` (problems.py 136-139) for inputs with their outputs. -/
noncomputable def Weights.loss (p : Weights) (data : List (ℝ × ℝ)) : ℝ := (data.map fun e => (p.apply e.1 - e.2) ^ 2).sum / data.length

/-- The inputs of `make_perceptron_data` (datasets.py 102-103): `np.arange(-1, 1, 0.0408)`. -/
noncomputable def inputs : List ℝ := (List.range 50).map fun (k : Nat) => -1 + (k : ℝ) * 0.0408

/-! ### Sammon mapping (problems.py 143-208) -/

/-- `scipy.spatial.distance_matrix(x, x)` (problems.py 187, 206) in two dimensions. -/
noncomputable def dist (p q : ℝ × ℝ) : ℝ := Real.sqrt ((p.1 - q.1) ^ 2 + (p.2 - q.2) ^ 2)

open Classical in
/-- `_proximity_2` (problems.py 147-151). -/
noncomputable def weight (proximity : ℝ) : ℝ := if proximity ^ 2 = 0 then 1 else proximity ^ 2

/-- `_compute_distance` (problems.py 204-208). -/
noncomputable def sammon {n : Nat} (proximity : Fin n → Fin n → ℝ) (x : Fin n → ℝ × ℝ) : ℝ :=
  ∑ i, ∑ j, (dist (x i) (x j) - proximity i j) ^ 2 / weight (proximity i j)

/-- The points of `from_2d_circle` (problems.py 195-198): `np.linspace(0, 2 * np.pi, num_points)` contains both ends. -/
noncomputable def circle (n : Nat) (k : Fin n) : ℝ × ℝ :=
  let angle := 2 * Real.pi * (k : ℕ) / ((n : ℝ) - 1)
  (Real.cos angle, Real.sin angle)

/-! ### Landscape (problems.py 211-252) -/

/-- `np.round` (problems.py 249): to the nearest integer, and to the even one at equal distance. -/
noncomputable def roundEven (x : ℝ) : ℤ :=
  if x - ⌊x⌋ < 1 / 2 then ⌊x⌋ else if 1 / 2 < x - ⌊x⌋ then ⌊x⌋ + 1 else if ⌊x⌋ % 2 = 0 then ⌊x⌋ else ⌊x⌋ + 1

/-- `self._image.max()` (problems.py 246). -/
noncomputable def top (h w : Nat) (image : Nat → Nat → ℝ) : ℝ :=
  ((List.range h).flatMap fun i => (List.range w).map (image i)).foldl max (image 0 0)

/-- `_get_pixel_value` (problems.py 248-252) for an image with `h` rows and `w` columns. -/
noncomputable def pixel (h w : Nat) (image : Nat → Nat → ℝ) (x y : ℝ) : WithTop ℝ :=
  if roundEven x < 0 ∨ roundEven y < 0 ∨ (h : ℤ) ≤ roundEven x ∨ (w : ℤ) ≤ roundEven y then ⊤
  else ((top h w image - image (roundEven x).toNat (roundEven y).toNat : ℝ) : WithTop ℝ)

/-- The initial point of the transform `square` (problems.py 237-239): the centre of the image. -/
noncomputable def squareInit (size : Nat) : ℝ := ((size : ℝ) - 1) / 2

end NG.Mlda
