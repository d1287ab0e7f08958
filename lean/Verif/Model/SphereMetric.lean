/-
The metrics and the descents of `nevergrad/common/sphere.py`: `metric_cap` (717-727), `metric_pack_absavg` (734-743), `metric_pack_avg` (780-789), and the steps of
`Riesz_blurred_gradient` (261-282), `Riesz_blursum_gradient` (285-305) and `Riesz_noblur_gradient` (308-327). `metric_half` and the points are those of
`Verif/Model/Sphere.lean`.

Simplifications. Numbers are exact. The blur `convo` (58-61), and `convo_mult` (64-67), which blurs each point, are an argument. The normals of the planes, drawn
until the time is over, are an argument. The descents are given by one step, which their loops repeat until the time is over.
-/
import Verif.Model.Sphere
import Mathlib.Algebra.BigOperators.Fin
import Mathlib.Analysis.SpecialFunctions.Pow.Real

namespace NG.SphereMetric

open NG.Sphere

variable {n : Nat}

/-- An entry of `np.matmul(xconv, xconv.transpose())` (737, 783), or of `np.matmul(xconv, y)` (725-726). -/
noncomputable def inner (shape : List Nat) (x y : Pt) : ℝ := ((indices shape).map fun e => x e * y e).sum

/-- `xconv` (721, 736, 782): the blurred points, normalized. -/
noncomputable def blurred (shape : List Nat) (blur : Pt → Pt) (again : Fin n → Pt) (x : Fin n → Pt) : Fin n → Pt :=
  fun k => unit shape (again k) (blur (x k))

/-- `scores` (737-740, 783-786): the products of the points, with zeros on the diagonal. -/
noncomputable def score (shape : List Nat) (u : Fin n → Pt) (i j : Fin n) : ℝ := if i = j then 0 else inner shape (u i) (u j)

/-- The assertion on the diagonal (739, 785). -/
def onSphere (shape : List Nat) (u : Fin n → Pt) : Prop := ∀ i, 0.99 < inner shape (u i) (u i) ∧ inner shape (u i) (u i) < 1.01

open Classical in
/-- `metric_pack_avg` (780-789): `none` is the failed assertion, or the error of `x[0]` without points. -/
noncomputable def packAvg (shape : List Nat) (blur : Pt → Pt) (again : Fin n → Pt) (x : Fin n → Pt) : Option ℝ :=
  let u := blurred shape blur again x
  if 0 < n ∧ onSphere shape u then some ((∑ i, ∑ j, score shape u i j) / (n ^ 2 : ℕ)) else none

open Classical in
/-- `metric_pack_absavg` (734-743). -/
noncomputable def packAbs (shape : List Nat) (blur : Pt → Pt) (again : Fin n → Pt) (x : Fin n → Pt) : Option ℝ :=
  let u := blurred shape blur again x
  if 0 < n ∧ onSphere shape u then some ((∑ i, ∑ j, |score shape u i j|) / (n ^ 2 : ℕ)) else none

open Classical in
/-- `np.average(... > c)` (725-726): the share of the points with a property. -/
noncomputable def share (u : Fin n → Pt) (q : Pt → Prop) : ℝ := ((Finset.univ.filter fun k => q (u k)).card : ℝ) / n

/-- `scores` of `metric_cap` (720-726) for the normals `ys`: the shares of the points in the caps around a normal and around its opposite. -/
noncomputable def capScores (shape : List Nat) (u : Fin n → Pt) (ys : List Pt) : List ℝ :=
  let c := 1 / Real.sqrt (indices shape).length
  ys.flatMap fun y => [share u fun p => inner shape p y > c, share u fun p => inner shape p y < -c]

/-- `np.std` (727). -/
noncomputable def std (l : List ℝ) : ℝ := Real.sqrt ((l.map fun a => (a - l.sum / l.length) ^ 2).sum / l.length)

/-- `metric_cap` (717-727). -/
noncomputable def metricCap (shape : List Nat) (blur : Pt → Pt) (again : Fin n → Pt) (x : Fin n → Pt) (ys : List Pt) : ℝ :=
  std (capScores shape (blurred shape blur again x) ys)

/-- The factor `1 / (np.sqrt(np.sum(T**2.0))) ** (order + 2)` (275, 297, 320) of the difference of two points. -/
noncomputable def weight (shape : List Nat) (order : ℝ) (x y : Pt) : ℝ := 1 / norm shape (fun e => x e - y e) ^ (order + 2)

open Classical in
/-- `Temp[i]` (271-275, 317-320) and `Blurred[i]` (293-298): the sum over the other points. `none` is the `nan` of `0 / 0`, at two points that coincide. -/
noncomputable def force (shape : List Nat) (order : ℝ) (x : Fin n → Pt) (i : Fin n) : Option Pt :=
  if ∃ j, j ≠ i ∧ norm shape (fun e => x i e - x j e) = 0 then none
  else some fun e => ∑ j, if j = i then 0 else (x i e - x j e) * weight shape order (x i) (x j)

/-- `np.add(x, Temp)` and `normalize` (277-278, 300-301, 322-323): a `nan` is not larger than zero, so that `normalize` draws the point again. -/
noncomputable def move (shape : List Nat) (again x : Pt) : Option Pt → Pt
  | none => fun e => again e / norm shape again
  | some f => unit shape again fun e => x e + f e

/-- A step of `Riesz_blurred_gradient` (267-278): the differences of the blurred points, multiplied by the step size. -/
noncomputable def blurredStep (shape : List Nat) (blur : Pt → Pt) (order stepSize : ℝ) (again x : Fin n → Pt) : Fin n → Pt :=
  fun i => move shape (again i) (x i) ((force shape order (fun k => blur (x k)) i).map fun f e => stepSize * f e)

/-- A step of `Riesz_blursum_gradient` (291-301): the sum is blurred; the step size is not read. -/
noncomputable def blursumStep (shape : List Nat) (blur : Pt → Pt) (order _stepSize : ℝ) (again x : Fin n → Pt) : Fin n → Pt :=
  fun i => move shape (again i) (x i) ((force shape order x i).map blur)

/-- A step of `Riesz_noblur_gradient` (314-323): no blur, and the step size is not read. -/
noncomputable def noblurStep (shape : List Nat) (_blur : Pt → Pt) (order _stepSize : ℝ) (again x : Fin n → Pt) : Fin n → Pt :=
  fun i => move shape (again i) (x i) (force shape order x i)

end NG.SphereMetric
