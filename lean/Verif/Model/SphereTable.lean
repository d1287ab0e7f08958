import Mathlib.Algebra.Order.Field.Basic
import Mathlib.Algebra.BigOperators.Group.List.Basic

/-!
# Model of the statistics of point sets

`parallel_create_statistics` (nevergrad/common/sphere.py 1112-1155) and the table drawn by `heatmap` (1054-1063). Methods and metrics are numbers. The values of the metrics are arguments,
as the point sets are in `Model/Sphere.lean`, and numbers are those of an ordered field. The drawing, the files and the parallel jobs are not modelled.
-/

namespace NG
namespace SphereTable

variable {K : Type*} [Field K] [LinearOrder K]

/-- The global `data`, lists of values by metric and method (sphere.py 1034). -/
abbrev Data (K : Type*) := Nat → Nat → List K

/-- `data[k][method] += [x]` (sphere.py 1141). -/
def Data.push (d : Data K) (e : Nat × Nat × K) : Data K := fun k m => if k = e.1 ∧ m = e.2.1 then d k m ++ [e.2.2] else d k m

/-- The values in the order of the loops (sphere.py 1139-1141): metric, method and value. -/
def entries (methods metrics : List Nat) (res : Nat → Nat → K) : List (Nat × Nat × K) :=
  methods.zipIdx.flatMap fun p => metrics.zipIdx.map fun q => (q.1, p.1, res p.2 q.2)

/-- One round: number of points, lists of methods and metrics, and the values found (sphere.py 1112-1138). The shape is counted with the number of points in `size`. -/
structure Round (K : Type*) where
  size : Nat
  methods : List Nat
  metrics : List Nat
  res : Nat → Nat → K

/-- The data after a round (sphere.py 1139-1141). -/
def Round.record (r : Round K) (d : Data K) : Data K := (entries r.methods r.metrics r.res).foldl Data.push d

/-- The data after some rounds, of one call or of several ones (sphere.py 1112). -/
def run (l : List (Round K)) : Data K := l.foldl (fun d r => r.record d) fun _ _ => []

/-- `np.average` of a list (sphere.py 1147). -/
def average (l : List K) : K := l.sum / l.length

/-- The table of the averages after a round (sphere.py 1147). -/
def table (r : Round K) (d : Data K) (i j : Nat) : K := average (d (r.metrics.getD j 0) (r.methods.getD i 0))

/-- The table shown by `heatmap` for `rows` methods (sphere.py 1061-1063): the share of the rows with a smaller entry in the column. -/
def heat (rows : Nat) (t : Nat → Nat → K) (i j : Nat) : K := ((List.range rows).countP fun a => decide (t a j < t i j) : Nat) / rows

end SphereTable
end NG
