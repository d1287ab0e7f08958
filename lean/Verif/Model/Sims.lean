import Mathlib.Algebra.Order.Field.Basic
import Mathlib.Algebra.BigOperators.Group.Finset.Basic
import Mathlib.Data.List.Sort
import Mathlib.Analysis.Real.Sqrt
import Mathlib.Algebra.Order.Group.Abs

/-!
# Model of small simulators

Fishing (functions/fishing/core.py), unit commitment (functions/unitcommitment/core.py) and travelling salesman (functions/stsp/core.py). Numbers are exact, `none` is
an exception, random draws are parameters.
-/

namespace NG

namespace Fishing

variable {α : Type*} [Field α] [LinearOrder α]

/-- The variables of `_compute_total_fishing`. Used in `day` (core.py 42-58). -/
structure Sea (α : Type*) where
  dogfishes : α
  haddocks : α
  total : α

/-- A day of `_compute_total_fishing` (fishing/core.py 42-58); `none` is a failed assertion. -/
def day (s : Sea α) (fishermen : α) : Option (Sea α) :=
  let fishermen := max 0 fishermen
  let eaten := s.dogfishes * s.haddocks * 4 / 30
  let haddocks := s.haddocks + s.haddocks * 2 / 30 - eaten
  let dogfishes := s.dogfishes - 1 / 30 * s.dogfishes + 5 / 2 * eaten
  let capture := min (1 / 10 * fishermen) dogfishes
  let dogfishes := dogfishes - capture
  if 0 ≤ dogfishes then some ⟨min 1 dogfishes, min 1 haddocks, s.total + capture⟩ else none

/-- The loop of `_compute_total_fishing` (fishing/core.py 42-58). -/
def days : List α → Sea α → Option (Sea α)
  | [], s => some s
  | f :: r, s => (day s f).bind (days r)

/-- `_compute_total_fishing` (fishing/core.py 32-59). -/
def loss (efforts : List α) : Option α := (days efforts ⟨1 / 5, 4 / 5, 0⟩).map (fun s => -s.total)

end Fishing

namespace UnitCom

variable {α : Type*} [Field α] [LinearOrder α]

/-- The attributes of `UnitCommitmentProblem` (unitcommitment/core.py 38-50). -/
structure Problem (α : Type*) where
  timepoints : Nat
  generators : Nat
  demands : Nat → α
  pMax : α
  pMin : α
  costA : Nat → α
  costB : Nat → α
  penalty : α

/-- `UnitCommitmentProblem.__init__` (unitcommitment/core.py 27-50), with the draws; `none` is a maximum without time point or a division by 0. -/
def make (timepoints generators : Nat) (penalty : α) (demands normals uniforms : Nat → α) : Option (Problem α) :=
  match ((List.range timepoints).map demands).max? with
  | none => none
  | some m =>
    if generators = 0 then none
    else
      let pMax := 2 * m / generators
      some { timepoints, generators, demands, penalty, pMax, pMin := 3 / 5 * pMax, costA := fun i => max 0 (normals i * (1 / 5) + 1 / 2), costB := uniforms }

variable (p : Problem α) (output states : Nat → Nat → α)

/-- `demand_penalty` (unitcommitment/core.py 67). -/
def demandPenalty : α := ∑ t ∈ Finset.range p.timepoints, |∑ g ∈ Finset.range p.generators, output g t - p.demands t|

/-- `lb_penalty` (unitcommitment/core.py 69-72). -/
def lbPenalty : α := ∑ g ∈ Finset.range p.generators, ∑ t ∈ Finset.range p.timepoints, max 0 (p.pMin * states g t - output g t)

/-- `ub_penalty` (unitcommitment/core.py 73-76). -/
def ubPenalty : α := ∑ g ∈ Finset.range p.generators, ∑ t ∈ Finset.range p.timepoints, max 0 (output g t - p.pMax * states g t)

/-- `running_cost` (unitcommitment/core.py 78-81). -/
def runningCost : α :=
  ∑ g ∈ Finset.range p.generators, ((∑ t ∈ Finset.range p.timepoints, output g t) * p.costA g + (∑ t ∈ Finset.range p.timepoints, states g t) * p.costB g)

/-- `unit_commitment_obj_with_penalization` (unitcommitment/core.py 63-83). The states are a list of numbers, reshaped; the output is an array with a row per generator
and a column per time point. -/
def objective (output : Nat → Nat → α) (states : List α) : Option α :=
  if states.length = p.generators * p.timepoints then
    let states := fun g t => states[g * p.timepoints + t]?.getD 0
    some (runningCost p output states + (demandPenalty p output + lbPenalty p output states + ubPenalty p output states) * p.penalty)
  else none

end UnitCom

namespace Stsp

/-- `np.argsort(x)` (stsp/core.py 27); equal entries may come in any order in the code, here they keep their order. -/
def argsort {α : Type*} [LinearOrder α] (x : List α) : List Nat :=
  ((x.zipIdx).insertionSort (fun a b => a.1 ≤ b.1)).map Prod.snd

/-- The distance between two points. Used in `path` (core.py 31-33). -/
noncomputable def dist (a b : ℝ × ℝ) : ℝ := Real.sqrt ((a.1 - b.1) ^ 2 + (a.2 - b.2) ^ 2)

/-- The sum on `range(self.dimension - 1)` (stsp/core.py 31-33). -/
noncomputable def path : List (ℝ × ℝ) → ℝ
  | a :: b :: r => dist a b + path (b :: r)
  | _ => 0

/-- `np.sum(np.diff(order) ** 2)` (stsp/core.py 35). -/
def jumps : List Nat → Int
  | a :: b :: r => ((b : Int) - a) ^ 2 + jumps (b :: r)
  | _ => 0

/-- The output for an order (stsp/core.py 29-35): no city raises. -/
noncomputable def tour (cities : List (ℝ × ℝ)) (complex : Bool) (order : List Nat) : Option ℝ :=
  let points := order.map (fun i => cities[i]?.getD (0, 0))
  match points.head?, points.getLast? with
  | some first, some last =>
    some (dist first last + path points + if complex then (jumps order : ℝ) / Real.sqrt (cities.length + 1) else 0)
  | _, _ => none

/-- `_simulate_stsp` (stsp/core.py 26-36). -/
noncomputable def loss (cities : List (ℝ × ℝ)) (complex : Bool) (x : List ℝ) : Option ℝ :=
  if x.length = cities.length then tour cities complex (argsort x) else none

end Stsp

end NG
