/-
The empirical distribution of the points that were evaluated most, `_get_nash` and `sample_nash` (nevergrad/optimization/utils.py 102-127).

Simplifications. Numbers are exact: the comparisons of square and fourth roots of the counts (`np.power`, 110-111) are written with squares. The draw of
`np.random.choice` is an index, given as an argument.
-/
import Mathlib.Data.List.Sort
import Mathlib.Data.Rat.Defs
import Mathlib.Algebra.Order.Ring.Rat

namespace NG.Nash

/-- A point that is returned: data of the standardized space (107, 115), or the parameter of `provide_recommendation` (112). -/
inductive Point (K P : Type) where
  | data (k : K)
  | param (p : P)
deriving DecidableEq, Repr

/-- `max(p.count for p in optimizer.archive.values())` (utils.py 108). -/
def maxCount {K : Type} (archive : List (K × Nat)) : Nat := (archive.map (·.2)).foldr max 0

/-- `sum(p.count for p in optimizer.archive.values())` (utils.py 109). -/
def sumCount {K : Type} (archive : List (K × Nat)) : Nat := (archive.map (·.2)).sum

/-- `p.count >= threshold` (utils.py 110, 115), where the threshold is the square root of the greatest count. -/
def frequent {K : Type} (archive : List (K × Nat)) (c : Nat) : Bool := decide (maxCount archive ≤ c * c)

/-- `_get_nash` (utils.py 102-117). `best` is the point of `current_bests["pessimistic"]`, `recommendation` that of `provide_recommendation()`. -/
def getNash {K P : Type} (archive : List (K × Nat)) (best : K) (recommendation : P) : List (Point K P × Nat) :=
  if archive = [] then [(.data best, 1)]
  else if maxCount archive * maxCount archive ≤ sumCount archive then [(.param recommendation, 1)]
  else ((archive.filter fun e => frequent archive e.2).insertionSort fun a b => a.2 ≤ b.2).map fun e => (.data e.1, e.2)

/-- The probabilities of `sample_nash` (utils.py 124-125). -/
def probabilities {A : Type} (nash : List (A × Nat)) : List ℚ := nash.map fun e => (e.2 : ℚ) / (nash.map fun e => (e.2 : ℚ)).sum

/-- `sample_nash` (utils.py 120-127), with the index that is drawn. -/
def sample {A : Type} (nash : List (A × Nat)) (draw : Nat) : Option A :=
  match nash with
  | [e] => some e.1
  | _ => nash[draw]?.map (·.1)

end NG.Nash
