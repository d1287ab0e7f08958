import Verif.Model.Pareto

/-!
# Least losses of the front (nevergrad/optimization/multiobjective/core.py)
-/

namespace NG
namespace Pareto
variable {α : Type} [LinearOrder α] {d : Nat}

/-- `get_raw` (core.py 210-212): the list as it is, filtered or not. -/
def Front.getRaw (s : Front d α) : List (Cand d α) := s.pareto

/-- `np.min([p.losses for p in ...], axis=0)` (core.py 176), one coordinate at a time. `none` stands for the error that
numpy raises on an empty list. -/
def leastRow : List (Cand d α) → Option (Fin d → α)
  | [] => none
  | c :: l => some (l.foldl (fun m p => fun i => min (m i) (p.losses i)) c.losses)

/-- `get_min_losses` (core.py 175-176), on the front held by the `HypervolumePareto`. -/
def Front.getMinLosses (s : Front d α) : Option (Fin d → α) := leastRow s.getRaw

end Pareto
end NG
