import Mathlib.Algebra.BigOperators.Group.List.Basic
import Mathlib.Data.List.GetD

/-!
`rolling_mean` (nevergrad/parametrization/mutation.py 313-319). Vectors are lists over an additive commutative group, so rounding is not modelled; the window is
an integer, as Python accepts any.
-/

namespace NG.Rolling
variable {α : Type} [AddCommGroup α]

/-- `np.cumsum`, from the sum `acc` of what precedes (mutation.py 318). -/
def cumsum (acc : α) : List α → List α
  | [] => []
  | x :: l => (acc + x) :: cumsum (acc + x) l

/-- `rolling_mean` (mutation.py 313-319). In the last case the window is at least 2, so that its slices count from the start or from the end as written. -/
def rollingMean (v : List α) (window : Int) : List α :=
  if (v.length : Int) ≤ window then List.replicate v.length v.sum
  else if window ≤ 1 then v
  else
    let w := window.toNat
    let c := cumsum 0 ([0] ++ v ++ v.take (w - 1))
    List.zipWith (· - ·) (c.drop w) (c.take (c.length - w))

end NG.Rolling
