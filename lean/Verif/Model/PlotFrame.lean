import Verif.Model.XpData
import Mathlib.Analysis.SpecialFunctions.Pow.Real
import Mathlib.Analysis.SpecialFunctions.Log.Base

/-!
# The frame of experiment plots

Model of the limits of the loss axis and of the confidence lines of `XpPlotter` (`nevergrad/benchmark/plotting.py` 632-752).  Losses are finite: infinite ones are
limited before (255-258).  The curves are sorted and chosen as in `Xp.ordered` and `Xp.shown`.
-/

namespace NG.PlotFrame

variable {K : Type} [Field K] [LinearOrder K]

/-- A curve of `optim_vals` (plotting.py 595-599): the name and the losses, by increasing budget. -/
structure Curve (K : Type) where
  name : String
  losses : List K
  deriving DecidableEq

/-- `vals["loss"][-1]` (plotting.py 639). -/
def Curve.last (c : Curve K) : K := c.losses.getLastD 0

/-- `np.max(vals["loss"])` (plotting.py 633, 637). -/
def Curve.top (c : Curve K) : K := (Xp.maxOf c.losses).getD 0

/-- `np.min(vals["loss"])` (plotting.py 680). -/
def Curve.bottom (c : Curve K) : K := (Xp.minOf c.losses).getD 0

/-- The names of baselines (plotting.py 636). -/
def isBaseline (name : String) : Bool := ["stupid", "idiot"].contains name.toLower || ["Zero", "StupidRandom"].contains name

/-- `upperbound` (plotting.py 632-637); `none` if there is no curve, for which `max` raises. -/
def upper (cs : List (Curve K)) : Option K :=
  (Xp.maxOf (cs.map Curve.top)).map fun u => cs.foldl (fun u c => if isBaseline c.name then min u c.top else u) u

/-- The curves in the order and number of the plot (plotting.py 639-644, 672-676); `keep` is the test of `pure_only`. -/
def chosen (keep : Curve K → Bool) (cs : List (Curve K)) : List (Curve K) :=
  (Xp.shown ((Xp.ordered (cs.map fun c => (c, c.last))).filter fun p => keep p.1)).map Prod.fst

/-- `lowerbound` (plotting.py 638, 680, 689) for the curves of the plot, with the losses `marks` of known solutions; `none` if it stays infinite. -/
def lower (marks : List K) (shown : List (Curve K)) : Option K :=
  Xp.minOf (shown.flatMap fun c => c.bottom :: marks.flatMap fun t => [t, 9 / 10 * t, 11 / 10 * t])

/-- `logplot` (plotting.py 655-657). -/
def logPlot (cs : List (Curve K)) : Bool := !(cs.any fun c => c.losses.any fun x => decide (x ≤ 0) || decide (10 ^ 8 < x))

/-- The top of the axis without logarithms (plotting.py 718-719). -/
def topLinear (u l : K) : K := u + 2 / 100 * (u - l)

/-- The top of the axis with logarithms (plotting.py 720-723). -/
noncomputable def topLog (u l : ℝ) : ℝ := 10 ^ (Real.logb 10 u + 2 / 100 * (Real.logb 10 u - Real.logb 10 l))

/-- `conf` (plotting.py 747), from the standard deviation and the number of runs. -/
noncomputable def conf (std : ℝ) (runs : Nat) : ℝ := std / Real.sqrt ((runs : ℝ) - 1)

/-- The confidence lines without logarithms (plotting.py 748-749). -/
def bandLinear (loss conf : ℝ) : ℝ × ℝ := (loss - conf, loss + conf)

/-- The confidence lines with logarithms (plotting.py 750-752). -/
noncomputable def bandLog (loss conf : ℝ) : ℝ × ℝ :=
  (10 ^ (Real.logb 10 loss - 434 / 1000 * conf / loss), 10 ^ (Real.logb 10 loss + 434 / 1000 * conf / loss))

end NG.PlotFrame
