import Mathlib.Data.Rat.Defs
import Mathlib.Algebra.Order.Ring.Rat
import Mathlib.Algebra.Order.Field.Basic
import Mathlib.Order.WithBot
import Mathlib.Tactic.Linarith

/-!
# Model of experiment functions and experiments

`ExperimentFunction.copy`, `update_leaderboard`, `ArrayExperimentFunction`, `MultiExperiment` (`functions/base.py`) and `Experiment`
(`benchmark/xpbase.py`).
-/

namespace NG
namespace Exp

/-! ## Symmetries -/

/-- The multiplier of the symmetry number (functions/base.py 331). -/
def mult : Nat := 11111111111111111111111

/-- `symmetry % 2 == 1` at the `i`-th turn of the loop (functions/base.py 331-344), which halves `symmetry` at each turn. -/
def flips (d sym i : Nat) : Bool := ((sym * mult) % 2 ^ d) / 2 ^ i % 2 == 1

variable {F : Type} [Field F]

/-- `middle` (functions/base.py 338-341): the bounds of the first coordinate serve for all; `none` is an unbounded array. -/
def middle (bounds : Option ((Nat → F) × (Nat → F))) : F :=
  match bounds with
  | none => 0
  | some (lo, up) => (lo 0 + up 0) / 2

/-- `threshold_coefficients + slope_coefficients * x` (functions/base.py 331-353). -/
def symmetrize (bounds : Option ((Nat → F) × (Nat → F))) (d sym : Nat) (x : List F) : List F :=
  x.mapIdx (fun i v => if flips d sym i then 2 * middle bounds + -1 * v else 0 + 1 * v)

/-! ## Leaderboard -/

/-- `update_leaderboard` (functions/base.py 256-292) for one identifier: the stored loss and array, `none` is NaN, `⊤` the initial infinity. The
rounding to 12 decimals and the file are not modelled. -/
def leader {A : Type} (best : Option (WithTop ℚ) × Option A) (loss : Option ℚ) (array : A) : Option (WithTop ℚ) × Option A :=
  match best.1, loss with
  | some b, some l => if b < (l : WithTop ℚ) then best else (some (l : WithTop ℚ), some array)
  | _, _ => (loss.map (fun l => (l : WithTop ℚ)), some array)

/-- A sequence of updates, starting from a missing identifier (functions/base.py 280-281). -/
def leaders {A : Type} (us : List (Option ℚ × A)) : Option (WithTop ℚ) × Option A :=
  us.foldl (fun b u => leader b u.1 u.2) (some ⊤, none)

/-! ## Copies -/

/-- A parametrization: its name, what it describes (`content`), the flags which `copy` propagates, and the list object of constraint checkers
(`checkers` is the identity of the list, not its content). Used in `copyParam` (base.py 181-187). -/
structure Param where
  name : String
  content : Nat
  flags : List Bool
  checkers : Nat
deriving DecidableEq, Repr

/-- An experiment function: `init` are the recorded arguments of `__init__`, `descriptors` a dictionary without repeated keys. Used in `equivalent` (base.py 143-155). -/
structure Func where
  cls : Nat
  init : Nat
  descriptors : List (String × Nat)
  param : Param
  upper : Option Nat
deriving DecidableEq, Repr

/-- Dictionary lookup. Used in `assembled` (base.py 176-188). -/
def get (d : List (String × Nat)) (k : String) : Option Nat := (d.find? (fun p => p.1 == k)).map Prod.snd

/-- Equality of dictionaries. Used in `equivalent` (base.py 143-155). -/
def sameDict (d d' : List (String × Nat)) : Bool :=
  d.all (fun p : String × Nat => get d' p.1 == some p.2) && d'.all (fun p : String × Nat => get d p.1 == some p.2)

/-- `equivalent_to` (functions/base.py 143-155). -/
def equivalent (f g : Func) : Bool := f.cls == g.cls && sameDict f.descriptors g.descriptors && f.param.name == g.param.name

/-- The parametrization of the copy (functions/base.py 181-187): the one of the original, copied, only if the names differ; the flags are propagated. -/
def copyParam (self fresh : Func) : Param :=
  if fresh.param.name != self.param.name then { self.param with checkers := fresh.param.checkers }
  else { fresh.param with flags := self.param.flags }

/-- The copy before the check (functions/base.py 176-188): `fresh` is the result of `_internal_copy`, a new instance made from the recorded arguments.
`descriptors` also contains the name and the dimension of the parametrization (126-133); they never are passed to `add_descriptors` since `output`
has them too. -/
def assembled (self fresh : Func) : Func :=
  { fresh with
    descriptors := fresh.descriptors ++ self.descriptors.filter (fun p : String × Nat => (get fresh.descriptors p.1).isNone)
    param := copyParam self fresh }

/-- `copy` (functions/base.py 167-203); `none` is `ExperimentFunctionCopyError`. The list object of constraint checkers is shared (199). -/
def copy (self fresh : Func) : Option Func :=
  if equivalent (assembled self fresh) self then
    some { assembled self fresh with param := { copyParam self fresh with checkers := self.param.checkers }, upper := self.upper }
  else none

/-- `register_cheap_constraint` (parametrization/core.py 349-350) appends to the list object; `heap` gives the content of the list objects. -/
def register (heap : Nat → List Nat) (p : Param) (c : Nat) : Nat → List Nat := fun i => if i = p.checkers then heap i ++ [c] else heap i

/-! ## Experiments -/

/-- The parts of an experiment which are external: `copyOf` the successive instances of the function, `minimize` the run of the optimizer on an instance
(with an error if it raised), `numAsk`, the value of the recommendation on an instance, and whether it violates the constraints. Used in `logResults` (xpbase.py 225-251). -/
structure Ext (I O : Type) where
  copyOf : Nat → I
  new : I → O
  minimize : I → O → O × Option String
  numAsk : O → Nat
  eval : I → O → ℚ
  violates : I → O → Bool

/-- `self.result` (xpbase.py 180), `none` for NaN. -/
structure Result where
  loss : Option ℚ
  elapsed : Option Nat
  error : String
deriving DecidableEq, Repr

/-- An experiment: `_optimizer`, `result` and the number of copies made. Used in `Xp.new` (xpbase.py 180-183). -/
structure Xp (O : Type) where
  opt : Option O
  result : Result
  copies : Nat

/-- A new experiment (xpbase.py 180-183). -/
def Xp.new {O : Type} : Xp O := { opt := none, result := { loss := none, elapsed := none, error := "" }, copies := 0 }

/-- `_log_results` (xpbase.py 225-251), and the error it raises. -/
def logResults {I O : Type} (ext : Ext I O) (budget : Nat) (penalize : Bool) (i : I) (o : O) (r : Result) : Result × Option String :=
  ({ r with
      loss := some (ext.eval i o + (if ext.violates i o && penalize then 1000000000 else 0))
      elapsed := some (ext.numAsk o) },
    if budget < ext.numAsk o then some "RuntimeError" else none)

/-- `run` (xpbase.py 200-223) with `_run_with_error` (253-314). An error of `_log_results` replaces the one of `minimize`. -/
def run {I O : Type} (ext : Ext I O) (budget : Nat) (penalize : Bool) (x : Xp O) : Xp O :=
  let i := ext.copyOf x.copies
  let m := ext.minimize i (x.opt.getD (ext.new i))
  let l := logResults ext budget penalize i m.1 x.result
  let err := match l.2 with | some e => some e | none => m.2
  { opt := some m.1
    result := match err with | some e => { l.1 with error := e } | none => l.1
    copies := x.copies + 1 }

/-- What `Experiment.__eq__` compares (xpbase.py 325-333), and the arguments which it ignores. -/
structure Setting where
  seed : Option Nat
  function : Nat
  optimizer : String
  budget : Nat
  workers : Nat
  batch : Bool
  violation : Option Nat
  penalize : Bool
  suggestions : Option Nat
deriving DecidableEq, Repr

/-- `Experiment.__eq__` (xpbase.py 325-333) and `OptimizerSettings.__eq__` (108-115); the functions are given up to `equivalent_to`. -/
def Setting.eq (a b : Setting) : Bool :=
  a.seed == b.seed && a.function == b.function && a.optimizer == b.optimizer && a.budget == b.budget && a.workers == b.workers && a.batch == b.batch

end Exp
end NG
