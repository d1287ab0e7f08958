import Verif.Model.ConstraintOp

/-!
# Model of the two ways to register a constraint

`Parameter.register_cheap_constraint` (parametrization/core.py 326-360) with `as_layer`: as a function checked by `satisfies_constraints` (core.py 312-318, parametrization/utils.py 269-278), or as a
layer `ops.Constraint` (ops/constraints.py 54-60, 79-94) with `_ConstraintCompatibilityFunction` (parametrization/utils.py 280-288). The layer itself is in `Model/ConstraintOp.lean`; here are the
results of the function, including the ones it does not have there, and the arguments it is called with. The warning for lambdas is not modelled.
-/

namespace NG
namespace CheapLayer

variable {V α : Type} [LinearOrder α] [Zero α]

/-- The result of a constraint function: a Boolean, a float (`none` is nan) or an integer (core.py 328). -/
inductive Result (α : Type) where
  | bool (b : Bool)
  | float (x : Option α)
  | int (z : Int)

/-- `float_penalty(out) <= 0` (utils.py 269-278, core.py 318); `none` is the TypeError. Python's `min(0, nan)` is 0. -/
def checked : Result α → Option Bool
  | .bool b => some b
  | .float none => some true
  | .float (some x) => some (decide (min 0 x = 0))
  | .int _ => none

/-- `not np.any(self.function(...))` (constraints.py 54-60, 86): `np.maximum(0, out)` is zero; nan counts as true. `none` is the NevergradTypeError. -/
def layered : Result α → Option Bool
  | .bool _ => none
  | .float none => some false
  | .float (some x) => some (decide (max 0 x = 0))
  | .int z => some (decide (max 0 z = 0))

/-- What a Python function of one argument receives: a value, or the pair of arguments of an instrumentation (container.py 236-243). -/
inductive Obj (V : Type) where
  | one (v : V)
  | pair (args : List V) (kwargs : List (String × V))

/-- A parameter: its value, and whether it is an `Instrumentation`. Used in `Par.args` (core.py 96-109). -/
inductive Par (V : Type) where
  | plain (v : V)
  | instrumentation (args : List V) (kwargs : List (String × V))

/-- `value` (core.py 96-109, container.py 243). -/
def Par.value : Par V → Obj V
  | .plain v => .one v
  | .instrumentation a k => .pair a k

/-- `args` (core.py 96-101, container.py 236-237). -/
def Par.args : Par V → List V
  | .plain v => [v]
  | .instrumentation a _ => a

/-- `kwargs` (core.py 104-109, container.py 240-241). -/
def Par.kwargs : Par V → List (String × V)
  | .plain _ => []
  | .instrumentation _ k => k

/-- Calling a function of one argument with `*args, **kwargs` (constraints.py 55); `none` is Python's TypeError, the name of the argument not being a keyword. -/
def call1 {β : Type} (f : Obj V → β) (args : List V) (kwargs : List (String × V)) : Option β :=
  match args, kwargs with
  | [v], [] => some (f (.one v))
  | _, _ => none

/-- `_ConstraintCompatibilityFunction.__call__` (utils.py 286-288). -/
def compat {β : Type} (f : Obj V → β) (args : List V) (kwargs : List (String × V)) : Option β := some (f (.pair args kwargs))

/-- `compat_func` (core.py 355-359) called by the layer (constraints.py 55, 86). -/
def layerCall {β : Type} (f : Obj V → β) (p : Par V) : Option β :=
  match p with
  | .instrumentation _ _ => compat f p.args p.kwargs
  | .plain _ => call1 f p.args p.kwargs

/-- A constraint that was registered: for the list of checkers, or as a layer (core.py 348-360). -/
structure Registered (V α : Type) where
  func : Obj V → Result α
  asLayer : Bool

/-- Whether the value of the parameter is accepted as it is (core.py 318, constraints.py 86-89); `none` is an exception. -/
def Registered.accepts (r : Registered V α) (p : Par V) : Option Bool :=
  if r.asLayer then (layerCall r.func p).bind layered else checked (r.func p.value)

end CheapLayer
end NG
