import Mathlib.Data.List.Sort
import Mathlib.Data.List.Lex
import Mathlib.Data.Char

/-!
# Configured optimizers and optimizer settings

Sources: nevergrad/optimization/base.py 792-859, nevergrad/common/tools.py 162-203, nevergrad/benchmark/xpbase.py 43-115.

Python values are an arbitrary type `V` with its `==` and its `repr`; `!=` is taken to be the negation of `==`. Texts are lists of characters.
-/

namespace NG
namespace Configured

/-- Names and texts. Used in `mismatch` (tools.py 191-193). -/
abbrev Text := List Char

variable {V : Type}

/-- Dictionaries with texts as keys, in insertion order. Used in `clean` (base.py 799-800). -/
abbrev Dict (V : Type) := List (Text × V)

/-- `d[k]`. Used in `diff` (tools.py 201-203). -/
def look (d : Dict V) (k : Text) : Option V := (d.find? (fun e => e.1 = k)).map (·.2)

/-- A class of configured optimizers: `__name__` and the arguments of `__init__` with their defaults, `none` for `inspect.Parameter.empty`. Used in `nameOf` (base.py 804-805). -/
structure Cls (V : Type) where
  name : Text
  args : List (Text × Option V)

/-- `config.pop("self", None)` and `config.pop("__class__", None)` (base.py 799-800). -/
def clean (config : Dict V) : Dict V := config.filter (fun e => !(e.1 = "self".toList) && !(e.1 = "__class__".toList))

/-- `add or miss` (tools.py 191-193). -/
def mismatch (args : List (Text × Option V)) (config : Dict V) : Bool :=
  !(args.all (fun a => config.any (fun e => e.1 = a.1)) && config.all (fun e => args.any (fun a => a.1 = e.1)))

/-- `y != instance_dict[x]` (tools.py 202). -/
def differs (eq : V → V → Bool) (default : Option V) (v : V) : Bool :=
  match default with
  | none => true
  | some d => !eq d v

/-- The returned dictionary of `different_from_defaults` (tools.py 201-203), over the arguments in order. -/
def diff (eq : V → V → Bool) (args : List (Text × Option V)) (config : Dict V) : Dict V :=
  args.filterMap (fun a =>
    match look config a.1 with
    | none => none
    | some v => if differs eq a.2 v && !(a.1.head? = some '_') then some (a.1, v) else none)

/-- `", ".join`. Used in `nameOf` (base.py 804-805). -/
def join : List Text → Text
  | [] => []
  | [x] => x
  | x :: y :: rest => x ++ ", ".toList ++ join (y :: rest)

/-- `sorted(diff.items())`: the keys are distinct. Used in `nameOf` (base.py 804-805). -/
def sortItems (d : Dict V) : Dict V := d.insertionSort (fun a b => a.1 ≤ b.1)

/-- `f"{self.__class__.__name__}({params})"` (base.py 804-805). -/
def nameOf (eq : V → V → Bool) (repr : V → Text) (c : Cls V) (config : Dict V) : Text :=
  c.name ++ "(".toList ++ join ((sortItems (diff eq c.args config)).map (fun e => e.1 ++ "=".toList ++ repr e.2)) ++ ")".toList

/-- `_OptimizerClass`: a class of optimizers with its name, or a configured optimizer. The latter is an instance of class `cls` (a `ConfiguredOptimizer`). Used in `build` (base.py 797-813). -/
inductive Maker (V : Type) where
  | raw (name : Text)
  | conf (inner : Maker V) (cls : Text) (config : Dict V) (asConfig : Bool) (name : Text)

/-- `__init__` (base.py 797-813). `trial` tells whether `self(parametrization=4, budget=100)` succeeds with these keyword arguments. The result is `none` for an
exception. -/
def build (eq : V → V → Bool) (repr : V → Text) (trial : Dict V → Bool) (inner : Maker V) (c : Cls V) (config : Dict V) (asConfig : Bool) : Option (Maker V) :=
  if mismatch c.args (clean config) then none
  else if asConfig || trial (clean config) then some (.conf inner c.name (clean config) asConfig (nameOf eq repr c (clean config)))
  else none

/-- What a class of optimizers receives besides the parametrization, the budget and the number of workers. Used in `passed` (base.py 832-834). -/
inductive Given (V : Type) where
  | nothing
  | kwargs (d : Dict V)
  | config (m : Maker V)

/-- An optimizer: its class, what it was created with, its `name` and `_configured_optimizer`. Used in `call` (base.py 818-839). -/
structure Run (V P : Type) where
  cls : Text
  given : Given V
  parametrization : P
  budget : Option Nat
  workers : Nat
  name : Text
  owner : Option (Maker V)

/-- The configuration passed on by `__call__` (base.py 832-834). -/
def passed (m : Maker V) : Given V :=
  match m with
  | .raw _ => .nothing
  | .conf (.conf ..) .. => .nothing
  | .conf (.raw _) _ config asConfig _ => if asConfig then .config m else .kwargs config

/-- `__call__` (base.py 818-839) and instantiation of classes, whose `name` is the name of the class (base.py 109). A configured optimizer accepts no other
argument than the parametrization, the budget and the number of workers: `none` is the TypeError. -/
def call {P : Type} (m : Maker V) (given : Given V) (p : P) (budget : Option Nat) (workers : Nat) : Option (Run V P) :=
  match m, given with
  | .raw n, given => some ⟨n, given, p, budget, workers, n, none⟩
  | .conf inner cls config asConfig name, .nothing =>
    (call inner (passed (.conf inner cls config asConfig name)) p budget workers).map (fun run =>
      { run with name := name, owner := some (.conf inner cls config asConfig name) })
  | .conf .., _ => none

/-- `m(parametrization=p, budget=budget, num_workers=workers)`. Built on `call` (base.py 818-839). -/
def make {P : Type} (m : Maker V) (p : P) (budget : Option Nat) (workers : Nat) : Option (Run V P) := call m .nothing p budget workers

/-- `set_name` without registration (base.py 845-850). -/
def setName (m : Maker V) (name : Text) : Maker V :=
  match m with
  | .raw n => .raw n
  | .conf inner cls config asConfig _ => .conf inner cls config asConfig name

/-- Whether a dictionary has an equal entry. Used in `dictEq` (base.py 856-860). -/
def holds (eq : V → V → Bool) (b : Dict V) (e : Text × V) : Bool :=
  match look b e.1 with
  | none => false
  | some w => eq e.2 w

/-- `==` between dictionaries. Used in `makerEq` (base.py 856-860). -/
def dictEq (eq : V → V → Bool) (a b : Dict V) : Bool := a.length = b.length && a.all (holds eq b)

/-- `__eq__` (base.py 856-860); classes are the same object iff they have the same name. -/
def makerEq (eq : V → V → Bool) (a b : Maker V) : Bool :=
  match a, b with
  | .raw n, .raw m => n = m
  | .conf _ ca da _ _, .conf _ cb db _ _ => ca = cb && dictEq eq da db
  | _, _ => false

/-- What is given as `optimizer` in the settings (xpbase.py 52-65): a registered name, or an object. -/
inductive Choice (V : Type) where
  | registered (name : Text)
  | object (m : Maker V)

/-- `OptimizerSettings` (xpbase.py 43-65). -/
structure Settings (V : Type) where
  optimizer : Choice V
  budget : Nat
  workers : Nat
  batch : Bool

/-- `name` (xpbase.py 67-75). -/
def Settings.name (s : Settings V) : Text :=
  match s.optimizer with
  | .registered n => n
  | .object (.raw n) => n
  | .object (.conf _ _ _ _ n) => n

/-- `_get_factory` (xpbase.py 84-85). -/
def Settings.factory (registry : Text → Maker V) (s : Settings V) : Maker V :=
  match s.optimizer with
  | .registered n => registry n
  | .object m => m

/-- `is_incoherent` (xpbase.py 87-94); `sequential` is the attribute `no_parallelization` of the factory. -/
def Settings.incoherent (sequential : Maker V → Bool) (registry : Text → Maker V) (s : Settings V) : Bool :=
  sequential (s.factory registry) && decide (1 < s.workers)

/-- `instantiate` (xpbase.py 96-100). -/
def Settings.instantiate {P : Type} (registry : Text → Maker V) (s : Settings V) (p : P) : Option (Run V P) :=
  make (s.factory registry) p (some s.budget) s.workers

/-- `get_description` (xpbase.py 102-106): budget, number of workers, mode and name. -/
def Settings.description (s : Settings V) : Nat × Nat × Bool × Text := (s.budget, s.workers, s.batch, s.name)

/-- Comparison of the optimizers of two settings. Used in `Settings.beq` (xpbase.py 108-115). -/
def choiceEq (eq : V → V → Bool) (a b : Choice V) : Bool :=
  match a, b with
  | .registered n, .registered m => n = m
  | .object x, .object y => makerEq eq x y
  | _, _ => false

/-- `__eq__` (xpbase.py 108-115). -/
def Settings.beq (eq : V → V → Bool) (a b : Settings V) : Bool :=
  choiceEq eq a.optimizer b.optimizer && a.budget = b.budget && a.workers = b.workers && a.batch = b.batch

end Configured
end NG
