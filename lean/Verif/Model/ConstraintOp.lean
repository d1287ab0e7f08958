import Mathlib.Order.Lattice
import Mathlib.Order.Defs.LinearOrder
import Mathlib.Data.List.Basic

/-!
# Model of the constraint operator and of the torch helper

`ops.Constraint` (`ops/constraints.py`) and `TorchOptimizer` (`optimization/helpers.py`). `X` is the data of a parameter, which determines its value: castings with random draws are not modelled.
Constraints have one or several real results; results of type `bool` (which raise) and NaN are not modelled. The optimizer which solves the constraint is any function of the number of the
solver, its starting point and what it was told.
-/

namespace NG
namespace Cop

variable {X α : Type} [LinearOrder α] [Zero α]

/-- `Constraint.function` (constraints.py 54-60): `np.maximum(0, out)` for each result. -/
def function (f : X → List α) (x : X) : List α := (f x).map (max 0)

/-- `satisfied` (constraints.py 86) and the negation of `best.losses > 0` (77): no result is positive. -/
def satisfied (l : List α) : Bool := l.all (fun a => decide (¬ 0 < a))

/-- Domination between losses, as for Pareto fronts; strictly smaller for a single loss. Used in `pick` (base.py 231-238). -/
def dominates (a b : List α) : Bool := (List.zipWith (fun x y => decide (x ≤ y)) a b).all id && (List.zipWith (fun x y => decide (x < y)) a b).any id

/-- `pareto_front()[0]` (base.py 231-238): the first candidate which is not dominated. -/
def pick (told : List (X × List α)) : Option (X × List α) := told.find? (fun p => told.all (fun q => !dominates q.2 p.2))

/-- `minimize` with the stopping criterion tested at each `ask` (constraints.py 43-50, 70-77): what was told in the end. -/
def run (f : X → List α) (ask : List (X × List α) → X) : Nat → List (X × List α) → List (X × List α)
  | 0, told => told
  | b + 1, told =>
    if (pick told).any (fun p => satisfied p.2) then told
    else run f ask b (told ++ [(ask told, function f (ask told))])

/-- `apply_constraint` (constraints.py 43-51) from `x`. -/
def solve (f : X → List α) (budget : Nat) (ask : X → List (X × List α) → X) (x : X) : X :=
  ((pick (run f (ask x) budget [])).map Prod.fst).getD x

/-- A parameter under a constraint layer: the data of the root, and `_cache` of the layer with the number of solvers run so far. Used in `Par.assign` (constraints.py 40-41). -/
structure Par (X : Type) where
  root : X
  cache : Option X
  solved : Nat
deriving DecidableEq, Repr

/-- `set_standardized_data`, `value =` and `mutate` clear the cache (constraints.py 40-41, core.py 222, _layering.py 183-189). -/
def Par.assign (p : Par X) (x : X) : Par X := { p with root := x, cache := none }

/-- Changing a parameter inside a container: the layers of the container are not told. Built on `Par` (constraints.py 40-41). -/
def Par.assignInside (p : Par X) (x : X) : Par X := { p with root := x }

/-- Reading the value of a container under the constraint (constraints.py 79-94): `set_standardized_data` of containers does not read the value (container.py 89-103). `ask n` is the
optimizer of the solver number `n`. -/
def Par.readContainer (f : X → List α) (budget : Nat) (ask : Nat → X → List (X × List α) → X) (p : Par X) : X × Par X :=
  match p.cache with
  | some v => (v, p)
  | none =>
    if satisfied (function f p.root) then (p.root, { p with cache := some p.root })
    else
      let r := solve f budget (ask p.solved) p.root
      (r, ⟨r, some r, p.solved + 1⟩)

/-- Reading the value of an array or scalar under the constraint: `set_standardized_data` reads the value (data.py 305-306), so that the constraint layer is entered again from the
recommendation, before the outer call stores its own recommendation in the cache. `depth` bounds the recursion; `none` is the `RecursionError`. -/
def Par.readData (f : X → List α) (budget : Nat) (ask : Nat → X → List (X × List α) → X) : Nat → Par X → Option (X × Par X)
  | depth, p =>
    match p.cache with
    | some v => some (v, p)
    | none =>
      if satisfied (function f p.root) then some (p.root, { p with cache := some p.root })
      else
        match depth with
        | 0 => none
        | depth + 1 =>
          let r := solve f budget (ask p.solved) p.root
          (Par.readData f budget ask depth ⟨r, none, p.solved + 1⟩).map (fun q => (r, { q.2 with cache := some r }))

/-! ## The torch helper -/

/-- `TorchOptimizer`: the data of the module, the current candidate and what the optimizer was told. Used in `Torch.init` (helpers.py 52-73). -/
structure Torch (X α : Type) where
  module : X
  candidate : X
  told : List (X × α)

/-- The constructor (helpers.py 52-73): a candidate is asked, but not given to the module. -/
def Torch.init (ask : List (X × α) → X) (start : X) : Torch X α := ⟨start, ask [], []⟩

/-- One turn of the documented loop (helpers.py 41-48, 75-84): the loss of the module is computed and `step` is called. `cast` is the conversion to single precision. -/
def Torch.step (ask : List (X × α) → X) (cast : X → X) (loss : X → α) (t : Torch X α) : Torch X α :=
  let told := t.told ++ [(t.candidate, loss t.module)]
  ⟨cast (ask told), ask told, told⟩

/-- `n` turns. Built on `Torch.step` (helpers.py 41-48, 75-84). -/
def Torch.loop (ask : List (X × α) → X) (cast : X → X) (loss : X → α) : Nat → Torch X α → Torch X α
  | 0, t => t
  | n + 1, t => Torch.loop ask cast loss n (t.step ask cast loss)

end Cop
end NG
