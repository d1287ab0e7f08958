import Verif.Model.Pareto

/-!
# Cross-validation of multiobjective experiments (nevergrad/functions/helpers.py)

`SpecialEvaluationExperiment` optimizes an experiment and evaluates the recommendations with another one. Experiments are instances `ι`, compared by
identity (`ExperimentFunction` has no `__eq__`); `f e x` is the loss of the single-objective experiment `e`, deterministic here.
-/

namespace NG
namespace CrossVal
open Pareto

/-- What is known of the instances: their losses, the value of their parametrization, the name of it and whether `multiobjective_upper_bounds` is set.
Used in `pack` (functions/base.py 370-388). -/
structure World (ι X α : Type) where
  f : ι → X → α
  origin : ι → X
  name : ι → String
  multi : ι → Bool

/-- The optimized experiment: one instance, or a `MultiExperiment` (functions/base.py 370-392) with its upper bounds. -/
inductive Inner (ι α : Type) where
  | single (e : ι)
  | packed (xs : List ι) (upper : List α)
deriving DecidableEq

/-- The constructor of `MultiExperiment` (functions/base.py 370-388); `none` is an `AssertionError`. -/
def pack {ι X α : Type} [DecidableEq ι] (w : World ι X α) (xs : List ι) (upper : List α) : Option (Inner ι α) :=
  match xs with
  | [] => none
  | x :: rest =>
    if decide (x :: rest).Nodup && (x :: rest).all (fun e => !w.multi e) && rest.all (fun e => w.name x == w.name e) then some (.packed (x :: rest) upper)
    else none

/-- `_delegate_to_experiment` and `_multi_func` (helpers.py 40-41; functions/base.py 390-392): the list of losses. -/
def Inner.call {ι X α : Type} (w : World ι X α) : Inner ι α → X → List α
  | .single e, x => [w.f e x]
  | .packed xs _, x => xs.map fun e => w.f e x

/-- A `SpecialEvaluationExperiment` (helpers.py 19-38). `upper` is its own `multiobjective_upper_bounds`. -/
structure Special (ι α : Type) where
  inner : Inner ι α
  evaluation : ι
  size : Option Nat
  subset : String
  upper : Option (List α)
deriving DecidableEq

/-- The constructor (helpers.py 19-38; functions/base.py 87): the upper bounds of the experiment are not copied. -/
def Special.new {ι α : Type} (inner : Inner ι α) (evaluation : ι) (size : Option Nat) (subset : String) : Special ι α :=
  { inner := inner, evaluation := evaluation, size := size, subset := subset, upper := none }

/-- `trainxps` (helpers.py 119-121). -/
def train {ι : Type} [DecidableEq ι] (exps training : List ι) (e : ι) : List ι := exps.filter (· ≠ e) ++ training

/-- One experiment (helpers.py 119-129). -/
def one {ι X α : Type} [DecidableEq ι] (w : World ι X α) (exps training : List ι) (size : Nat) (subset : String) (e : ι) : Option (Special ι α) :=
  match train exps training e with
  | [t] => some (Special.new (.single t) e (some size) subset)
  | ts => (pack w ts (ts.map fun t => w.f t (w.origin e))).map fun inner => Special.new inner e (some size) subset

/-- `create_crossvalidation_experiments` (helpers.py 83-130); `none` is an `AssertionError` of one of the experiments. -/
def create {ι X α : Type} [DecidableEq ι] (w : World ι X α) (exps training : List ι) (size : Nat) (subsets : List String) : Option (List (Special ι α)) :=
  (subsets.flatMap fun s => exps.map fun e => (s, e)).mapM fun p => one w exps training size p.1 p.2

/-- The reference which a benchmark tells to the optimizer before the run (benchmark/xpbase.py 277-278). -/
def Special.reference {ι α : Type} (s : Special ι α) : Option (List α) := s.upper

variable {α : Type} [LinearOrder α] [Field α] [IsStrictOrderedRing α] {d : Nat}

/-- `HypervolumePareto(upper_bounds=None)` then `extend` (helpers.py 61-62; multiobjective/core.py 52-73, 83-87). The flag says whether `_calc_hypervolume` was reached,
which creates the indicator (core.py 126-128). -/
def extend (vol : (Fin d → α) → List (Fin d → α) → α) : Hyper d α → Bool → List (Cand d α) → Hyper d α × Bool
  | h, used, [] => (h, used)
  | h, used, c :: cs =>
    let reached := match h.upper with
      | none => false
      | some u => (h.autoBound == 0) && decide (∀ i, c.losses i ≤ u i)
    extend vol (h.add vol false c).2 (used || reached) cs

/-- The selected recommendations (helpers.py 58-69; core.py 237-268) for `tentatives` (30 by default), the scores being parameters; `none` is the `RuntimeError` for the
hypervolume (core.py 244-245), or the `ValueError` of an unknown method (core.py 264-265), which is met since `size` is above 0. -/
def select (vol : (Fin d → α) → List (Fin d → α) → α) (size : Option Nat) (subset : String) (tentatives : Nat) (draws : Nat → Nat → Nat)
    (score : String → List (Cand d α) → List (Cand d α) → α) (recs : List (Cand d α)) : Option (List (Cand d α)) :=
  match size with
  | none => some recs
  | some n =>
    if recs.length ≤ n then some recs
    else
      let h := extend vol (Hyper.init none 15) false recs
      let front := h.1.pf
      if front.refresh.pareto.length ≤ n then some front.refresh.pareto
      else if subset == "random" then some (front.getRandom n (draws 0)).1
      else if subset == "hypervolume" && !h.2 then none
      else if ["loss-covering", "EPS", "domain-covering", "hypervolume"].contains subset then some (front.getScored n tentatives draws (score subset)).1
      else none

/-- `evaluation_function` (helpers.py 58-70): the least evaluation; `none` also for the `ValueError` of the minimum of nothing. -/
def evaluate (vol : (Fin d → α) → List (Fin d → α) → α) (ev : Cand d α → α) (size : Option Nat) (subset : String) (tentatives : Nat) (draws : Nat → Nat → Nat)
    (score : String → List (Cand d α) → List (Cand d α) → α) (recs : List (Cand d α)) : Option α :=
  (select vol size subset tentatives draws score recs).bind fun l => (l.map ev).min?

/-! ### Copies -/

/-- An experiment function as an object: the identity of its parametrization object. Used in `Obj` (helpers.py 19-38). -/
structure Exp where
  inst : Nat
  param : Nat
deriving DecidableEq

/-- A `SpecialEvaluationExperiment` as an object (helpers.py 27-32): `recorded` is the argument `experiment` kept by `__new__` (functions/base.py 51-73), `param` its parametrization object. -/
structure Obj where
  recorded : Exp
  experiment : Exp
  evaluation : Exp
  param : Nat
deriving DecidableEq

/-- A new special experiment (helpers.py 19-32): it takes the parametrization object of the experiment. -/
def Obj.new (experiment evaluation : Exp) : Obj := { recorded := experiment, experiment := experiment, evaluation := evaluation, param := experiment.param }

/-- The copy of an ordinary experiment function (functions/base.py 157-203): a new instance, whose parametrization is new. `k` numbers the objects. -/
def Exp.copy (k : Nat) (_ : Exp) : Exp := { inst := k, param := k }

/-- `copy` (helpers.py 43-51) with the inherited `copy` and `_internal_copy` (functions/base.py 157-203), when the name of the parametrization did not change: the constructor gets the recorded
experiments themselves, which are no parameters, then the two experiments are replaced by copies. -/
def Obj.copy (k : Nat) (s : Obj) : Obj :=
  { Obj.new s.recorded s.evaluation with experiment := s.experiment.copy k, evaluation := s.evaluation.copy (k + 1) }

end CrossVal
end NG
