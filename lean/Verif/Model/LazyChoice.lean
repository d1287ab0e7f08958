import Mathlib.Data.List.Induction

/-!
# Model of the algorithm chosen by `CMA`

`ChoiceBase` (optimization/optimizerlib.py 912-978) chooses its inner optimizer when it is needed for the first time; `MetaCMA` (1002-1030), which is also registered
under the name `CMA`, is such an optimizer. The number of objectives is known from the moment when the user gives it or tells a first loss (optimization/base.py 164-188, 370-385).
Not modelled: constraints, the exceptions of an inner optimizer which rejects points it has not asked for (both levels have the same number of objectives and the same choice as
without the exception), and the points themselves.
-/

namespace NG
namespace LazyChoice

/-- What `MetaCMA` looks at (optimizerlib.py 1006-1016); `bounded` is `Normalizer(...).fully_bounded`. -/
structure Env where
  budget : Option Nat
  continuous : Bool
  noise : Bool
  bounded : Bool
  dim : Nat
  workers : Nat
deriving DecidableEq

/-- The optimizers `MetaCMA` chooses from (optimizerlib.py 981-999, 1013-1025). -/
inductive Alg where
  | onePlusOne | cmaBounded | cmaTuning | cmaSmall | cmaPara | cmaStd | oldCma
deriving DecidableEq

/-- `MetaCMA._select_optimizer_cls` (optimizerlib.py 1006-1025). -/
def metaCma (v : Env) (objectives : Nat) : Alg :=
  match v.budget with
  | none => .oldCma
  | some b =>
    if v.continuous = true ∧ v.noise = false ∧ objectives < 2 then
      if v.dim = 1 then .onePlusOne
      else if v.bounded = true then .cmaBounded
      else if b < 50 then (if v.dim ≤ 15 then .cmaTuning else .cmaSmall)
      else if 20 < v.workers then .cmaPara
      else .cmaStd
    else .oldCma

/-- The outer optimizer: `_num_objectives`, the number of suggestions, whether a Pareto front exists, and the inner optimizer with the number of objectives it knows
(optimizerlib.py 939, base.py 114-137). -/
structure St (A : Type) where
  objectives : Nat := 0
  suggestions : Nat := 0
  front : Bool := false
  inner : Option (A × Nat) := none
deriving DecidableEq

/-- A call of the user. The number of a `tell` is the number of components of the loss, a loss of one component being a float (base.py 348-349); `reference` is a
`MultiobjectiveReference` without value (base.py 373-384). -/
inductive Op where
  | setObjectives (n : Int)
  | suggest
  | ask
  | tell (n : Nat)
  | reference (n : Nat)
  | recommend
  | info
  | pickle
deriving DecidableEq

/-- What a call gives. Used in `step` (optimizerlib.py 960-978). -/
inductive Out where
  | done
  | raises
deriving DecidableEq

/-- The setter of `num_objectives` (base.py 177-185), on the number known so far: `none` is a `ValueError`. -/
def setNum (known : Nat) (n : Int) : Option Nat :=
  if n ≤ 0 then none
  else if known = 0 then some n.toNat
  else if n ≠ known then none
  else some known

variable {A : Type}

/-- The property `optim` (optimizerlib.py 946-955). A new inner optimizer knows no number of objectives. -/
def touch (select : Nat → A) (s : St A) : St A :=
  match s.inner with
  | some _ => s
  | none => { s with inner := some (select s.objectives, 0) }

/-- `self.optim.tell(candidate, loss)` (optimizerlib.py 963-970): the loss is a float, whatever was told to the outer optimizer (base.py 388-392). -/
def innerTell (s : St A) : St A × Out :=
  match s.inner with
  | none => (s, .done)
  | some (a, k) =>
    match setNum k 1 with
    | none => (s, .raises)
    | some k' => ({ s with inner := some (a, k') }, .done)

/-- `Optimizer.recommend` (base.py 580-583) of an optimizer which knows `k` objectives. -/
def baseRecommend (k : Nat) : Out := if 1 < k then .raises else .done

/-- One call (optimizerlib.py 957-978, base.py 370-431, 508-520). -/
def step (select : Nat → A) (s : St A) : Op → St A × Out
  | .setObjectives n =>
    match setNum s.objectives n with
    | none => (s, .raises)
    | some k => ({ s with objectives := k }, .done)
  | .suggest => ({ s with suggestions := s.suggestions + 1 }, .done)
  | .ask => if 0 < s.suggestions then ({ s with suggestions := s.suggestions - 1 }, .done) else (touch select s, .done)
  | .tell n =>
    match setNum s.objectives n with
    | none => (s, .raises)
    | some k => innerTell (touch select { s with objectives := k, front := s.front || decide (n ≠ 1) })
  | .reference n =>
    match setNum s.objectives n with
    | none => (s, .raises)
    | some k =>
      if s.front = true then ({ s with objectives := k }, .raises)
      else if n = 1 then ({ s with objectives := k }, .raises)
      else ({ s with objectives := k, front := true }, .done)
  | .recommend =>
    let s := touch select s
    (s, match s.inner with
      | none => .done
      | some (_, k) => baseRecommend k)
  | .info => (touch select s, .done)
  | .pickle => (touch select s, .done)

/-- A sequence of calls on a new optimizer, exceptions being caught. Built on `step` (optimizerlib.py 957-978). -/
def run (select : Nat → A) (s : St A) (ops : List Op) : St A := ops.foldl (fun s op => (step select s op).1) s

end LazyChoice
end NG
