/-
Groups of optimizers, `get_optimizers` (nevergrad/benchmark/optgroups.py 21-41), with the comparison of configured optimizers (optimization/base.py, `ConfiguredOptimizer.__eq__`).

Simplifications. A group is a list, without errors in the function that makes it. The shuffle for a seed and a length is a permutation of the positions, given as
an argument.
-/
import Mathlib.Data.List.Basic

namespace NG.OptGroups

/-- An optimizer of a group (optgroups.py 17): the name of a registered one, or a configured one with its class, its configuration and its name. -/
inductive Optim where
  | name (s : String)
  | conf (cls : String) (config : List (String × String)) (name : String)
deriving DecidableEq, Repr

/-- `==` between optimizers (base.py 855-859): configured ones are compared by class and configuration. -/
def Optim.same : Optim → Optim → Bool
  | .name a, .name b => a == b
  | .conf c k _, .conf c' k' _ => c == c' && k == k'
  | _, _ => false

/-- One group added to the list (optgroups.py 36-38). -/
def addGroup (optims : List Optim) (group : List Optim) : List Optim :=
  group.foldl (fun acc o => if acc.any (fun x => x.same o) then acc else acc ++ [o]) optims

/-- The loop on the names (optgroups.py 34-38), `none` for the KeyError of an unknown group. -/
def collect (registry : String → Option (List Optim)) : List String → List Optim → Option (List Optim)
  | [], acc => some acc
  | n :: names, acc =>
    match registry n with
    | none => none
    | some g => collect registry names (addGroup acc g)

/-- `get_optimizers` (optgroups.py 21-41). -/
def getOptimizers (registry : String → Option (List Optim)) (shuffle : Nat → List Optim → List Optim) (names : List String) (seed : Option Nat) :
    Option (List Optim) :=
  (collect registry names []).map fun l =>
    match seed with
    | none => l
    | some s => shuffle s l

end NG.OptGroups
