/-!
# Model of the tabu memory

Source: nevergrad/parametrization/core.py 57-64, 293-315 (`satisfies_constraints`, tabu part).
-/

namespace NG

/-- `tabu_set`, `tabu_list`, `tabu_index` of the reference parametrization (core.py 61-64). The Python set is
a list of its elements. -/
structure Tabu (T : Type) where
  set : List T
  list : List T
  index : Nat
deriving Repr, DecidableEq

namespace Tabu
variable {T : Type} [DecidableEq T]

/-- Fresh memory (core.py 62-64). -/
def empty : Tabu T := { set := [], list := [], index := 0 }

/-- Result of a check: refused (value in memory), accepted with the new memory, or a Python error
(`KeyError` of `set.remove`, failed `assert`). Used in `check` (core.py 301-313). -/
inductive Outcome (T : Type) where
  | refused
  | accepted (t : Tabu T)
  | error

/-- One check of a value against a memory of positive length (core.py 301-313). -/
def check (len : Nat) (t : Tabu T) (v : T) : Outcome T :=
  if v ∈ t.set then .refused
  else
    let set := t.set ++ [v]
    match t.list[t.index]? with
    | some old =>
      if old ∈ set then
        .accepted { set := set.erase old, list := t.list.set t.index v, index := (t.index + 1) % len }
      else .error
    | none =>
      if t.list.length = t.index then
        .accepted { set := set, list := t.list ++ [v], index := (t.index + 1) % len }
      else .error

end Tabu
end NG
