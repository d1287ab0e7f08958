import Mathlib.Order.Basic
import Mathlib.Data.List.Sort

/-!
# Layer stacks of parameters

Source: nevergrad/parametrization/_layering.py 21-122.
-/

namespace NG
namespace Layers

/-- A layer: its level (`_LAYER_LEVEL.value`), its recorded `_layer_index`, and what it is (`tag`). Used in `reindex` (_layering.py 62-63). -/
structure Layer (β : Type) where
  level : Nat
  index : Nat
  tag : β

variable {β : Type}

/-- `bisect.bisect_right(levels, x)`: the search between `lo` and `hi` of the standard library. Used in `addLayer` (_layering.py 49-66). -/
def bisectRight (levels : List Nat) (x : Nat) (lo hi : Nat) : Nat :=
  if h : lo < hi then
    let mid := (lo + hi) / 2
    if x < levels.getD mid 0 then bisectRight levels x lo mid else bisectRight levels x (mid + 1) hi
  else lo
termination_by hi - lo

/-- Lines 62-63: every layer records its position. -/
def reindex (l : List (Layer β)) : List (Layer β) := l.mapIdx (fun k x => { x with index := k })

/-- `add_layer` (_layering.py 49-66) called on the root of the stack `layers` with an unattached layer; `none` for the empty
stack, which does not exist. The checks of lines 51-54 (caller is the root, `other` is unattached) are taken as passed. -/
def addLayer (layers : List (Layer β)) (other : Layer β) : Option (List (Layer β)) :=
  match layers.getLast? with
  | none => none
  | some last =>
    if last.level ≤ other.level then some (layers ++ [{ other with index := layers.length }])
    else
      let levels := layers.map (·.level)
      let ind := bisectRight levels other.level 0 levels.length
      some (reindex (layers.insertIdx ind other))

/-- Successive calls. Used in `copy` (_layering.py 114-122). -/
def addLayers (layers : List (Layer β)) : List (Layer β) → Option (List (Layer β))
  | [] => some layers
  | x :: xs => (addLayer layers x).bind (fun l => addLayers l xs)

/-- `copy` of a root (_layering.py 114-122): the root is copied alone, then copies of the layers are added one by one. -/
def copy (layers : List (Layer β)) : Option (List (Layer β)) :=
  match layers with
  | [] => none
  | root :: rest => addLayers [{ root with index := 0 }] (rest.map (fun x => { x with index := 0 }))

/-- `_call_deeper` (_layering.py 71-86): the position of the layer called from the layer at position `i`; `impl` tells whether a
layer overrides the method. `none` if no deeper layer does (_layering.py 86). -/
def callDeeper (layers : List (Layer β)) (impl : β → Bool) (i : Nat) : Option Nat :=
  ((List.range i).reverse).find? (fun k => match layers[k]? with
    | none => false
    | some x => impl x.tag)

end Layers
end NG
