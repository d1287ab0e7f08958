/-!
# Mutations as layers, and the choice between them

`nevergrad/parametrization/mutation.py`: `Mutation` (20-45), `DataMutation` (48-64) and
`MutationChoice` (67-95); the layers they use (`_layering.py` 47-108, 114-122) and the two methods of a
parameter that call them (`core.py` 123-130, 146-160).

Not modelled: what the operators do to the value (C49 and others), the random generator.
-/

namespace NG.MutChoice

/-- What a layer is for the calls: the parameter itself, a choice between mutations, or another
layer. Used in `Layer` (_layering.py 33-45). -/
inductive Kind
  | root
  | choice
  | plain
deriving DecidableEq

/-- A layer (`_layering.py` 33-45): its level, and whether its class has its own `_layered_mutate` and
`_layered_recombine`. -/
structure Layer where
  uid : Nat
  level : Nat
  kind : Kind
  mutates : Bool
  recombines : Bool
deriving DecidableEq

/-- `Level.OPERATION` (`_layering.py` 26). -/
def operation : Nat := 10

/-- `bisect.bisect_right(levels, level)` (`_layering.py` 60) in a sorted list: the number of levels before
the first larger one. -/
def bisectRight (layers : List Layer) (level : Nat) : Nat :=
  (layers.takeWhile fun l => decide (l.level ≤ level)).length

/-- `add_layer` (`_layering.py` 47-66), without the refusals. -/
def addLayer (layers : List Layer) (o : Layer) : List Layer :=
  match layers.getLast? with
  | some l =>
    if l.level ≤ o.level then layers ++ [o]
    else layers.take (bisectRight layers o.level) ++ o :: layers.drop (bisectRight layers o.level)
  | none => [o]

/-- `Layered.copy` of a root (`_layering.py` 114-122): the copies of the other layers are added one by one
to the copy of the root. -/
def copyLayers : List Layer → List Layer
  | [] => []
  | r :: l => l.foldl addLayer [r]

/-- `MutationChoice._on_layer_added` (mutation.py 78-83): the mutations of the list are added to the root
themselves and not as copies; the second refusal of `add_layer` (`_layering.py` 53-54) is `none`:
`attached` are the mutations that already belong to a parameter. -/
def addMutations : List Nat → List Layer → List Layer → Option (List Nat × List Layer)
  | attached, layers, [] => some (attached, layers)
  | attached, layers, m :: l =>
    if m.uid ∈ attached then none else addMutations (m.uid :: attached) (addLayer layers m) l

/-- `Mutation.__call__` (mutation.py 41-45) of a `MutationChoice`: a copy of the choice `c` is added to
the copy of the parameter, then the mutations are. -/
def apply (attached : List Nat) (layers : List Layer) (c : Layer) (muts : List Layer) :
    Option (List Nat × List Layer) :=
  addMutations attached (addLayer (copyLayers layers) c) muts

/-- The position of the last layer with this uid: the dictionary of `_select` (mutation.py 85-89) keeps the
last one. -/
def find (uid : Nat) : List Layer → Option Nat
  | [] => none
  | l :: ls => match find uid ls with
    | some i => some (i + 1)
    | none => if l.uid = uid then some 0 else none

/-- `_select` (mutation.py 85-89): `none` stands for `"#ROOT#"`. -/
def select (layers : List Layer) (chosen : Option Nat) : Option Nat :=
  match chosen with
  | none => some 0
  | some u => find u layers

/-- A call of `_layered_mutate` or `_layered_recombine` on the layer at position `i`: `has` says whether the
class of a layer has its own version of it. A layer without one goes to the deeper ones
(`_call_deeper`, `_layering.py` 71-90); a choice calls the selected layer (mutation.py 91-95). The result is
the position of the layer that does the work; `none` when the steps run out. -/
def exec (has : Layer → Bool) (layers : List Layer) (chosen : Option Nat) : Nat → Nat → Option Nat
  | 0, _ => none
  | steps + 1, i =>
    match layers[i]? with
    | none => none
    | some l =>
      if has l then
        if l.kind = Kind.choice then
          match select layers chosen with
          | some j => exec has layers chosen steps j
          | none => none
        else some i
      else if i = 0 then none
      else exec has layers chosen steps (i - 1)

/-- `mutate` and `recombine` of the parameter (`core.py` 127, 160) start with the last layer. -/
def call (has : Layer → Bool) (layers : List Layer) (chosen : Option Nat) (steps : Nat) :
    Option Nat :=
  exec has layers chosen steps (layers.length - 1)

/-! ## The sub-parameters -/

/-- What is given as a sub-parameter of a mutation: a parameter (an object of the heap) or a plain value. Used in `register` (mutation.py 59-64). -/
inductive Given
  | obj (address : Nat)
  | val (v : Int)
deriving DecidableEq

/-- `DataMutation._on_layer_added` (mutation.py 59-64): names already in use keep their parameter;
`as_parameter` (core.py 532-540) keeps the object itself when it is a parameter. -/
def register (params : List (String × Given)) : List (String × Given) → List (String × Given)
  | [] => params
  | (n, g) :: l =>
    register (if params.any (fun p => p.1 = n) then params else params ++ [(n, g)]) l

/-- The value found under a name. Built on `find` (mutation.py 85-89). -/
def lookup (params : List (String × Given)) (n : String) : Option Given :=
  (params.find? fun p => p.1 = n).map Prod.snd

end NG.MutChoice
