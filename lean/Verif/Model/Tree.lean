import Mathlib.Algebra.Order.Field.Basic
import Mathlib.Data.List.Sort

/-!
# Standardized data of nested parametrizations

Sources: nevergrad/parametrization/core.py 162-232, 471-529, container.py 16-111, data.py 300-319, helpers.py 20-83.

A parametrization is a tree: constants, arrays (with their flattened `_value` and `sigma.value` broadcast to the same
size) without value layers, and containers. Keys of one container are comparable (all strings or all integers).
`set_standardized_data`/`get_standardized_data` only read `_value` and `sigma`.
-/

namespace NG

/-- `Constant`, `Data`, `Container` (an `Instrumentation` is a container of a tuple and a dict, keys 0 and 1). `sizes` is the cache `_sizes` (container.py 37),
`content` the dict `_content` in insertion order. -/
inductive Tree (K α : Type) where
  | const
  | leaf (value sigma : List α)
  | node (sizes : Option (List (K × Nat))) (content : List (K × Tree K α))

namespace Tree
variable {K α : Type} [LinearOrder K]

/-- Dictionary access. Used in `get` (core.py 187-190). -/
def lookup {β : Type} (l : List (K × β)) (k : K) : Option β := (l.find? (fun e => e.1 == k)).map (·.2)

/-- `sorted(d.items())` for distinct keys. Used in `get` (core.py 187-190). -/
def sortKeys {β : Type} (l : List (K × β)) : List (K × β) := l.insertionSort (fun a b => a.1 ≤ b.1)

mutual
/-- `dimension` (core.py 111-121, container.py 43-45, data.py 137-139). -/
def dim : Tree K α → Nat
  | .const => 0
  | .leaf v _ => v.length
  | .node _ c => dimL c
/-- Sum over the content. Used in `dim` (core.py 111-121). -/
def dimL : List (K × Tree K α) → Nat
  | [] => 0
  | e :: rest => dim e.2 + dimL rest
end

variable [Field α]

/-- `_to_reduced_space` (data.py 311-319): entrywise division by sigma. -/
def reduced (value sigma : List α) : List α := List.zipWith (· / ·) value sigma

/-- `Data._internal_get_standardized_data` (data.py 308-309). Arrays of different sizes are refused (numpy would
broadcast size 1). -/
def leafGet (refv refs v : List α) : Option (List α) :=
  if v.length = refv.length then some (reduced (List.zipWith (· - ·) v refv) refs) else none

/-- Numpy broadcasting of `data` against an array of `n` elements, followed by the reshape of data.py 303. -/
def broadcast (data : List α) (n : Nat) : Option (List α) :=
  if data.length = n then some data
  else match data with
    | [x] => some (List.replicate n x)
    | _ => none

/-- `Data._internal_set_standardized_data` (data.py 300-306): the new `_value`. -/
def leafSet (refv refs data : List α) : Option (List α) :=
  (broadcast data refv.length).map (fun d => List.zipWith (· * ·) refs (List.zipWith (· + ·) d (reduced refv refs)))

mutual
/-- `self.get_standardized_data(reference=ref)` (core.py 187-190, container.py 79-87, data.py 308-309, core.py 515-518);
`none` is an exception. Written by recursion on the reference, whose keys are enumerated (container.py 80). -/
def get : (ref self : Tree K α) → Option (List α)
  | .const, .const => some []
  | .leaf rv rs, .leaf v _ => leafGet rv rs v
  | .node _ rc, .node sizes c =>
    match getL rc c with
    | none => none
    | some data =>
      let sizes := sizes.getD (sortKeys (data.map (fun e => (e.1, e.2.length))))
      (sizes.mapM (fun e => lookup data e.1)).map List.flatten
  | _, _ => none
/-- The dictionary `data` of container.py 80. -/
def getL : (ref self : List (K × Tree K α)) → Option (List (K × List α))
  | [], _ => some []
  | e :: rest, c =>
    match lookup c e.1 with
    | none => none
    | some t =>
      match get e.2 t with
      | none => none
      | some d =>
        match getL rest c with
        | none => none
        | some ds => some ((e.1, d) :: ds)
end

/-- Sizes known to a container: the cache, or what `get_standardized_data(reference=self)` caches (container.py 82,
90-91). -/
def sizesOf (sizes : Option (List (K × Nat))) (c : List (K × Tree K α)) : Option (List (K × Nat)) :=
  match sizes with
  | some s => some s
  | none => (getL c c).map (fun data => sortKeys (data.map (fun e => (e.1, e.2.length))))

/-- The slice of `data` given to entry `k` (container.py 98-102). -/
def slice (sizes : List (K × Nat)) (data : List α) (k : K) : Option (List α) :=
  match sizes with
  | [] => none
  | e :: rest => if e.1 = k then some (data.take e.2) else slice rest (data.drop e.2) k

mutual
/-- `self.set_standardized_data(data, reference=ref)` (core.py 217-232, container.py 89-103, data.py 300-306), giving the
new parameter or `none` for an exception. The loop over `_sizes` touches the entries independently; it is written as
a recursion on the content of `self`. Keys in `_sizes` without entry in `self` or `ref` raise. -/
def set : (self ref : Tree K α) → List α → Option (Tree K α)
  | .const, .const, data => if data.isEmpty then some .const else none
  | .leaf _ s, .leaf rv rs, data => (leafSet rv rs data).map (fun v => .leaf v s)
  | .node sizes c, .node _ rc, data =>
    match sizesOf sizes c with
    | none => none
    | some sz =>
      if data.length ≠ (sz.map (·.2)).sum then none
      else if sz.all (fun e => (lookup c e.1).isSome && (lookup rc e.1).isSome) then
        match setL c rc sz data with
        | none => none
        | some c' => some (.node (some sz) c')
      else none
  | _, _, _ => none
/-- All entries. Entries missing in `_sizes` are left as they are. Used in `set` (core.py 217-232). -/
def setL : (self ref : List (K × Tree K α)) → List (K × Nat) → List α → Option (List (K × Tree K α))
  | [], _, _, _ => some []
  | e :: rest, rc, sz, data =>
    match slice sz data e.1 with
    | none => (setL rest rc sz data).map (fun l => e :: l)
    | some d =>
      match lookup rc e.1 with
      | none => none
      | some r =>
        match set e.2 r d with
        | none => none
        | some t => (setL rest rc sz data).map (fun l => (e.1, t) :: l)
end

mutual
/-- The caches filled by `self.get_standardized_data(reference=ref)` (container.py 81-82). -/
def warm : (ref self : Tree K α) → Tree K α
  | .node _ rc, .node sizes c =>
    .node (match sizes with
      | some s => some s
      | none => (getL rc c).map (fun data => sortKeys (data.map (fun e => (e.1, e.2.length))))) (warmL rc c)
  | _, t => t
/-- Entries of the content, visited in the order of the reference. Used in `warm` (container.py 81-82). -/
def warmL : (ref self : List (K × Tree K α)) → List (K × Tree K α)
  | [], c => c
  | e :: rest, c => warmL rest (c.map (fun x => if x.1 = e.1 then (x.1, warm e.2 x.2) else x))
end

/-- `container[key] = param` (container.py 60-65): the cache of this container is dropped, those of the containers
around it are not. -/
def setItem (t : Tree K α) (k : K) (v : Tree K α) : Tree K α :=
  match t with
  | .node _ c => .node none (if c.any (fun e => e.1 == k) then c.map (fun e => if e.1 = k then (k, v) else e) else c ++ [(k, v)])
  | t => t

mutual
/-- `list_data` (helpers.py 20-83): the arrays, containers being visited by sorted keys. For an
`Instrumentation` the content of the tuple then of the dict is visited directly (helpers.py 51-52), in the same order. -/
def leaves : Tree K α → List (List α × List α)
  | .const => []
  | .leaf v s => [(v, s)]
  | .node _ c => ((sortKeys (leavesL c)).map (·.2)).flatten
/-- Leaves of each entry. Used in `leaves` (helpers.py 20-83). -/
def leavesL : List (K × Tree K α) → List (K × List (List α × List α))
  | [] => []
  | e :: rest => (e.1, leaves e.2) :: leavesL rest
end

end Tree
end NG
