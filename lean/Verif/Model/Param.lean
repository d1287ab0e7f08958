import Mathlib.Order.Basic
import Mathlib.Data.List.Basic

/-!
# Parameter objects: freezing, copies, lineage

Sources: nevergrad/parametrization/core.py 48-77, 123-160, 197-232, 384-467, 471-529, container.py 105-111,
data.py 159-165, 327-341, utils.py 209-266.

Parameters are mutable objects holding other parameters. A parameter is a tree of objects; every object has an address,
and an object reachable from several trees occurs in all of them with its address. A write to an object is a write to all
the occurrences of its address. The array held by an object (`_value`) has an address of its own, since arrays are
mutable too. Value layers, random states and the parameters' names are left out.
-/

namespace NG
namespace Param

/-- `Constant`, `Data` or `Container`. Used in `Info` (core.py 48-77). -/
inductive Kind
  | constant
  | data
  | container
  deriving DecidableEq

/-- Fields of an object (core.py 48-77). `arr` is the address of the object `_value` and `val` its content (meaningless
for containers); `lineage` is `heritage["lineage"]`; `loss` tells whether a loss is recorded. -/
structure Info (V : Type) where
  addr : Nat
  kind : Kind
  uid : Nat
  frozen : Bool
  gen : Nat
  parents : List Nat
  lineage : Nat
  loss : Bool
  arr : Nat
  val : V
  deriving DecidableEq

/-- An object and its sub-parameters (`_subobjects`), in the order of its dictionary. For a `Data` these are the
internal parameters such as sigma (in the container `parameters`), for a container its content. Used in `isLocked` (core.py 457-467). -/
inductive PT (V : Type) where
  | mk (i : Info V) (subs : List (PT V))

variable {V : Type}

/-- Fields of the object itself. Built on `Info` (core.py 48-77). -/
def PT.info : PT V → Info V
  | .mk i _ => i

/-- Sub-parameters. Built on `PT` (core.py 457-467). -/
def PT.subs : PT V → List (PT V)
  | .mk _ s => s

mutual
/-- All objects of a tree. Built on `Info` (core.py 48-77). -/
def infos : PT V → List (Info V)
  | .mk i s => i :: infosL s
/-- All objects of several trees. Built on `Info` (core.py 48-77). -/
def infosL : List (PT V) → List (Info V)
  | [] => []
  | t :: ts => infos t ++ infosL ts
end

mutual
/-- Write to the objects of a tree. Built on `Info` (core.py 48-77). -/
def mapI (f : Info V → Info V) : PT V → PT V
  | .mk i s => .mk (f i) (mapIL f s)
/-- Write to the objects of several trees. Built on `Info` (core.py 48-77). -/
def mapIL (f : Info V → Info V) : List (PT V) → List (PT V)
  | [] => []
  | t :: ts => mapI f t :: mapIL f ts
end

mutual
/-- The object at an address, with what it holds. Built on `PT` (core.py 457-467). -/
def find (a : Nat) : PT V → Option (PT V)
  | .mk i s => if i.addr = a then some (.mk i s) else findL a s
/-- Same, in several trees. Built on `PT` (core.py 457-467). -/
def findL (a : Nat) : List (PT V) → Option (PT V)
  | [] => none
  | t :: ts => match find a t with
    | some r => some r
    | none => findL a ts
end

/-- `_check_frozen` (core.py 457-467): raises (`true`) iff some object of the tree is frozen and not a constant. -/
def isLocked (t : PT V) : Bool := (infos t).any (fun i => i.frozen && i.kind != .constant)

mutual
/-- `copy` (core.py 408-439, data.py 327-330): `n` is the supply of addresses and uids. The object is copied with all its
attributes (`copy.copy`, _layering.py 116) and then gets its own uid, is unfrozen and has no loss; the array of a `Data`
is copied, that of a constant is not; the sub-parameters are copied. -/
def copyT : PT V → Nat → PT V × Nat
  | .mk i s, n =>
    let r := copyL s (n + 1)
    (.mk { i with
           addr := n
           uid := n
           frozen := false
           loss := false
           arr := if i.kind = .data then n else i.arr } r.1, r.2)
/-- The sub-parameters (core.py 436-437). -/
def copyL : List (PT V) → Nat → List (PT V) × Nat
  | [], n => ([], n)
  | t :: ts, n =>
    let r := copyT t n
    let rs := copyL ts r.2
    (r.1 :: rs.1, rs.2)
end

mutual
/-- `self._set_parenthood(parent)` with a parent (core.py 447-450): sub-parameters are given the corresponding
sub-parameter of the parent (utils.py 249-266). Keys of `self` and `parent` are the same and in the same order, since it
is called on a copy. -/
def setParent : PT V → PT V → PT V
  | .mk i s, .mk p ps => .mk { i with gen := p.gen + 1, parents := [p.uid] } (setParentL s ps)
/-- Sub-parameters. Used in `setParent` (core.py 447-450). -/
def setParentL : List (PT V) → List (PT V) → List (PT V)
  | t :: ts, p :: ps => setParent t p :: setParentL ts ps
  | ts, _ => ts
end

/-- `_set_parenthood(None)` for one object (core.py 443-446). -/
def orphan (i : Info V) : Info V := { i with gen := 0, lineage := i.uid, parents := [] }

/-- `spawn_child()` without new value (core.py 384-406, 520-523). -/
def spawnT (t : PT V) (n : Nat) : PT V × Nat :=
  if t.info.kind = .constant then (t, n)
  else
    let r := copyT t n
    (setParent r.1 t, r.2)

/-- `mutate` or `set_standardized_data` on an unlocked tree (core.py 123-130, 217-224, data.py 300-306): the arrays of
the data objects are replaced by new arrays with contents given by `g`; other objects keep theirs. `n` is above all
addresses in use. -/
def mutI (g : Info V → V) (n : Nat) (i : Info V) : Info V :=
  if i.kind = .data then { i with val := g i, arr := n + i.addr } else i

mutual
/-- `_layered_sample` (core.py 512-513, container.py 105-108, data.py 159-165) followed by `_set_parenthood(None)` (core.py
143). A constant is returned itself; a container spawns a child and replaces its content by samples; a data object
spawns a child and mutates it (`g`). Values drawn inside the bounds (_datalayers.py 114-126) are also covered by `g`. -/
def sampleT (g : Info V → V) : PT V → Nat → PT V × Nat
  | .mk i s, n =>
    match i.kind with
    | .constant => (mapI orphan (.mk i s), n)
    | .data =>
      let r := spawnT (.mk i s) n
      (mapI orphan (mapI (mutI g r.2) r.1), 2 * r.2)
    | .container =>
      let r := spawnT (.mk i s) n
      let c := sampleL g s r.2
      (mapI orphan (.mk r.1.info c.1), c.2)
/-- Samples of the entries. Used in `sampleT` (core.py 512-513). -/
def sampleL (g : Info V → V) : List (PT V) → Nat → List (PT V) × Nat
  | [], n => ([], n)
  | t :: ts, n =>
    let r := sampleT g t n
    let rs := sampleL g ts r.2
    (r.1 :: rs.1, rs.2)
end

/-- Trees the user holds, and a number above all addresses, uids and array addresses in use. Used in `poke` (data.py 340-341). -/
structure World (V : Type) where
  next : Nat
  roots : List (PT V)

/-- Write to all the occurrences of the objects selected by `S`. Built on `Info` (core.py 48-77). -/
def World.write (w : World V) (S : Nat → Bool) (f : Info V → Info V) : World V :=
  { w with roots := mapIL (fun i => if S i.addr then f i else i) w.roots }

/-- Addresses of the objects of a tree. Used in `step` (core.py 512-513). -/
def addrs (t : PT V) : List Nat := (infos t).map (·.addr)

/-- Operations of the public API on the object at address `a`. Used in `step` (core.py 512-513). -/
inductive Op (V : Type) where
  /-- `freeze()`, also called by `ask` and `tell` -/
  | freeze (a : Nat)
  /-- `value = v` on a `Data` or a constant; `arr` is the address of the array the caller gives. Assigning to a container
  assigns to its entries one after the other (container.py 156-157, 205-206): a sequence of such operations. -/
  | assign (a : Nat) (v : V) (arr : Nat)
  /-- `set_standardized_data`, `mutate` or `recombine` with others, all starting with `_check_frozen` -/
  | modify (a : Nat) (g : Info V → V)
  | copy (a : Nat)
  | spawn (a : Nat)
  | sample (a : Nat) (g : Info V → V)
  /-- recording a loss, by `tell` -/
  | tell (a : Nat)

/-- The object an operation is called on. Used in `step` (core.py 512-513). -/
def Op.target : Op V → Nat
  | .freeze a | .assign a _ _ | .modify a _ | .copy a | .spawn a | .sample a _ | .tell a => a

variable [DecidableEq V]

/-- One call; the boolean tells whether it raised. Calls on unknown addresses do nothing. Built on `sampleT` (core.py 512-513). -/
def step (w : World V) (op : Op V) : World V × Bool :=
  match findL op.target w.roots with
  | none => (w, false)
  | some t =>
    match op with
    | .freeze _ => (w.write (fun b => (addrs t).contains b) (fun i => { i with frozen := true }), false)
    | .assign a v arr =>
      match t.info.kind with
      | .constant => (w, decide (t.info.val ≠ v))
      | .container => (w, false)
      | .data =>
        if isLocked t then (w, true)
        else
          let w' := w.write (fun b => b == a) (fun i => { i with val := v, arr := arr })
          ({ w' with next := max w.next (arr + 1) }, false)
    | .modify _ g =>
      if isLocked t then (w, true)
      else
        let w' := w.write (fun b => (addrs t).contains b) (mutI g w.next)
        ({ w' with next := 2 * w.next }, false)
    | .copy _ => let r := copyT t w.next; ({ next := r.2, roots := w.roots ++ [r.1] }, false)
    | .spawn _ => let r := spawnT t w.next; ({ next := r.2, roots := w.roots ++ [r.1] }, false)
    | .sample _ g =>
      let r := sampleT g t w.next
      -- constants of the tree are shared with the sample, and orphaned in place
      let w' := w.write (fun b => (addrs r.1).contains b) orphan
      ({ next := r.2, roots := w'.roots ++ [r.1] }, false)
    | .tell a => (w.write (fun b => b == a) (fun i => { i with loss := true }), false)

/-- A sequence of calls, exceptions being caught. Built on `step` (core.py 512-513). -/
def run (w : World V) (ops : List (Op V)) : World V := ops.foldl (fun w op => (step w op).1) w

/-- In-place modification of an array by someone holding a reference to it: `param.value` returns the internal array
itself (data.py 340-341) and `value = v` stores the given array itself (data.py 338). -/
def poke (w : World V) (arr : Nat) (v : V) : World V :=
  { w with roots := mapIL (fun i => if i.arr = arr ∧ i.kind ≠ .container then { i with val := v } else i) w.roots }

/-- A data parameter with a caching layer on top (`Int`, _layering.py 269-288, or `SoftmaxSampling`, _datalayers.py
282-310). -/
structure Cached (W I : Type) where
  root : W
  cache : Option I
  frozen : Bool

variable {W I : Type}

/-- Reading: the cache, or a draw which is then cached. Built on `Cached` (_layering.py 269-288). -/
def cachedGet (draw : W → I) (p : Cached W I) : I × Cached W I :=
  match p.cache with
  | some v => (v, p)
  | none => (draw p.root, { p with cache := some (draw p.root) })

/-- `indices.value = v` with `SoftmaxSampling`: `ValueProperty.__set__` clears the caches (_layering.py 188-190), the layer
stores the value (_datalayers.py 306) and the root checks that it is not frozen (data.py 333). -/
def softSet (enc : I → W) (v : I) (p : Cached W I) : Cached W I × Bool :=
  let p := { p with cache := some v }
  if p.frozen then (p, true) else ({ p with root := enc v }, false)

/-- `value = v` with `Int`, which does not override the setter: the caches are cleared, then the root checks. Built on `Cached` (_layering.py 269-288). -/
def intSet (cast : I → W) (v : I) (p : Cached W I) : Cached W I × Bool :=
  let p := { p with cache := none }
  if p.frozen then (p, true) else ({ p with root := cast v }, false)

end Param
end NG
