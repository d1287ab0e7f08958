import Verif.Model.Hypervolume

/-!
# The linked lists of the hypervolume indicator (nevergrad/optimization/multiobjective/hypervolume.py)

`VectorNode` (16-70), `VectorLinkedList` (73-168) and `HypervolumeIndicator` (171-311) with the references `next` and `prev` of every node. The
sentinel is `none`, the node of point `n` is `some n`; `c n k` is its coordinate `k` after the reference point was subtracted. Loops
over a list stop after `N` steps (`N` at least the number of nodes); the coordinates of the sentinel are never used and are 0 here.
The other mutable data of the nodes are those of `Model/Hypervolume`.
-/

namespace NG
namespace Links
open Hv

/-- Nodes; `none` is the sentinel. Used in `chain` (hypervolume.py 150-168). -/
abbrev Node := Option Nat

/-- The references `next[i]` and `prev[i]` of each node. Used in `Refs.init` (hypervolume.py 37-38). -/
structure Refs where
  next : Nat → Node → Node
  prev : Nat → Node → Node

/-- Assignment `f[i]` of node `a` := `b`. Used in `append` (hypervolume.py 109-116). -/
def set (f : Nat → Node → Node) (i : Nat) (a b : Node) : Nat → Node → Node := fun j n => if j = i ∧ n = a then b else f j n

/-- New nodes refer to themselves (37-38). -/
def Refs.init : Refs := ⟨fun _ n => n, fun _ n => n⟩

/-- `append` (109-116). -/
def append (l : Refs) (n : Nat) (i : Nat) : Refs :=
  let last := l.prev i none
  { next := set (set l.next i (some n) none) i last (some n)
    prev := set (set l.prev i (some n) last) i none (some n) }

/-- `extend` (118-122). -/
def extend (l : Refs) (ns : List Nat) (i : Nat) : Refs := ns.foldl (fun l n => append l n i) l

/-- `VectorNode.pop` (62-70). -/
def popOne (l : Refs) (n : Nat) (i : Nat) : Refs :=
  { next := set l.next i (l.prev i (some n)) (l.next i (some n))
    prev := set l.prev i (l.next i (some n)) (l.prev i (some n)) }

/-- `pop` (131-137). -/
def pop (l : Refs) (n : Nat) (index : Nat) : Refs := (List.range index).foldl (fun l i => popOne l n i) l

/-- The body of `reinsert` (147-148). -/
def reinsertOne (l : Refs) (n : Nat) (i : Nat) : Refs :=
  let next := set l.next i (l.prev i (some n)) (some n)
  { next := next, prev := set l.prev i (next i (some n)) (some n) }

/-- `reinsert` (139-148). -/
def reinsert (l : Refs) (n : Nat) (index : Nat) : Refs := (List.range index).foldl (fun l i => reinsertOne l n i) l

/-- `iterate` and `reverse_iterate` (150-168) from a node, when the lists are not changed meanwhile. -/
def chain (f : Node → Node) : Nat → Node → List Nat
  | 0, _ => []
  | _ + 1, none => []
  | k + 1, some n => n :: chain f k (f (some n))

/-- `iterate(index)` (150-158). -/
def iterate (N : Nat) (l : Refs) (i : Nat) : List Nat := chain (l.next i) N (l.next i none)

/-- `reverse_iterate(index)` (160-168). -/
def reverseIterate (N : Nat) (l : Refs) (i : Nat) : List Nat := chain (l.prev i) N (l.prev i none)

/-- `chain_length` (105-107). -/
def chainLength (N : Nat) (l : Refs) (i : Nat) : Nat := (iterate N l i).length

/-- `create_sorted` (80-90) with nodes `0, 1, ..., n - 1`. -/
def createSorted {α : Type} [LinearOrder α] (c : Nat → Nat → α) (d n : Nat) : Refs :=
  (List.range d).foldl (fun l i => extend l (sortBy c i (List.range n)) i) Refs.init

variable {α : Type} [LinearOrder α] [Field α]

/-- A coordinate of a node. Used in `plane` (hypervolume.py 206-220). -/
def coord (c : Nat → Nat → α) (n : Node) (k : Nat) : α := n.elim 0 (fun n => c n k)

/-- A volume of a node; the sentinel has zeros (41). -/
def volumeOf (m : Mem α) (n : Node) (dim : Nat) : α := n.elim 0 (fun n => m.volume n dim)

/-- The loop of `plane_hypervolume` (212-217). -/
def planeLoop (c : Nat → Nat → α) (l : Refs) : Nat → Node → α → α → α × α
  | 0, _, h, hv => (h, hv)
  | _ + 1, none, h, hv => (h, hv)
  | k + 1, some n, h, hv =>
    match l.next 1 (some n) with
    | none => (h, hv)
    | some y => planeLoop c l k (l.next 1 (some n)) (min h (c y 0)) (hv + h * (c n 1 - c y 1))

/-- `plane_hypervolume` (206-220). -/
def plane (N : Nat) (c : Nat → Nat → α) (l : Refs) : α :=
  let r := planeLoop c l N (l.next 1 none) (coord c (l.next 1 none) 0) 0
  r.2 + r.1 * coord c (l.prev 1 none) 1

/-- Lines 7-12 of the algorithm (243-260): the node of the iteration, `current_node`, the references and the bounds. -/
def popLoop (N : Nat) (c : Nat → Nat → α) (dim : Nat) : Nat → Node → Node → Refs → (Nat → Option α) → Node × Refs × (Nat → Option α)
  | 0, _, cur, l, b => (cur, l, b)
  | _ + 1, none, cur, l, b => (cur, l, b)
  | k + 1, some x, _, l, b =>
    if 1 < chainLength N l (dim - 1) && (gtBound (c x dim) (b dim) || geBound (coord c (l.prev dim (some x)) dim) (b dim)) then
      let l' := pop l x dim
      popLoop N c dim k (l'.prev dim (some x)) (some x) l' (updBounds c b x dim)
    else (some x, l, b)

/-- `skip_dominated_points` (304-311). -/
def skipDominated (sub : Refs → Mem α → α × Refs × Mem α) (dim : Nat) (n : Nat) (l : Refs) (m : Mem α) : Refs × Mem α :=
  if dim ≤ m.flag n then (l, { m with area := upd m.area n dim (areaOf m (l.prev dim (some n)) dim) })
  else
    let r := sub l m
    let l := r.2.1
    let m := { r.2.2 with area := upd r.2.2.area n dim r.1 }
    if r.1 ≤ areaOf m (l.prev dim (some n)) dim then (l, { m with flag := fun n' => if n' = n then dim else m.flag n' }) else (l, m)

/-- Lines 17-26 of the algorithm (277-297): the node of the iteration, the hypervolume, the references and the memory. -/
def insertLoop (c : Nat → Nat → α) (sub : Refs → Mem α → α × Refs × Mem α) (dim : Nat) : Nat → Node → α → Refs → Mem α → α × Refs × Mem α
  | 0, _, hv, l, m => (hv, l, m)
  | _ + 1, none, hv, l, m => (hv, l, m)
  | k + 1, some n, hv, l, m =>
    let hv := hv + areaOf m (l.prev dim (some n)) dim * (c n dim - coord c (l.prev dim (some n)) dim)
    let b := updBounds c (fun i => if i = dim then some (c n dim) else m.bounds i) n dim
    let l := reinsert l n dim
    let m := { m with bounds := b, volume := upd m.volume n dim hv }
    let r := skipDominated sub dim n l m
    insertLoop c sub dim k (r.1.next dim (some n)) hv r.1 r.2

/-- `recursive_hypervolume(dim)` for `dim >= 2` (222-302). -/
def level (N : Nat) (c : Nat → Nat → α) (sub : Refs → Mem α → α × Refs × Mem α) (dim : Nat) (l : Refs) (m : Mem α) : α × Refs × Mem α :=
  if chainLength N l (dim - 1) = 0 then (0, l, m)
  else
    let m := (reverseIterate N l dim).foldl (fun m n => if m.flag n < dim then { m with flag := fun n' => if n' = n then 0 else m.flag n' } else m) m
    let r := popLoop N c dim N (l.prev dim none) (l.prev dim none) l m.bounds
    match r.1 with
    | none => (0, l, m)
    | some cur =>
      let l := r.2.1
      let m := { m with bounds := r.2.2 }
      let s : α × Mem α :=
        if 1 < chainLength N l (dim - 1) then
          (volumeOf m (l.prev dim (some cur)) dim +
            areaOf m (l.prev dim (some cur)) dim * (c cur dim - coord c (l.prev dim (some cur)) dim), m)
        else (0, configure c m cur dim)
      let m := { s.2 with volume := upd s.2.volume cur dim s.1 }
      let r := skipDominated sub dim cur l m
      let r := insertLoop c sub dim N (r.1.next dim (some cur)) s.1 r.1 r.2
      (r.1 - areaOf r.2.2 (r.2.1.prev dim none) dim * coord c (r.2.1.prev dim none) dim, r.2.1, r.2.2)

/-- `recursive_hypervolume` (222-302). For `dim = 0` (one objective only) python reads the list of index `-1`, which is list 0. -/
def recursive (N : Nat) (c : Nat → Nat → α) : Nat → Refs → Mem α → α × Refs × Mem α
  | 0, l, m => if chainLength N l 0 = 0 then (0, l, m) else (-(coord c (l.next 0 none) 0), l, m)
  | 1, l, m => if chainLength N l 0 = 0 then (0, l, m) else (plane N c l, l, m)
  | k + 2, l, m => level N c (recursive N c (k + 1)) (k + 2) l m

/-- `compute` (198-204) for `d >= 1` objectives: the hypervolume and the references at the end. -/
def compute (d : Nat) (ref : Nat → α) (points : List (Nat → α)) : α × Refs :=
  let c : Nat → Nat → α := fun n k => (points[n]?.getD (fun _ => 0)) k - ref k
  let r := recursive points.length c (d - 1) (createSorted c d points.length) Mem.init
  (r.1, r.2.1)

end Links
end NG
