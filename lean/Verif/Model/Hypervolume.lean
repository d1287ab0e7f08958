import Mathlib.Algebra.Order.Field.Basic
import Mathlib.Data.List.Sort

/-!
# Hypervolume indicator (nevergrad/optimization/multiobjective/hypervolume.py)

Nodes (`VectorNode`) are natural numbers, `c n k` is coordinate `k` of node `n` after the reference point was
subtracted. The doubly linked list of index `k` always threads the nodes that are present in the order of
`sort_by_index`; `pop` and `reinsert` are used in a last-in first-out way on all lists of index below `dimension`
(lines 256, 291), so the lists are represented by the fixed sorted order `ord k` restricted to the present nodes `P`;
the references themselves are in `Model/LinkedHv` and the equivalence is `Links.compute_refines`.
The sentinel has zero areas and volumes; its coordinates are never read.
-/

namespace NG
namespace Hv
variable {α : Type} [LinearOrder α] [Field α]

/-- Mutable data of the nodes and the `reference_bounds` (hypervolume.py 39-41, 190); bound `none` is `-inf`. -/
structure Mem (α : Type) where
  area : Nat → Nat → α
  volume : Nat → Nat → α
  flag : Nat → Nat
  bounds : Nat → Option α

/-- Fresh nodes (hypervolume.py 39-41, 201). -/
def Mem.init : Mem α := ⟨fun _ _ => 0, fun _ _ => 0, fun _ => 0, fun _ => none⟩

/-- Assignment `f[n][k] = v`. Used in `skipDominated` (hypervolume.py 304-311). -/
def upd {β : Type} (f : Nat → Nat → β) (n k : Nat) (v : β) : Nat → Nat → β :=
  fun n' k' => if n' = n ∧ k' = k then v else f n' k'

/-- `x > bounds[i]`. Used in `popLoop` (hypervolume.py 244-260). -/
def gtBound (x : α) : Option α → Bool
  | none => true
  | some b => decide (b < x)

/-- `x >= bounds[i]`. Used in `popLoop` (hypervolume.py 244-260). -/
def geBound (x : α) : Option α → Bool
  | none => true
  | some b => decide (b ≤ x)

/-- `update_coordinate_bounds` (hypervolume.py 124-129): `-inf` bounds stay. -/
def updBounds (c : Nat → Nat → α) (b : Nat → Option α) (n dim : Nat) : Nat → Option α :=
  fun i => if i < dim then (b i).map (fun v => if c n i < v then c n i else v) else b i

/-- `configure_area` (hypervolume.py 50-52): the right-hand side is evaluated with the old areas, except `area[0]`. -/
def configure (c : Nat → Nat → α) (m : Mem α) (n dim : Nat) : Mem α :=
  { m with area := fun n' k' =>
      if n' = n then
        match k' with
        | 0 => 1
        | i + 1 => if i < dim then -((if i = 0 then 1 else m.area n i) * c n i) else m.area n (i + 1)
      else m.area n' k' }

/-- Area of a node or of the sentinel (`none`). Used in `skipDominated` (hypervolume.py 304-311). -/
def areaOf (m : Mem α) (prev : Option Nat) (dim : Nat) : α :=
  match prev with
  | none => 0
  | some p => m.area p dim

/-- Loop of `plane_hypervolume` (hypervolume.py 212-219) from node `prev` with height `h`. -/
def planeLoop (c : Nat → Nat → α) (prev : Nat) (h : α) (acc : α) : List Nat → α
  | [] => acc + h * c prev 1
  | y :: l => planeLoop c y (min h (c y 0)) (acc + h * (c prev 1 - c y 1)) l

/-- `plane_hypervolume` (hypervolume.py 206-220) on the nodes in the order of list 1. -/
def plane (c : Nat → Nat → α) : List Nat → α
  | [] => 0
  | x :: l => planeLoop c x (c x 0) 0 l

/-- Lines 244-260. The first argument is the list of index `dim` in reverse (the nodes not popped yet), `popped` are
the popped nodes in list order. `chain_length(dim - 1) > 1` holds iff two nodes remain. Returns the remaining
nodes (reversed, the head is `current_node`), the popped nodes, and the bounds. -/
def popLoop (c : Nat → Nat → α) (dim : Nat) : List Nat → List Nat → (Nat → Option α) →
    List Nat × List Nat × (Nat → Option α)
  | x :: y :: l, popped, b =>
    if gtBound (c x dim) (b dim) || geBound (c y dim) (b dim) then
      popLoop c dim (y :: l) (x :: popped) (updBounds c b x dim)
    else (x :: y :: l, popped, b)
  | l, popped, b => (l, popped, b)

/-- `skip_dominated_points` (hypervolume.py 304-311). `sub` is `recursive_hypervolume(dim - 1)` on the present nodes. -/
def skipDominated (sub : (Nat → Bool) → Mem α → α × Mem α) (dim : Nat) (P : Nat → Bool) (prev : Option Nat) (n : Nat)
    (m : Mem α) : Mem α :=
  if dim ≤ m.flag n then { m with area := upd m.area n dim (areaOf m prev dim) }
  else
    let r := sub P m
    let m := { r.2 with area := upd r.2.area n dim r.1 }
    if r.1 ≤ areaOf m prev dim then { m with flag := fun n' => if n' = n then dim else m.flag n' } else m

/-- Lines 278-297: the popped nodes are reinserted in order. Returns the hypervolume, the last node and the memory. -/
def insertLoop (c : Nat → Nat → α) (sub : (Nat → Bool) → Mem α → α × Mem α) (dim : Nat) :
    List Nat → (Nat → Bool) → Nat → α → Mem α → α × Nat × Mem α
  | [], _, prev, hv, m => (hv, prev, m)
  | n :: l, P, prev, hv, m =>
    let hv := hv + m.area prev dim * (c n dim - c prev dim)
    let b := updBounds c (fun i => if i = dim then some (c n dim) else m.bounds i) n dim
    let P := fun n' => P n' || n' == n
    let m := { m with bounds := b, volume := upd m.volume n dim hv }
    let m := skipDominated sub dim P (some prev) n m
    insertLoop c sub dim l P n hv m

/-- `recursive_hypervolume(dim)` for `dim >= 2` (hypervolume.py 222-302), `L` being the list of index `dim`. -/
def level (c : Nat → Nat → α) (sub : (Nat → Bool) → Mem α → α × Mem α) (dim : Nat) (L : List Nat) (m : Mem α) :
    α × Mem α :=
  if L.isEmpty then (0, m)
  else
    let m := { m with flag := fun n => if n ∈ L ∧ m.flag n < dim then 0 else m.flag n }
    let r := popLoop c dim L.reverse [] m.bounds
    let m := { m with bounds := r.2.2 }
    match r.1 with
    | [] => (0, m)
    | cur :: before =>
      let P : Nat → Bool := fun n => (cur :: before).contains n
      let (hv, m) := match before with
        | p :: _ => (m.volume p dim + m.area p dim * (c cur dim - c p dim), m)
        | [] => (0, configure c m cur dim)
      let m := { m with volume := upd m.volume cur dim hv }
      let m := skipDominated sub dim P before.head? cur m
      let r := insertLoop c sub dim r.2.1 P cur hv m
      (r.1 - r.2.2.area r.2.1 dim * c r.2.1 dim, r.2.2)

/-- `recursive_hypervolume` (hypervolume.py 222-302). For `dim = 0` python reads the list of index `-1`, which is list 0 as this
only happens with one objective. -/
def recursive (c : Nat → Nat → α) (ord : Nat → List Nat) : Nat → (Nat → Bool) → Mem α → α × Mem α
  | 0, P, m =>
    match (ord 0).filter P with
    | [] => (0, m)
    | x :: _ => (-(c x 0), m)
  | 1, P, m => (plane c ((ord 1).filter P), m)
  | k + 2, P, m => level c (recursive c ord (k + 1)) (k + 2) ((ord (k + 2)).filter P) m

/-- `sort_by_index` (hypervolume.py 92-96): stable sort by coordinate `k`. -/
def sortBy (c : Nat → Nat → α) (k : Nat) (l : List Nat) : List Nat :=
  l.insertionSort (fun a b => c a k ≤ c b k)

/-- `compute` (hypervolume.py 198-204) for `d >= 1` objectives; points with `d` coordinates given as functions. -/
def compute (d : Nat) (ref : Nat → α) (points : List (Nat → α)) : α :=
  let c : Nat → Nat → α := fun n k => (points[n]?.getD (fun _ => 0)) k - ref k
  (recursive c (fun k => sortBy c k (List.range points.length)) (d - 1) (fun _ => true) Mem.init).1

end Hv
end NG
