/-
The point sets of `nevergrad/common/sphere.py`: `normalize` (47-55), `pure_random` (71-72), `antithetic_pm` (75-82), `antithetic_order` (85-111),
`greedy_dispersion` (176-199), `dispersion` (202-234), `block_symmetry` (496-530), `covering` (533-558), `jittered` (593-622), `lhs` (633-646), the metrics
`metric_half` (702-710), `metric_riesz_avg` (750-757) and `metric_pack` (796-805), the random search `rs` (923-955), `get_a_point_set` (1233-1247) and
`quasi_randomize` (1253-1269).

Simplifications. Numbers are exact; the draws of the generator are arguments. A point is an array: its entries at all multi-indices. The clock is an argument:
the number of passes of the loops that run for a given time. The blur `convo` is an argument. The poolings of `max_pooling` are in `Pooling.lean`, the
descents of the Riesz energies and more metrics in `SphereMetric.lean`. Not modelled: the statistics and the plots, and the hash of the classes of `get_class` (569-590), which is an argument.
-/
import Mathlib.Analysis.Real.Sqrt
import Mathlib.Data.Nat.Sqrt

namespace NG.Sphere

/-- An array of numbers: its entry at each multi-index. Used in `norm` (sphere.py 49). -/
abbrev Pt := List Nat → ℝ

/-- `itertools.product(*[range(s) for s in shape])`: the multi-indices of an array, in the order of its entries (also 507-511, `enumerate(itertools.product(*ranges))`). -/
def indices : List Nat → List (List Nat)
  | [] => [[]]
  | s :: r => (List.range s).flatMap fun i => (indices r).map (i :: ·)

/-- `np.sqrt(np.sum(x ** 2.0))` (49) and `np.linalg.norm` (1241, 1256). -/
noncomputable def norm (shape : List Nat) (x : Pt) : ℝ := Real.sqrt (((indices shape).map fun i => x i ^ 2).sum)

/-- `normalize` for one point (47-55): divided by its norm, or drawn again (once) if it is zero. -/
noncomputable def unit (shape : List Nat) (again x : Pt) : Pt :=
  if 0 < norm shape x then fun i => x i / norm shape x else fun i => again i / norm shape again

/-- `normalize` (47-55); `again` holds the draws for the points that are zero. -/
noncomputable def normalize (shape : List Nat) (again : Nat → Pt) (l : List Pt) : List Pt := l.mapIdx fun i x => unit shape (again i) x

/-- `pure_random` (71-72). -/
noncomputable def pureRandom (shape : List Nat) (n : Nat) (draw again : Nat → Pt) : List Pt := normalize shape again ((List.range n).map draw)

/-- `antithetic_pm` (75-82): half of the points, their opposites, and one more point, as drawn, if `n` is odd. -/
noncomputable def antitheticPm (shape : List Nat) (n : Nat) (draw again : Nat → Pt) : List Pt :=
  let m := n / 2
  let x := normalize shape again ((List.range m).map draw)
  let x := x ++ x.map fun p i => -p i
  if x.length < n then x ++ [draw m] else x

/-- `itertools.permutations(l)` (92), for the `k` entries of `l`. -/
def perms : Nat → List Nat → List (List Nat)
  | 0, _ => [[]]
  | k + 1, l => l.flatMap fun a => (perms k (l.erase a)).map (a :: ·)

/-- `itertools.product((False, True), repeat=s)` (98, 505). -/
def signs : Nat → List (List Bool)
  | 0 => [[]]
  | s + 1 => [false, true].flatMap fun b => (signs s).map (b :: ·)

/-- `copy.deepcopy(icx)[tuple(indices)]` with the permutation at `axis` (94-95). -/
def permute (axis : Nat) (p : List Nat) (x : Pt) : Pt := fun i => x (i.set axis (p[i[axis]?.getD 0]?.getD 0))

/-- The entries of a list of booleans that are true (103, `[i for i, o in enumerate(ordering) if o]`). -/
def trues (o : List Bool) : List Nat := (List.range o.length).filter fun i => o[i]?.getD false

/-- `scx[tuple(indices_sym)] = -scx[tuple(indices_sym)]` for the slices of `ordering` along the axis (102-105). -/
def flip (axis : Nat) (o : List Bool) (x : Pt) : Pt :=
  (trues o).foldl (fun y j i => if i[axis]?.getD 0 = j then -y i else y i) x

/-- `x = x + [cx]` under `len(x) < n` (93-96, 101-106). -/
def push (n : Nat) (x : List Pt) (p : Pt) : List Pt := if x.length < n then x ++ [p] else x

/-- The points made of one draw (91-106): for each permutation along the axis the permuted point and, with `also_sym`, the points with the signs of some slices
changed, in the order of `shuffle`. -/
def orderBatch (axis s : Nat) (alsoSym : Bool) (shuffle : List Nat → List (List Bool) → List (List Bool)) (icx : Pt) : List Pt :=
  (perms s (List.range s)).flatMap fun p =>
    let cx := permute axis p icx
    cx :: if alsoSym then ((shuffle p (signs s)).filter fun o => o.any id).map fun o => flip axis o cx else []

/-- The loop of `antithetic_order` (90-106): one batch per draw until there are `n` points; at most `n` batches are needed. -/
def orderLoop (n : Nat) (batch : Nat → List Pt) : Nat → Nat → List Pt → List Pt
  | 0, _, x => x
  | fuel + 1, k, x => if x.length < n then orderLoop n batch fuel (k + 1) ((batch k).foldl (push n) x) else x

/-- `antithetic_order` (85-107) and `antithetic_order_and_sign` (110-111); `axis` is counted from the start (`-1` is the last one). -/
noncomputable def antitheticOrder (shape : List Nat) (n axis : Nat) (alsoSym : Bool) (draw again : Nat → Pt)
    (shuffle : Nat → List Nat → List (List Bool) → List (List Bool)) : List Pt :=
  orderLoop n (fun k => orderBatch axis (shape[axis]?.getD 0) alsoSym (shuffle k) (unit shape (again k) (draw k))) n 0 []

/-- The bounds of block `p` of an axis (518-519). -/
def blockBounds (size blocks p : Nat) : Nat × Nat := (p * size / blocks, min ((p + 1) * size / blocks) size)

/-- Whether a multi-index is in the slices of a block (514-523). -/
def inBlock (shape blocks block i : List Nat) : Bool :=
  (List.range block.length).all fun c =>
    let ab := blockBounds (shape[c]?.getD 0) (blocks[c]?.getD 0) (block[c]?.getD 0)
    ab.1 ≤ i[c]?.getD 0 && i[c]?.getD 0 < ab.2

/-- `tentativex` (510-523): the signs of the blocks of `o` changed; an `IndexError` if a block has more axes than the array (515-518). -/
def tentative (shape blocks : List Nat) (o : List Bool) (x : Pt) : Option Pt :=
  (List.range (indices blocks).length).foldl
    (fun y b => if o[b]?.getD false then
        if shape.length < blocks.length then none
        else y.map fun y i => if inBlock shape blocks ((indices blocks)[b]?.getD []) i then -y i else y i
      else y)
    (some x)

/-- The loops of `block_symmetry` (500-526): `.inl` is the returned value, `.inr` the points when the loops end. -/
def blockLoop (n : Nat) : List (Option Pt) → List Pt → Option (List Pt ⊕ List Pt)
  | [], x => some (.inr x)
  | t :: ts, x =>
    match t with
    | none => none
    | some t => if n ≤ x.length then some (.inl x) else blockLoop n ts (x ++ [t])

/-- `block_symmetry` (496-526) and `big_block_symmetry` (529-530): each draw with the signs of its blocks changed in all ways. `none` is an error, or the value
`None` that is returned when the loops end. -/
noncomputable def blockSymmetry (shape : List Nat) (n : Nat) (blocks : List Nat) (draw again : Nat → Pt) (shuffle : Nat → List (List Bool) → List (List Bool)) :
    Option (List Pt) :=
  let padded := blocks ++ List.replicate (shape.length - blocks.length) 1
  let tries := (List.range n).flatMap fun k =>
    (shuffle k (signs blocks.prod)).map fun o => tentative shape padded o (unit shape (again k) (draw k))
  match blockLoop n tries [] with
  | some (.inl x) => some x
  | _ => none

/-- `lhs` (633-646) before `normalize`: at each entry the points share the `n` strata, in a shuffled order, and are mapped by `scipy.stats.norm.ppf`. -/
noncomputable def lhsRaw (n : Nat) (ppf : ℝ → ℝ) (u : List Nat → Nat → ℝ) (strata : List Nat → List Nat) : List Pt :=
  (List.range n).map fun k i => ppf (1 / (n : ℝ) * u i k + ((strata i)[k]?.getD 0 : ℕ) / (n : ℝ))

/-- `lhs` (633-646). -/
noncomputable def lhs (shape : List Nat) (n : Nat) (ppf : ℝ → ℝ) (u : List Nat → Nat → ℝ) (strata : List Nat → List Nat) (again : Nat → Pt) : List Pt :=
  normalize shape again (lhsRaw n ppf u strata)

/-- `get_a_point_set` (1233-1247): the points of a method, with the assertion on their norms. -/
noncomputable def pointSet (shape : List Nat) (points : Option (List Pt)) : Option (List Pt) :=
  points.bind fun x => open Classical in if ∀ p ∈ x, 0.999 < norm shape p ∧ norm shape p < 1.001 then some x else none

/-- The method of `quasi_randomize` (1257-1258). -/
def methodOf (shape : List Nat) (method : Option String) : String :=
  match method with
  | none => if 1 < shape.length && 1 < shape[0]?.getD 0 then "dispersion_with_big_conv" else "covering"
  | some m => if m = "none" then (if 1 < shape.length && 1 < shape[0]?.getD 0 then "dispersion_with_big_conv" else "covering") else m

/-- `quasi_randomize` (1253-1269): the points of the method, with the norms of the given points. -/
noncomputable def quasiRandomize (shape : List Nat) (methods : String → Nat → Option (List Pt)) (again : Nat → Pt) (method : Option String) (points : List Pt) :
    Option (List Pt) :=
  if points.length = 0 then none
  else do
    let x ← pointSet shape (methods (methodOf shape method) points.length)
    if x.length < points.length then none
    else some ((normalize shape again x).mapIdx fun i p => if i < points.length then fun j => norm shape (points[i]?.getD fun _ => 0) * p j else p)

/-! ### Searches -/

section
variable {β R : Type} [LinearOrder R]

/-- `min` of a list, an error on an empty one (190, 218). -/
def minimum : List R → Option R
  | [] => none
  | a :: l => some (l.foldl min a)

/-- `max` of a list, an error on an empty one (805). -/
def maximum : List R → Option R
  | [] => none
  | a :: l => some (l.foldl max a)

/-- `dist.index(max(dist))` (195-197, 225-227): the first entry with the largest value. -/
def bestOf (score : β → R) : List β → Option β
  | [] => none
  | a :: l => some (l.foldl (fun b c => if score b < score c then c else b) a)

/-- The distance to the nearest of the points (190). -/
def nearest (dist : β → β → R) (x : List β) (y : β) : Option R := minimum (x.map (dist y))

/-- One more point of `greedy_dispersion` (179-198): `rounds` are the batches of draws; the best of a batch replaces the one of the batch before, whatever its
distance. `last` is the value of `newy`; without a round it is the previous one, or unbound. -/
def greedyPoint (dist : β → β → R) (x : List β) (rounds : List (List β)) (last : Option β) : Option β :=
  rounds.foldl (fun newy batch =>
    match (batch.mapM fun y => (nearest dist x y).map fun d => (y, d)) with
    | none => newy
    | some r => (bestOf (fun e : β × R => e.2) r).map Prod.fst) last

/-- `greedy_dispersion` (176-199): `rounds` are the batches of each new point. -/
def greedyLoop (dist : β → β → R) : List (List (List β)) → Option β → List β → Option (List β)
  | [], _, x => some x
  | rounds :: rest, last, x =>
    match greedyPoint dist x rounds last with
    | none => none
    | some y => greedyLoop dist rest (some y) (x ++ [y])

/-- The distance of a point to the points at other indices than `j` (218): an error if there are none. -/
def nearestOther (dist : β → β → R) (x : List β) (j : Nat) (y : β) : Option R := minimum ((x.eraseIdx j).map (dist y))

/-- One replacement of `dispersion` (210-227): the best of the present point and the new draws. -/
def disperseStep (dist : β → β → R) (x : List β) (j : Nat) (draws : List β) : Option (List β) :=
  match x[j]? with
  | none => some x
  | some xj =>
    match ((xj :: draws).mapM fun y => (nearestOther dist x j y).map fun d => (y, d)) with
    | none => none
    | some r => (bestOf (fun e : β × R => e.2) r).map fun e => x.set j e.1

/-- The loops of `dispersion` (202-234): the replaced indices, and the draws of each replacement. -/
def disperse (dist : β → β → R) : List (Nat × List β) → List β → Option (List β)
  | [], x => some x
  | (j, draws) :: rest, x =>
    match disperseStep dist x j draws with
    | none => none
    | some y => disperse dist rest y

end

/-- The nearest point to a target (544-549): the first one with the smallest distance. -/
def nearestIndex {R : Type} [LinearOrder R] (d : Nat → R) : Nat → Option Nat
  | 0 => none
  | k + 1 =>
    match nearestIndex d k with
    | none => some k
    | some i => if d k < d i then some k else some i

/-- The move of the nearest point (556): a step of `rate` towards the target, then back to the sphere. -/
noncomputable def coverMove (shape : List Nat) (again : Pt) (rate : ℝ) (t x : Pt) : Pt := unit shape again fun i => x i + rate * (t i - x i)

/-- One pass of `covering` (540-556) without a blur. -/
noncomputable def coverStep (shape : List Nat) (again : Pt) (rate : ℝ) (t : Pt) (x : List Pt) : List Pt :=
  match nearestIndex (fun k => norm shape fun i => t i - (x[k]?.getD fun _ => 0) i) x.length with
  | none => x
  | some k => x.set k (coverMove shape again rate t (x[k]?.getD fun _ => 0))

/-! ### Jittered sampling -/

section
variable {β : Type}

/-- `hash_to_set[c] += [x]` (599, 609) for a `defaultdict(list)`. -/
def addTo (d : List (Nat × List β)) (c : Nat) (x : β) : List (Nat × List β) :=
  if d.any (fun e => e.1 == c) then d.map fun e => if e.1 = c then (e.1, e.2 ++ [x]) else e else d ++ [(c, [x])]

/-- The first draws (597-599). -/
def firstDraws (cls : β → Nat) (draws : Nat → β) (m : Nat) : List (Nat × List β) :=
  (List.range m).foldl (fun d i => addTo d (cls (draws i)) (draws i)) []

/-- The loop that waits for classes that are large enough (600-611), with at most `fuel` passes: `none` when it has not ended. `minNum` is not reset between the
passes. The value `.inr` stands for the `ZeroDivisionError` without classes. -/
def waitLoop (n : Nat) (cls : β → Nat) (draws : Nat → β) : Nat → Nat → Nat → List (Nat × List β) → Option (Option (List (Nat × List β)))
  | 0, _, _, _ => none
  | fuel + 1, next, minNum, d =>
    let minNum := d.foldl (fun m e => min m e.2.length) minNum
    if d.length = 0 then some none
    else if minNum * d.length < n then waitLoop n cls draws fuel (next + 1) minNum (addTo d (cls (draws next)) (draws next))
    else some (some d)

/-- One pass over the classes (615-619): `num` points of each class while there are less than `n` points. -/
def takePass (n num : Nat) : List (Nat × List β) → List β → List (Nat × List β) × List β
  | [], x => ([], x)
  | (c, l) :: r, x =>
    let x := if x.length < n then x ++ l.take num else x
    let y := takePass n num r x
    ((c, l.drop num) :: y.1, y.2)

/-- The passes (612-619), at most `fuel` of them. -/
def takeLoop (n : Nat) : Nat → List (Nat × List β) → List β → List β
  | 0, _, x => x
  | fuel + 1, d, x =>
    if x.length < n then
      let y := takePass n (max 1 ((n - x.length) / d.length)) d x
      takeLoop n fuel y.1 y.2
    else x

/-- `jittered` (593-622). The blocks are `None` by default, and the default is bound to another name (594-595): `get_class` then takes the length of `None`, a
`TypeError`. -/
def jittered (n : Nat) (blocks : Option (β → Nat)) (draws : Nat → β) (fuel : Nat) : Option (List β) :=
  match blocks with
  | none => none
  | some cls =>
    match waitLoop n cls draws fuel (Nat.sqrt n * n) 10000000 (firstDraws cls draws (Nat.sqrt n * n)) with
    | some (some d) =>
      let x := takeLoop n (n + 1) d []
      if x.length = n then some x else none
    | _ => none

end

/-! ### Metrics and random search -/

/-- `metric_half` (702-710): the mean squared distance to one half of the shares of points on one side of random planes. -/
noncomputable def metricHalf (shape : List Nat) (x : List Pt) (ys : List Pt) : ℝ :=
  (ys.map fun y =>
    (((x.filter fun p => open Classical in decide (0 < ((indices shape).map fun i => p i * y i).sum)).length : ℝ) / x.length - 0.5) ^ 2).sum / ys.length

/-- `metric_pack` (796-805) after the blur: the largest of the products of two points, those of a point by itself being replaced by zero. -/
noncomputable def metricPack (shape : List Nat) (x : List Pt) : Option ℝ :=
  maximum ((List.range x.length).flatMap fun i => (List.range x.length).map fun j =>
    if i = j then (0 : ℝ) else ((indices shape).map fun k => (x[i]?.getD fun _ => 0) k * (x[j]?.getD fun _ => 0) k).sum)

/-- `metric_riesz_avg` (750-757): the mean over the pairs; `none` is the `nan` that `np.average` gives without a pair. -/
noncomputable def metricRiesz (x : List Pt) (energy : Pt → Pt → ℝ) : Option ℝ :=
  let scores := (List.range x.length).flatMap fun i => (List.range i).map fun j => energy (x[i]?.getD fun _ => 0) (x[j]?.getD fun _ => 0)
  if scores.length = 0 then none else some (scores.sum / scores.length)

section
variable {β R : Type} [LinearOrder R]

/-- The state of `rs` (924, 930): the best metric (`none` is the infinity) and the best points. -/
abbrev Best (β R : Type) := Option (R × β)

/-- One pass of `rs` (932-954): a metric that is `nan` (`none`) is not less than anything. -/
def rsStep (metric : β → Option R) (b : Best β R) (x : β) : Best β R :=
  match metric x with
  | none => b
  | some m =>
    match b with
    | none => some (m, x)
    | some (m', x') => if m < m' then some (m, x) else some (m', x')

/-- `rs` (923-955): at least `passes` passes, and more until there are points, with at most `fuel` more passes; `none` when it has not ended. -/
def rs (metric : β → Option R) (tries : Nat → β) (passes fuel : Nat) : Option β :=
  let b := (List.range passes).foldl (fun b i => rsStep metric b (tries i)) none
  let rec more : Nat → Nat → Best β R → Option β
    | _, _, some (_, x) => some x
    | 0, _, none => none
    | f + 1, i, none => more f (i + 1) (rsStep metric none (tries i))
  more fuel passes b

end

end NG.Sphere
