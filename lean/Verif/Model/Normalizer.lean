import Mathlib.Data.List.Basic
import Mathlib.Algebra.Order.Field.Basic

/-!
# Model of the normalizer and of deterministic sampling

`Normalizer`, `analyze` and `deterministic_sampling` (`parametrization/helpers.py`), with the layers of a parameter (`parametrization/_datalayers.py`).
Arrays are a shape and the flat list of their entries. `none` is an exception. Not modelled: arrays without dimension, `Modulo` layers and the random draws of integer castings.
-/

namespace NG
namespace Norm

/-- An array. Used in `Lay` (_datalayers.py 36-77, 241-279). -/
structure Arr (F : Type) where
  shape : List Nat
  data : List F
deriving DecidableEq, Repr

/-- A layer above the root. `bound` is `BoundLayer` or `Bound` (_datalayers.py 36-77, 241-279) with bounds broadcast to the entries; `refresh` tells whether the method is clipping or
bouncing (273-275). `op` is any other operation, given by what its getter and setter do to the value (163-238, 313-324). -/
inductive Lay (F : Type) where
  | op (fwd bwd : Arr F → Option (Arr F))
  | bound (lo hi : Option (Nat → F)) (uniform refresh : Bool) (fwd bwd : Arr F → Option (Arr F))

variable {F : Type} [Field F] [LinearOrder F]

/-- The setters from the first layer of the list, which is the highest one, down to the root (data.py 332-338, _datalayers.py 170-171, 280-281). The result is the new `_value`. -/
def set : List (Lay F) → Arr F → Arr F → Option (Arr F)
  | [], r, v => if v.shape = r.shape then some v else none
  | .op _ b :: l, r, v => (b v).bind (set l r)
  | .bound _ _ _ _ _ b :: l, r, v => (b v).bind (set l r)

/-- The getters (data.py 340-341, _datalayers.py 167-168, 271-278): the value read and the `_value` afterwards, which is refreshed by clipping and bouncing when the value was
changed. -/
def get : List (Lay F) → Arr F → Option (Arr F × Arr F)
  | [], r => some (r, r)
  | .op f _ :: l, r => (get l r).bind (fun p => (f p.1).map (fun w => (w, p.2)))
  | .bound _ _ _ refresh f _ :: l, r =>
    (get l r).bind (fun p => (f p.1).bind (fun w =>
      if refresh = true ∧ w ≠ p.1 then (set l p.2 w).map (fun r => (w, r)) else some (w, p.2)))

/-- A data parameter used as a reference: its `_value`, the values of `sigma` at the entries, and its layers, the highest one first. Used in `Ref.dim` (data.py 137-139). -/
structure Ref (F : Type) where
  value : Arr F
  sigma : List F
  layers : List (Lay F)

/-- `dimension` (data.py 137-139). -/
def Ref.dim (p : Ref F) : Nat := p.value.data.length

/-- `set_standardized_data` on a child (data.py 300-306): the `_value` before the value is read. Reshaping fails for a wrong size. -/
def Ref.setStd (p : Ref F) (x : List F) : Option (Arr F) :=
  if x.length = p.dim then
    some ⟨p.value.shape, List.zipWith (· * ·) p.sigma (List.zipWith (· + ·) x (List.zipWith (· / ·) p.value.data p.sigma))⟩
  else none

/-- `get_standardized_data(reference=ref)` of a child with `_value = r` (data.py 308-320). -/
def Ref.getStd (p : Ref F) (r : Arr F) : List F :=
  List.zipWith (· / ·) (List.zipWith (· - ·) r.data p.value.data) p.sigma

/-- Whether a layer has both bounds, and samples uniformly if only these count (helpers.py 147-153, 225-227). -/
def usable (onlySampling : Bool) : Lay F → Bool
  | .op _ _ => false
  | .bound lo hi u _ _ _ => lo.isSome && hi.isSome && (!onlySampling || u)

/-- `layers[-1]` (helpers.py 231) with all layers below: the list starts with that layer, if there is one. -/
def Ref.from (onlySampling : Bool) (p : Ref F) : List (Lay F) := p.layers.dropWhile (fun l => !usable onlySampling l)

/-- `set_normalized_value` (_datalayers.py 79-82, 128-131): the value sent to the layer. -/
def denorm (lo hi : Nat → F) (v : Arr F) : Arr F := ⟨v.shape, v.data.mapIdx (fun i a => (hi i - lo i) * a + lo i)⟩

/-- `get_normalized_value` (_datalayers.py 133-136). -/
def renorm (lo hi : Nat → F) (v : Arr F) : Arr F := ⟨v.shape, v.data.mapIdx (fun i a => (a - lo i) / (hi i - lo i))⟩

/-- `x[start:end] = v` for a slice of `n` entries: leading dimensions must be one, and the last one `n` or one. Used in `forward1` (helpers.py 224-235). -/
def assign (n : Nat) (v : Arr F) : Option (List F) :=
  if v.shape.dropLast.all (· == 1) then
    if v.shape.getLast? = some n then some v.data
    else if v.shape.getLast? = some 1 then some (List.replicate n (v.data.headD 0))
    else none
  else none

/-- One turn of `_apply_unsafe` with `forward=True` (helpers.py 224-235) on its slice; `u` is the transform of unbounded variables. -/
def forward1 (only : Bool) (u : List F → Option (List F)) (p : Ref F) (x : List F) : Option (List F) :=
  match p.from only with
  | .bound (some lo) (some hi) uni refresh f b :: below =>
    (p.setStd x).bind (fun r => (get p.layers r).bind (fun q =>
      (get (.bound (some lo) (some hi) uni refresh f b :: below) q.2).bind (fun w => assign x.length (renorm lo hi w.1))))
  | _ => u x

/-- One turn with `forward=False` (helpers.py 237-240). -/
def backward1 (only : Bool) (u : List F → Option (List F)) (p : Ref F) (x : List F) : Option (List F) :=
  match p.from only with
  | .bound (some lo) (some hi) uni refresh f b :: below =>
    if x.length = p.dim then
      (set (.bound (some lo) (some hi) uni refresh f b :: below) p.value (denorm lo hi ⟨p.value.shape, x⟩)).map p.getStd
    else none
  | _ => u x

/-- `_apply_unsafe` (helpers.py 219-241): the array, modified in place, and whether no exception occurred. -/
def go (turn : Ref F → List F → Option (List F)) : List (Ref F) → List F → List F × Bool
  | [], x => (x, true)
  | p :: ps, x =>
    match turn p (x.take p.dim) with
    | none => (x, false)
    | some y => (y ++ (go turn ps (x.drop p.dim)).1, (go turn ps (x.drop p.dim)).2)

/-- `_apply` (helpers.py 207-217): after an exception the transform is applied to the array as it is. -/
def apply (working : Bool) (turn : Ref F → List F → Option (List F)) (u : List F → Option (List F)) (ps : List (Ref F)) (x : List F) : Option (List F) :=
  if working then
    match go turn ps x with
    | (y, true) => some y
    | (y, false) => u y
  else u x

/-- `forward` (helpers.py 203-205); `uf` is the transform from all numbers to the unit interval. -/
def forward (working only : Bool) (uf : List F → Option (List F)) (ps : List (Ref F)) (x : List F) : Option (List F) :=
  apply working (forward1 only uf) uf ps x

/-- `backward` (helpers.py 199-201); `ub` is the transform from the unit interval. -/
def backward (working only : Bool) (ub : List F → Option (List F)) (ps : List (Ref F)) (x : List F) : Option (List F) :=
  apply working (backward1 only ub) ub ps x

/-- `fully_bounded` (helpers.py 191). -/
def fullyBounded (ps : List (Ref F)) : Bool := ps.all (fun p => p.layers.any (usable false))

/-- The `Bound` layer with methods clipping and bouncing (transforms.py 208-223, utils.py 35-52, _datalayers.py 271-281); shapes always match here. -/
def clipLayer (lo hi : Option (Nat → F)) (uniform bounce : Bool) : Lay F :=
  let inside := fun (v : Arr F) => decide (∀ i (h : i < v.data.length), (∀ l, lo = some l → l i ≤ v.data[i]) ∧ (∀ u, hi = some u → v.data[i] ≤ u i))
  let clip := fun (i : Nat) (a : F) =>
    let a := match lo with | none => a | some l => max a (l i)
    match hi with | none => a | some u => min a (u i)
  .bound lo hi uniform true
    (fun v => if inside v then some v else
      some ⟨v.shape, v.data.mapIdx (fun i a => if bounce then clip i (2 * clip i a - a) else clip i a)⟩)
    (fun v => if inside v then some v else none)

/-- `AngleOp` (_datalayers.py 313-324) with the functions it uses. -/
def angleLayer (cos sin : F → F) (arg : F → F → F) : Lay F :=
  .op
    (fun x => match x.shape with
      | 2 :: s => some ⟨s, List.zipWith arg (x.data.take (x.data.length / 2)) (x.data.drop (x.data.length / 2))⟩
      | _ => none)
    (fun v => some ⟨2 :: v.shape, v.data.map cos ++ v.data.map sin⟩)

/-! ## Integer layers -/

/-- An integer layer (_layering.py 258-263): the value in deterministic mode and the one drawn in the other mode are inputs of a read. -/
structure IntLayer where
  deterministic : Bool
  ordered : Bool
  arity : Option Nat
  cache : Option Int
deriving DecidableEq, Repr

/-- A read (_layering.py 269-285): the cached value, or a new one which is cached. -/
def IntLayer.read (det draw : Int) (l : IntLayer) : IntLayer :=
  match l.cache with
  | some _ => l
  | none => { l with cache := some (if l.deterministic then det else draw) }

/-- `analyze` (helpers.py 109-120): deterministic, continuous, ordered, arity. -/
def analyze (ls : List IntLayer) : Bool × Bool × Bool × Int :=
  (ls.all (·.deterministic), !(ls.any (·.deterministic)), ls.all (·.ordered),
    ((ls.filterMap (·.arity)).map (fun n : Nat => (n : Int))).foldl max (-1))

/-- `deterministic_sampling` (helpers.py 123-144) around a body, which may end with an exception: the layers afterwards. `det` and `draw` are the values which would be read. -/
def detSampling (body : List IntLayer → List IntLayer) (det draw : Nat → Int) (ls : List IntLayer) : List IntLayer :=
  let after := body (ls.map (fun l => { l with deterministic := true }))
  let read := after.mapIdx (fun i l => l.read (det i) (draw i))
  List.zipWith (fun l d => { l with deterministic := d }) read (ls.map (·.deterministic))

end Norm
end NG
