import Mathlib.Algebra.Order.Field.Basic
import Mathlib.Algebra.Order.Floor.Ring
import Mathlib.Data.Fintype.Basic
import Mathlib.Analysis.SpecialFunctions.Artanh
import Mathlib.Analysis.SpecialFunctions.Trigonometric.Arctan
import Mathlib.Analysis.SpecialFunctions.Pow.Real
import Mathlib.Analysis.SpecialFunctions.Complex.Arg

/-!
# Transforms and value layers (nevergrad/parametrization/transforms.py, _datalayers.py, _layering.py)

Arrays are functions `ι → α` on the finite set of their indices; bounds are taken after numpy broadcasting to the shape
of the array. Arithmetic is exact.
-/

namespace NG
namespace Tr

section order
variable {α : Type} [LinearOrder α] {ι : Type} [Fintype ι]

/-- `BoundChecker.__call__` (utils.py 35-52); bounds may be `None`. -/
def checker (lo hi : Option (ι → α)) (x : ι → α) : Bool :=
  (match lo with
    | none => true
    | some l => decide (∀ i, l i ≤ x i)) &&
  (match hi with
    | none => true
    | some u => decide (∀ i, x i ≤ u i))

/-- Outcome of a constructor or of `backward`. Used in `initBounds` (transforms.py 130-143). -/
inductive Res (β : Type) where
  | ok (b : β)
  | error
  deriving DecidableEq

/-- `BoundTransform.__init__` (transforms.py 130-143) and `BoundLayer.__init__` (_datalayers.py 73-77): the checks. -/
def initBounds (lo hi : Option (ι → α)) : Res Unit :=
  match lo, hi with
  | none, none => .error
  | some l, some u => if decide (∃ i, u i ≤ l i) then .error else .ok ()
  | _, _ => .ok ()

/-- `np.clip(x, a_min, a_max)`: `np.minimum(np.maximum(x, a_min), a_max)`. Used in `clipForward` (transforms.py 208-215). -/
def clip (lo hi : Option (ι → α)) (x : ι → α) : ι → α := fun i =>
  let x' := match lo with
    | none => x i
    | some l => max (x i) (l i)
  match hi with
  | none => x'
  | some u => min x' (u i)

/-- `Clipping.backward` (transforms.py 217-223). -/
def clipBackward (lo hi : Option (ι → α)) (y : ι → α) : Res (ι → α) := if checker lo hi y then .ok y else .error

end order

section field
variable {α : Type} [LinearOrder α] [Field α] {ι : Type} [Fintype ι]

/-- `Clipping.forward` (transforms.py 208-215). -/
def clipForward (bounce : Bool) (lo hi : Option (ι → α)) (x : ι → α) : ι → α :=
  if checker lo hi x then x
  else
    let out := clip lo hi x
    if bounce then clip lo hi (fun i => 2 * out i - x i) else out

/-- `Affine.__init__` (transforms.py 75-81): only an all-zero `a` is refused. -/
def affineInit (a : ι → α) : Res Unit := if decide (∃ i, a i ≠ 0) then .ok () else .error

/-- `Affine.forward` (transforms.py 83-84). -/
def affineForward (a b x : ι → α) : ι → α := fun i => a i * x i + b i

/-- `Affine.backward` (transforms.py 86-87). -/
def affineBackward (a b y : ι → α) : ι → α := fun i => (y i - b i) / a i

/-- `BoundLayer.set_normalized_value` (_datalayers.py 79-82, 128-131): `Reverted(Affine(u - l, l)).backward`. -/
def normalizedToValue (l u : ι → α) (v : ι → α) : ι → α := affineForward (fun i => u i - l i) l v

/-- `BoundLayer.get_normalized_value` (_datalayers.py 133-136). -/
def valueToNormalized (l u : ι → α) (v : ι → α) : ι → α := affineBackward (fun i => u i - l i) l v

end field

section real
variable {ι : Type} [Fintype ι]

/-- `Exponentiate.forward` (transforms.py 106-107). -/
noncomputable def expForward (base coeff : ℝ) (x : ι → ℝ) : ι → ℝ := fun i => base ^ (coeff * x i)

/-- `Exponentiate.backward` (transforms.py 109-110); for `y <= 0` numpy gives nan or `-inf` with a warning, the model
the value of `Real.log`. -/
noncomputable def expBackward (base coeff : ℝ) (y : ι → ℝ) : ι → ℝ := fun i => Real.log (y i) / (coeff * Real.log base)

/-- `TanhBound.forward` (transforms.py 165-171). -/
noncomputable def tanhForward (lo hi x : ι → ℝ) : ι → ℝ :=
  fun i => (1 / 2) * (hi i + lo i) + (1 / 2) * (hi i - lo i) * Real.tanh (x i)

/-- `TanhBound.backward` (transforms.py 173-180). On the bounds themselves numpy returns `±inf`. -/
noncomputable def tanhBackward (lo hi y : ι → ℝ) : Res (ι → ℝ) :=
  if (∃ i, hi i < y i) ∨ (∃ i, y i < lo i) then .error
  else .ok (fun i => Real.artanh ((y i - (1 / 2) * (hi i + lo i)) / ((1 / 2) * (hi i - lo i))))

/-- `ArctanBound.forward` (transforms.py 240-246). -/
noncomputable def arctanForward (lo hi x : ι → ℝ) : ι → ℝ :=
  fun i => (1 / 2) * (hi i + lo i) + (hi i - lo i) / Real.pi * Real.arctan (x i)

/-- `ArctanBound.backward` (transforms.py 248-252). On the bounds themselves numpy returns about `±1.6e16`. -/
noncomputable def arctanBackward (lo hi y : ι → ℝ) : Res (ι → ℝ) :=
  if (∃ i, hi i < y i) ∨ (∃ i, y i < lo i) then .error
  else .ok (fun i => Real.tan ((y i - (1 / 2) * (hi i + lo i)) / ((hi i - lo i) / Real.pi)))

/-- `CumulativeDensity.forward` (transforms.py 296-297); `cdf` is `stats.norm.cdf` or `stats.cauchy.cdf`. -/
noncomputable def cdfForward (cdf : ℝ → ℝ) (lo hi scale : ℝ) (x : ι → ℝ) : ι → ℝ :=
  fun i => (hi - lo) * cdf (x i / scale) + lo

/-- `CumulativeDensity.backward` (transforms.py 299-305); `ppf` is the inverse of `cdf`. -/
noncomputable def cdfBackward (ppf : ℝ → ℝ) (lo hi eps scale : ℝ) (y : ι → ℝ) : Res (ι → ℝ) :=
  if (∃ i, hi < y i) ∨ (∃ i, y i < lo) then .error
  else .ok (fun i => scale * ppf (min (max ((y i - lo) / (hi - lo)) eps) (1 - eps)))

/-- `stats.cauchy.cdf` (transforms.py 293). -/
noncomputable def cauchyCdf (x : ℝ) : ℝ := 1 / 2 + Real.arctan x / Real.pi

/-- `stats.cauchy.ppf` (transforms.py 294). -/
noncomputable def cauchyPpf (q : ℝ) : ℝ := Real.tan (Real.pi * q - Real.pi / 2)

/-- `AngleOp._layered_get_value` (_datalayers.py 316-320) on the pairs `(x[0], x[1])`. -/
noncomputable def angleGet (x : ι → ℝ × ℝ) : ι → ℝ := fun i => Complex.arg (⟨(x i).1, (x i).2⟩ : ℂ)

/-- `AngleOp._layered_set_value` (_datalayers.py 322-324). -/
noncomputable def angleSet (v : ι → ℝ) : ι → ℝ × ℝ := fun i => (Real.cos (v i), Real.sin (v i))

end real

section floor
variable {α : Type} [LinearOrder α] [Field α] [FloorRing α]

/-- Python and numpy `x % m` for `m > 0`. Used in `moduloGet` (_datalayers.py 154-155). -/
def pymod (x m : α) : α := x - m * ⌊x / m⌋

variable {ι : Type} [Fintype ι]

/-- `Modulo._layered_get_value` (_datalayers.py 154-155). -/
def moduloGet (m : ι → α) (x : ι → α) : ι → α := fun i => pymod (x i) (m i)

/-- `Modulo._layered_set_value` (_datalayers.py 157-160): new deeper value. -/
def moduloSet (m : ι → α) (current v : ι → α) : Res (ι → α) :=
  if checker (some (fun _ => 0)) (some m) v then .ok (fun i => current i - pymod (current i) (m i) + v i) else .error

/-- `np.round`: nearest integer, halves to the even one. Used in `intGet` (_layering.py 272-283). -/
def roundEven (x : α) : Int :=
  let f := ⌊x⌋
  let r := x - f
  if r < 1 / 2 then f
  else if 1 / 2 < r then f + 1
  else if f % 2 = 0 then f else f + 1

/-- `eps = 1e-12` (_layering.py 278). -/
def intEps : α := 1 / 1000000000000

/-- The value computed by `Int._layered_get_value` (_layering.py 272-283) for one entry; `draw` is the number drawn by
`rand` in the stochastic mode. -/
def intGet (draw : Option α) (lo hi : Option α) (x : α) : Int :=
  let x := match draw with
    | none => x
    | some r => x + (r - 1 / 2)
  let out := roundEven x
  let out := match lo with
    | none => out
    | some l => max (roundEven (l + 1 / 2 - intEps)) out
  match hi with
  | none => out
  | some u => min (roundEven (u - 1 / 2 + intEps)) out

/-- An array parameter with an integer casting layer on top of layers acting as the identity on its values: the root's
`_value` and the `_cache` of the layer (_layering.py 263). -/
structure IntP (ι α : Type) where
  root : ι → α
  cache : Option (ι → Int)

/-- `param.value` through `Int._layered_get_value` (_layering.py 269-285). `draw` is what `rand` would return, `none` in
the deterministic mode. `out += ...` (line 275) works in place: `aliased` tells whether the deeper layers return the
root's own `_value` array; the root does (data.py 340-341), so do `ArrayCasting` (no getter) and clipping when the value
is within the bounds (transforms.py 210-211), whereas the other operations build a new array. Returns the value read and
the parameter afterwards. -/
def IntP.read (aliased : Bool) (draw : Option (ι → α)) (lo hi : Option (ι → α)) (p : IntP ι α) : (ι → Int) × IntP ι α :=
  match p.cache with
  | some v => (v, p)
  | none =>
    let root : ι → α := match draw with
      | none => p.root
      | some r => if aliased then fun i => p.root i + (r i - 1 / 2) else p.root
    let v : ι → Int := fun i => intGet (draw.map (fun r => r i)) (lo.map (fun l => l i)) (hi.map (fun u => u i)) (p.root i)
    (v, { root := root, cache := some v })

/-- `copy`, hence `spawn_child` without new value (core.py 408-439, data.py 327-330): the array is copied and the caches
of the child are cleared (core.py 438). -/
def IntP.copy (p : IntP ι α) : IntP ι α := { root := p.root, cache := none }

/-- `set_standardized_data` with reference value `refv` and sigma 1 (core.py 217-224, data.py 300-306): the caches are
cleared, the array is replaced, then the value is read at once. -/
def IntP.setData (aliased : Bool) (draw : Option (ι → α)) (lo hi : Option (ι → α)) (refv data : ι → α) : IntP ι α :=
  (IntP.read aliased draw lo hi { root := fun i => data i + refv i, cache := none }).2

end floor
end Tr
end NG
