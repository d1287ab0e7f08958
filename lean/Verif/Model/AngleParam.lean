/-
The parameters of angles, `Angles` (nevergrad/parametrization/_datalayers.py 327-372), with the layers below and above the operation of `Model/Transforms.lean`.

Simplifications. Exact arithmetic. The shape is an index type. The bound "gaussian" on the coordinates is left out. The operation refuses arrays whose first
dimension is not 2; here the coordinates are pairs. Warnings are left out. The reset of `Bound._layered_get_value` (271-278) is written for the coordinates; for
the angle it would need an angle outside of `[-π, π]`, which is not possible (`top_id` in `Props/AngleParam.lean`).
-/
import Verif.Model.Transforms

namespace NG.AngleParam

open NG.Tr

noncomputable section

/-- `bound_method` (_datalayers.py 331, 362-363; 255-261). -/
inductive Method where
  | free | clipping | bouncing | arctan | tanh
deriving DecidableEq, Repr

variable {ι : Type} [Fintype ι]

/-- `Bound(-2, 2, method=bound_method)` from the root to the coordinates (_datalayers.py 363, 273). -/
def Method.fwd : Method → (ι → ℝ) → ι → ℝ
  | .free, x => x
  | .clipping, x => clipForward false (some fun _ => -2) (some fun _ => 2) x
  | .bouncing, x => clipForward true (some fun _ => -2) (some fun _ => 2) x
  | .arctan, x => arctanForward (fun _ => -2) (fun _ => 2) x
  | .tanh, x => tanhForward (fun _ => -2) (fun _ => 2) x

/-- `Bound(-2, 2, method=bound_method)` from the coordinates to the root (_datalayers.py 363, 280-281). -/
def Method.bwd : Method → (ι → ℝ) → Res (ι → ℝ)
  | .free, y => .ok y
  | .clipping, y => clipBackward (some fun _ => -2) (some fun _ => 2) y
  | .bouncing, y => clipBackward (some fun _ => -2) (some fun _ => 2) y
  | .arctan, y => arctanBackward (fun _ => -2) (fun _ => 2) y
  | .tanh, y => tanhBackward (fun _ => -2) (fun _ => 2) y

/-- The parameter: the two rows of the root, the bound of the coordinates, and whether it is in degrees (_datalayers.py 327-372). -/
structure P (ι : Type) where
  x : ι → ℝ
  y : ι → ℝ
  method : Method
  deg : Bool

/-- The factor of the last layer (_datalayers.py 368-369), 1 without it. -/
def P.factor (p : P ι) : ℝ := if p.deg then 180 / Real.pi else 1

/-- Reading the value (_datalayers.py 271-278, 316-320, 230-231): the coordinates, the angle, its bound and the factor. Clipped coordinates are written back in
the root (275-277). -/
def P.read (p : P ι) : (ι → ℝ) × P ι :=
  (fun i => p.factor * clipForward true (some fun _ => -Real.pi) (some fun _ => Real.pi) (angleGet fun j => (p.method.fwd p.x j, p.method.fwd p.y j)) i,
    if p.method = .clipping ∨ p.method = .bouncing then { p with x := p.method.fwd p.x, y := p.method.fwd p.y } else p)

/-- Setting angles in radians (_datalayers.py 280-281, 322-324): refused outside of `[-π, π]`. -/
def P.setRad (p : P ι) (v : ι → ℝ) : Res (P ι) :=
  match clipBackward (some fun _ => -Real.pi) (some fun _ => Real.pi) v with
  | .error => .error
  | .ok w =>
    match p.method.bwd (fun i => (angleSet w i).1), p.method.bwd (fun i => (angleSet w i).2) with
    | .ok a, .ok b => .ok { p with x := a, y := b }
    | _, _ => .error

/-- Setting the value (_datalayers.py 233-234, and as above). -/
def P.assign (p : P ι) (v : ι → ℝ) : Res (P ι) := p.setRad fun i => v i / p.factor

/-- `Angles` (_datalayers.py 358-372). The coordinates start at zero (361); adding the bound of the angles (367) reads the value and sets it again (89-92). -/
def make (init : Option (ι → ℝ)) (shape : Bool) (method : Method) (deg : Bool) : Res (P ι) :=
  if init.isSome == shape then .error
  else
    let p : P ι := ⟨fun _ => 0, fun _ => 0, method, false⟩
    match p.setRad p.read.1 with
    | .error => .error
    | .ok q =>
      let q' : P ι := { q with deg := deg }
      match init with
      | none => .ok q'
      | some v => q'.assign v

/-- `sample` with uniform draws `t` in the unit interval (_datalayers.py 115-132): the bound of the angles has both its sides, so that the draw is uniform. -/
def P.sample (p : P ι) (t : ι → ℝ) : Res (P ι) := p.setRad (normalizedToValue (fun _ => -Real.pi) (fun _ => Real.pi) t)

/-- `set_standardized_data` with a reference, of standard deviation one (data.py 330-343; `_datalayers.py` 361): the root moves. -/
def P.move (p : P ι) (dx dy : ι → ℝ) : P ι := { p with x := fun i => p.x i + dx i, y := fun i => p.y i + dy i }

end

end NG.AngleParam
