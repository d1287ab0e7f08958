import Verif.Model.Circuit

/-!
# Model of the material of the mode converter

The first part of `mode_converter` (photonics/mode_converter.py 45-148): the grid with its centre at the origin, the two waveguides and the block in the middle, on top of `Model/Circuit.lean`
(dimensions, step of the grid, `block`). Numbers are those of an ordered field, without rounding errors, and the unit is the micrometer, as in the source.
-/

namespace NG
namespace Circuit

variable {K : Type*} [Field K] [LinearOrder K] [IsStrictOrderedRing K] [FloorRing K]

/-- `xa2 - np.mean(xa2)` (mode_converter.py 102-108). -/
def centred (n : Nat) (d : K) : List K := (axis n d).map fun x => x - (axis n d).sum / n

/-- `Nx` (mode_converter.py 85-86). -/
def Dims.modeNx (c : Dims K) : Nat := c.npml + ⌈(c.inL + c.centerL + c.outL) / c.step⌉₊ + c.npml

/-- `Ny` (mode_converter.py 89-90). -/
def Dims.modeNy (c : Dims K) : Nat := c.npml + ⌈(c.lam + c.centerW + c.lam) / c.step⌉₊ + c.npml

/-- `PML[0]` (mode_converter.py 110). -/
def Dims.modePml0 (c : Dims K) : K :=
  |(centred (2 * c.modeNx) c.half).getD (2 * c.npml - 1) 0 - (centred (2 * c.modeNx) c.half).getD 0 0|

/-- `PML[1]` (mode_converter.py 110). -/
def Dims.modePml1 (c : Dims K) : K :=
  |(centred (2 * c.modeNx) c.half).getD (2 * c.modeNx - 1) 0 - (centred (2 * c.modeNx) c.half).getD (2 * c.modeNx - 1 - 2 * c.npml) 0|

/-- `ER2` with the two waveguides (mode_converter.py 114-131); `shift_in = shift_out = 0`, and the first one is longer by the number 1, which is a micrometer. -/
def Dims.modeGuides (c : Dims K) : Nat → Nat → K :=
  let xs := centred (2 * c.modeNx) c.half
  let ys := centred (2 * c.modeNy) c.half
  let er := block xs ys (fun _ _ => 1) (-(c.modeNx * c.step) / 2) (-c.inW / 2) (c.modePml0 + c.inL + 1) c.inW c.inN
  block xs ys er (-(c.modeNx * c.step) / 2 + c.modePml0 + c.inL + c.centerL) (-c.outW / 2) (c.outL + c.modePml1) c.outW c.outN

/-- `center_x_beg` (mode_converter.py 145); `int` is a floor as the number is not negative for dimensions that make sense. -/
def Dims.modeBegX (c : Dims K) : Nat := ⌊(c.modeNx : K) - c.structX / 2⌋₊

/-- `center_y_beg` (mode_converter.py 146). -/
def Dims.modeBegY (c : Dims K) : Nat := ⌊(c.modeNy : K) - c.structY / 2⌋₊

/-- `ER2` of `mode_converter` for the `rows × cols` array `X` (mode_converter.py 113-148), `none` if the sizes are wrong: the assertion (138-140), or the error of an assignment to a slice of
another size (148). -/
def Dims.modeMaterial (c : Dims K) (rows cols : Nat) (X : Nat → Nat → K) : Option (Nat → Nat → K) :=
  if rows = c.structX ∧ cols = c.structY then
    if sliceLen (2 * c.modeNx) c.modeBegX c.structX = rows ∧ sliceLen (2 * c.modeNy) c.modeBegY c.structY = cols then
      some fun i j =>
        if c.modeBegX ≤ i ∧ i < c.modeBegX + c.structX ∧ c.modeBegY ≤ j ∧ j < c.modeBegY + c.structY then
          1 + X (i - c.modeBegX) (j - c.modeBegY) * (c.centerN ^ 2 - 1)
        else c.modeGuides i j
    else none
  else none

end Circuit
end NG
