import Mathlib.Algebra.Order.Floor.Ring
import Mathlib.Algebra.Order.Field.Basic
import Mathlib.Data.Rat.Floor

/-!
# Model of the material of the integrated circuits

photonics/functions.py 222-236 (`block`) and the first part of `bender` (photonics/bender.py 50-145): the grid, the two waveguides and the block in the middle. Numbers are those of an ordered
field, without rounding errors. The dimensions written in the source are parameters. An array is a function of its indices, of which only those below the sizes matter. What follows
(absorbing layers, modes, the linear system) is in `Model/Fdfd.lean` as far as it is modelled.
-/

namespace NG
namespace Circuit

variable {K : Type*} [Field K] [LinearOrder K] [IsStrictOrderedRing K] [FloorRing K]

/-- The first position of the smallest element, `np.argmin` (functions.py 229-230). -/
def argmin : List K → Nat
  | [] => 0
  | [_] => 0
  | x :: y :: l => if x ≤ (y :: l).getD (argmin (y :: l)) 0 then 0 else argmin (y :: l) + 1

/-- `np.argmin(np.abs(xa2 - pos_x))` (functions.py 229-230). -/
def nearest (xs : List K) (p : K) : Nat := argmin (xs.map fun x => |x - p|)

/-- `round` to the nearest integer, halves to the even one (functions.py 232-233). -/
def pyRound (x : K) : Int :=
  if x - ⌊x⌋ < 1 / 2 then ⌊x⌋ else if 1 / 2 < x - ⌊x⌋ then ⌊x⌋ + 1 else if ⌊x⌋ % 2 = 0 then ⌊x⌋ else ⌊x⌋ + 1

/-- The bound of a slice of `n` elements: negative ones count from the end (functions.py 235). -/
def clip (n : Nat) (i : Int) : Int := if i < 0 then max 0 (i + n) else min i n

/-- Position `i` is in the slice `start:stop` (functions.py 235). -/
def inSlice (n : Nat) (start stop : Int) (i : Nat) : Bool := decide (clip n start ≤ i) && decide ((i : Int) < clip n stop)

/-- `block` (functions.py 222-236). -/
def block (xs ys : List K) (er : Nat → Nat → K) (px py lx ly n : K) : Nat → Nat → K :=
  let dx := xs.getD 1 0 - xs.getD 0 0
  let dy := ys.getD 1 0 - ys.getD 0 0
  let ix := nearest xs px
  let iy := nearest ys py
  fun i j => if inSlice xs.length ix (ix + pyRound (lx / dx)) i && inSlice ys.length iy (iy + pyRound (ly / dy)) j then n ^ 2 else er i j

/-- The step of the grid, made smaller for a whole number of steps in `a` (bender.py 77-82). -/
def snap (a d : K) : K := a / ⌈a / d⌉

/-- `np.arange(1, n + 1) * d` (bender.py 102-103). -/
def axis (n : Nat) (d : K) : List K := (List.range n).map fun (i : Nat) => ((i : K) + 1) * d

/-- The dimensions of `bender` (bender.py 45-69); one number of absorbing cells for the four sides, and `shift_in = shift_out = 0`. -/
structure Dims (K : Type*) where
  lam : K
  centerN : K
  centerW : K
  centerL : K
  inN : K
  inL : K
  inW : K
  outN : K
  outL : K
  outW : K
  nres : K
  npml : Nat

/-- `dx` and `dy`, which are equal (bender.py 70-82). -/
def Dims.step (c : Dims K) : K := snap (min c.inW (min c.centerW c.outW)) (c.lam / (max c.inN (max c.centerN c.outN) * c.nres))

/-- `Nx2` (bender.py 85-94). -/
def Dims.nx2 (c : Dims K) : Nat := 2 * (c.npml + ⌈(c.inL + c.centerL + c.lam) / c.step⌉₊ + c.npml)

/-- `Ny2` (bender.py 89-96). -/
def Dims.ny2 (c : Dims K) : Nat := 2 * (c.npml + ⌈(c.lam + c.centerW + c.outL) / c.step⌉₊ + c.npml)

/-- `dx2` and `dy2` (bender.py 95-97). -/
def Dims.half (c : Dims K) : K := c.step / 2

/-- `PML[0]` (bender.py 110). -/
def Dims.pml0 (c : Dims K) : K := |(axis c.nx2 c.half).getD (2 * c.npml - 1) 0 - (axis c.nx2 c.half).getD 0 0|

/-- `PML[1]` (bender.py 110). -/
def Dims.pml1 (c : Dims K) : K := |(axis c.ny2 c.half).getD (c.ny2 - 1) 0 - (axis c.ny2 c.half).getD (c.ny2 - 1 - 2 * c.npml) 0|

/-- `ER2` with the two waveguides (bender.py 114-131). -/
def Dims.guides (c : Dims K) : Nat → Nat → K :=
  let xs := axis c.nx2 c.half
  let ys := axis c.ny2 c.half
  let er := block xs ys (fun _ _ => 1) 0 (c.pml1 + c.lam + c.centerW / 2) (c.pml0 + c.inL) c.inW c.inN
  block xs ys er (c.pml0 + c.inL + c.centerL / 2) (c.pml1 + c.lam + c.centerW) c.outW (c.outL + c.pml1) c.outN

/-- `nb_struct_x` (bender.py 133). -/
def Dims.structX (c : Dims K) : Nat := ⌊c.centerL / c.half⌋₊

/-- `nb_struct_y` (bender.py 134). -/
def Dims.structY (c : Dims K) : Nat := ⌊c.centerW / c.half⌋₊

/-- `center_x_beg` (bender.py 142). -/
def Dims.begX (c : Dims K) : Nat := ⌊(c.inL + c.pml0) / c.half⌋₊

/-- `center_y_beg` (bender.py 143). -/
def Dims.begY (c : Dims K) : Nat := ⌊(c.lam + c.pml1) / c.half⌋₊

/-- The number of positions of the slice `start:start + k` of `n`, as in the assignment (bender.py 145). -/
def sliceLen (n start k : Nat) : Nat := min (start + k) n - min start n

/-- `ER2` of `bender` for the `rows × cols` array `X` (bender.py 112-145). `none` if the sizes are wrong: the assertion (135-137), or the error of an assignment to a slice of another
size (145). -/
def Dims.material (c : Dims K) (rows cols : Nat) (X : Nat → Nat → K) : Option (Nat → Nat → K) :=
  if rows = c.structX ∧ cols = c.structY then
    if sliceLen c.nx2 c.begX c.structX = rows ∧ sliceLen c.ny2 c.begY c.structY = cols then
      some fun i j =>
        if c.begX ≤ i ∧ i < c.begX + c.structX ∧ c.begY ≤ j ∧ j < c.begY + c.structY then 1 + X (i - c.begX) (j - c.begY) * (c.centerN ^ 2 - 1)
        else c.guides i j
    else none
  else none

/-- The dimensions in the source of `bender`, in micrometers (bender.py 45-69). -/
def benderDims : Dims ℚ := ⟨155 / 100, 35 / 10, 15 / 10, 15 / 10, 35 / 10, 75 / 100, 2 / 10, 35 / 10, 75 / 100, 2 / 10, 5, 20⟩

/-- The dimensions in the source of `mode_converter` (mode_converter.py 45-69). Its waveguides are placed in another way, see `Model/ModeConv.lean`; the size of its array is computed in the same
way (136-137). -/
def modeDims : Dims ℚ := ⟨155 / 100, 35 / 10, 15 / 10, 15 / 10, 35 / 10, 75 / 100, 2 / 10, 35 / 10, 75 / 100, 4 / 10, 4, 20⟩

end Circuit
end NG
