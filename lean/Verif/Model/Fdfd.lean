/-
Model of the solver in the frequency domain of `nevergrad/functions/photonics/functions.py`, `bender.py` and `mode_converter.py`: the
derivative matrices of a grid, the absorbing layers, the wave matrix, the source and the loss. Real and complex numbers are exact. The
eigenvectors of the waveguides are arguments (`lin.eigs`), and so are the materials of the grid. Periodic boundary conditions, which no
caller uses, are not modelled.
-/
import Mathlib.Analysis.SpecialFunctions.Pow.Complex
import Mathlib.Analysis.SpecialFunctions.Trigonometric.Basic
import Mathlib.LinearAlgebra.Matrix.NonsingularInverse
import Mathlib.LinearAlgebra.Matrix.ConjTranspose

namespace NG.Fdfd

open Matrix

/-! ### Derivatives -/

/-- `sp.diags_array(c, offsets=k)` for `k ≥ 0` (functions.py 178-179, 205-206). -/
def band (M k : Nat) (c : Nat → ℂ) : Matrix (Fin M) (Fin M) ℂ := fun i j => if (j : Nat) = i + k then c i else 0

/-- `DEX` with the boundary conditions of Dirichlet (functions.py 163-179); the cell `(x, y)` has the index `x + Nx * y`. -/
noncomputable def dex (Nx Ny : Nat) (dx kx : ℝ) : Matrix (Fin (Nx * Ny)) (Fin (Nx * Ny)) ℂ :=
  if Nx = 1 then (-Complex.I * kx) • 1
  else diagonal (fun _ => ((-1 / dx : ℝ) : ℂ)) + band (Nx * Ny) 1 fun i => ((if i % Nx = Nx - 1 then 0 else 1) / dx : ℝ)

/-- `DEY` with the boundary conditions of Dirichlet (functions.py 191-206). -/
noncomputable def dey (Nx Ny : Nat) (dy ky : ℝ) : Matrix (Fin (Nx * Ny)) (Fin (Nx * Ny)) ℂ :=
  if Ny = 1 then (-Complex.I * ky) • 1
  else diagonal (fun _ => ((-1 / dy : ℝ) : ℂ)) + band (Nx * Ny) Nx fun _ => ((1 / dy : ℝ) : ℂ)

/-- `DHX` and `DHY` from `DEX` and `DEY` (functions.py 217-218). -/
def dual {n : Type} (D : Matrix n n ℂ) : Matrix n n ℂ := -Dᴴ

/-! ### Absorbing layers -/

/-- The value of the stretching at the depth `k` of a layer of `n` cells of the double grid (functions.py 35-37, 58-60, 64-66, 70-72, 76-78). -/
noncomputable def stretch (k n : Nat) : ℂ :=
  let a : ℝ := 1 + (4 - 1) * ((k : ℝ) / n) ^ 3
  let c : ℝ := 1 * Real.sin (1 / 2 * Real.pi * k / n) ^ 2
  a * (1 - Complex.I * 60 * c)

/-- The loop for the lower side (functions.py 57-60, 69-72): the assignment of the depths `1, ..., n`. -/
noncomputable def lower (n : Nat) (s : Nat → ℂ) : Nat → ℂ :=
  (List.range n).foldl (fun s k => Function.update s (n - (k + 1)) (stretch (k + 1) n)) s

/-- The loop for the upper side (functions.py 63-66, 75-78). -/
noncomputable def upper (size n : Nat) (s : Nat → ℂ) : Nat → ℂ :=
  (List.range n).foldl (fun s k => Function.update s (size - n + (k + 1) - 1) (stretch (k + 1) n)) s

/-- `sx` along x, or `sy` along y, on the double grid (functions.py 43-78); `lo` and `hi` are entries of `NPML`. -/
noncomputable def stretches (size lo hi : Nat) : Nat → ℂ := upper size (2 * hi) (lower (2 * lo) fun _ => 1)

/-- The entries of the diagonals that the wave matrix of the mode "E" uses: `inv_URyy`, `inv_URxx` and `ERzz` (functions.py 87-107). `er` and `ur` are the arrays on the double grid. -/
noncomputable def invUryy (sx sy : Nat → ℂ) (ur : Nat → Nat → ℂ) (x y : Nat) : ℂ := 1 / (ur (2 * x + 1) (2 * y) * sx (2 * x + 1) / sy (2 * y))

/-- The entries of `inv_URxx` (functions.py 89, 98, 106). -/
noncomputable def invUrxx (sx sy : Nat → ℂ) (ur : Nat → Nat → ℂ) (x y : Nat) : ℂ := 1 / (ur (2 * x) (2 * y + 1) / sx (2 * x) * sy (2 * y + 1))

/-- The entries of `ERzz` (functions.py 87, 96, 105). -/
noncomputable def erzz (sx sy : Nat → ℂ) (er : Nat → Nat → ℂ) (x y : Nat) : ℂ := er (2 * x) (2 * y) * sx (2 * x) * sy (2 * y)

/-- `flatten("F")` of an array on the grid (functions.py 103-108). -/
def flat {Nx Ny : Nat} (a : Nat → Nat → ℂ) : Fin (Nx * Ny) → ℂ := fun i => a (i % Nx) (i / Nx)

/-! ### The field -/

/-- The wave matrix (bender.py 237; mode_converter.py 241). -/
noncomputable def waveMatrix (Nx Ny : Nat) (dx dy : ℝ) (uyy uxx e : Fin (Nx * Ny) → ℂ) : Matrix (Fin (Nx * Ny)) (Fin (Nx * Ny)) ℂ :=
  dual (dex Nx Ny dx 0) * diagonal uyy * dex Nx Ny dx 0 + dual (dey Nx Ny dy 0) * diagonal uxx * dey Nx Ny dy 0 + diagonal e

/-- The matrix of the eigenvalue problem of a waveguide along y (bender.py 173; mode_converter.py 176, 211). -/
noncomputable def slabMatrix (Ny : Nat) (dy : ℝ) (e : Fin (1 * Ny) → ℂ) : Matrix (Fin (1 * Ny)) (Fin (1 * Ny)) ℂ :=
  -(dual (dey 1 Ny dy 0) * diagonal (fun _ => 1) * dey 1 Ny dy 0 + diagonal e)

/-- `NEFF` from the eigenvalue `D` (bender.py 182-183). -/
noncomputable def neff (d : ℂ) : ℂ := -Complex.I * d ^ (1 / 2 : ℂ)

/-- The normalized mode (bender.py 186-187): `z0` is the impedance of the vacuum. -/
noncomputable def normalized {n : Type} [Fintype n] (nf : ℂ) (z0 dy : ℝ) (m : n → ℂ) : n → ℂ :=
  let c : ℂ := (nf / (2 * z0) * (((∑ i, ‖m i‖ ^ 2) * dy : ℝ) : ℂ)) ^ (1 / 2 : ℂ)
  fun i => m i / c

/-- `fsrc` on the grid (bender.py 243-245). -/
noncomputable def source {Nx Ny : Nat} (mode : Nat → ℂ) (k0 dx : ℝ) (nf : ℂ) : Fin (Nx * Ny) → ℂ :=
  flat fun x y => mode y * Complex.exp (-Complex.I * k0 * nf * (x + 1) * dx)

/-- The diagonal of `Q` (bender.py 248-251). -/
def mask {Nx Ny : Nat} (n : Nat) : Fin (Nx * Ny) → ℂ := flat fun x _ => if x < n then 1 else 0

/-- `b` (bender.py 254). -/
noncomputable def rhs {n : Type} [Fintype n] [DecidableEq n] (A : Matrix n n ℂ) (q f : n → ℂ) : n → ℂ := (diagonal q * A - A * diagonal q) *ᵥ f

/-- `S21` (bender.py 270). -/
noncomputable def s21 {n : Type} [Fintype n] (ftrn out : n → ℂ) : ℂ := (∑ i, ftrn i * (starRingEnd ℂ) (out i)) / ∑ i, (starRingEnd ℂ) (out i) * out i

/-- The matrix of the eigenvalue problem of a waveguide along x (bender.py 209). -/
noncomputable def slabMatrixX (Nx : Nat) (dx : ℝ) (e : Fin (Nx * 1) → ℂ) : Matrix (Fin (Nx * 1)) (Fin (Nx * 1)) ℂ :=
  -(dual (dex Nx 1 dx 0) * diagonal (fun _ => 1) * dex Nx 1 dx 0 + diagonal e)

/-- The loss (bender.py 182-187, 218-224, 243-272; mode_converter.py 185-190, 222-227, 247-274): `m` and `o` are the eigenvectors of the two waveguides, with their `NEFF`, `n` the number of columns
of the region of the source, and `sel` the cells where the transmitted field is taken. `spsolve` gives the solution. -/
noncomputable def loss {Nx Ny : Nat} {k : Type} [Fintype k] (A : Matrix (Fin (Nx * Ny)) (Fin (Nx * Ny)) ℂ) (n : Nat) (k0 dx dy z0 : ℝ) (nin nout : ℂ) (m : Fin Ny → ℂ) (o : k → ℂ) (sel : k → Fin (Nx * Ny)) : ℝ :=
  let mode := normalized nin z0 dy m
  let s : Fin (Nx * Ny) → ℂ := source (fun y => if h : y < Ny then mode ⟨y, h⟩ else 0) k0 dx nin
  let f := A⁻¹ *ᵥ rhs A (mask n) s
  1 - ‖s21 (fun j => f (sel j)) (normalized nout z0 dy o)‖ ^ 2

end NG.Fdfd
