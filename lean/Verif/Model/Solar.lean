/-
The solar cell problems (`nevergrad/functions/photonics/photonics.py` 238-418): scattering matrices, the absorption of a stack of layers and the costs, and the product of scattering matrices with blocks
(photonics.py 76-115).

Simplifications. Real and complex numbers are exact and arrays are functions of their places. `absorption` is modelled as it is called by the two problems: `pol = 0`, `theta = 0` and all `mu = 1`, so that
`alpha = 0` and the branches for negative `mu` are not taken. The elements of `I` that are not used are left out. The tables of the permittivity of silicon and of the solar spectrum are parameters.
-/
import Mathlib.Analysis.SpecialFunctions.Pow.Complex
import Mathlib.Analysis.SpecialFunctions.Exp
import Mathlib.Analysis.Real.Sqrt
import Mathlib.LinearAlgebra.Matrix.NonsingularInverse

namespace NG.Solar

/-- A 2x2 scattering matrix. Used in `cascade2` (photonics.py 248-260). -/
@[ext] structure SMat where
  s00 : ℂ
  s01 : ℂ
  s10 : ℂ
  s11 : ℂ

/-- `cascade2` (photonics.py 248-260). -/
noncomputable def cascade2 (A B : SMat) : SMat :=
  let t := 1 / (1 - B.s00 * A.s11)
  ⟨A.s00 + A.s01 * B.s00 * A.s10 * t, A.s01 * B.s01 * t, B.s10 * A.s10 * t, B.s11 + A.s11 * B.s01 * B.s10 * t⟩

/-- `[[0, 1], [1, 0]]` (photonics.py 298). -/
def swap : SMat := ⟨0, 1, 1, 0⟩

/-- `gamma` (photonics.py 281-296) for `g` layers with the permittivities `eps`; `np.sqrt` is the principal square root. The slice `1 : g - 2` is changed where the imaginary part is negative. -/
noncomputable def gamma (k0 : ℝ) (g : Nat) (eps : Nat → ℂ) (k : Nat) : ℂ :=
  let raw := (eps k * (k0 : ℂ) ^ 2) ^ (1 / 2 : ℂ)
  if 1 ≤ k ∧ k < g - 2 ∧ raw.im < 0 then -raw else raw

section
/- The numbers `gamma` and the heights of the layers. -/
variable (γ : Nat → ℂ) (h : Nat → ℝ)

/-- The factor of a layer (photonics.py 300, 309). -/
noncomputable def phase (k : Nat) : ℂ := Complex.exp (Complex.I * γ k * h k)

/-- The matrix of a layer (photonics.py 301, 310). -/
noncomputable def prop (k : Nat) : SMat := ⟨0, phase γ h k, phase γ h k, 0⟩

/-- The matrix of the interface between the layers `k` and `k + 1` (photonics.py 303-308). -/
noncomputable def iface (k : Nat) : SMat :=
  let b1 := γ k
  let b2 := γ (k + 1)
  ⟨(b1 - b2) / (b1 + b2), 2 * b2 / (b1 + b2), 2 * b1 / (b1 + b2), (b2 - b1) / (b1 + b2)⟩

/-- The array `T` (photonics.py 297-310). -/
noncomputable def T (j : Nat) : SMat :=
  if j = 0 then swap else if j % 2 = 1 then prop γ h ((j - 1) / 2) else iface γ (j / 2 - 1)

/-- The array `A` (photonics.py 312-316). -/
noncomputable def A : Nat → SMat
  | 0 => T γ h 0
  | j + 1 => cascade2 (A j) (T γ h (j + 1))

/-- The array `H` (photonics.py 311-317), with `g` layers. -/
noncomputable def H (g : Nat) : Nat → SMat
  | 0 => T γ h (2 * g - 1)
  | j + 1 => cascade2 (T γ h (2 * g - 2 - j)) (H g j)

/-- `I[j][0, 0]` (photonics.py 320-326). -/
noncomputable def down (g j : Nat) : ℂ :=
  if j < 2 * g - 1 then (A γ h j).s10 / (1 - (A γ h j).s11 * (H γ h g (2 * g - 2 - j)).s00)
  else (A γ h (2 * g - 2)).s10 / (1 - (A γ h (2 * g - 2)).s11 * (H γ h g (2 * g - 2 - (2 * g - 2))).s00) * phase γ h (g - 1)

/-- `I[j][1, 0]` (photonics.py 324, 328). -/
noncomputable def up (g j : Nat) : ℂ :=
  if j < 2 * g - 1 then (A γ h j).s10 * (H γ h g (2 * g - 2 - j)).s00 / (1 - (A γ h j).s11 * (H γ h g (2 * g - 2 - j)).s00) else 0

/-- The variable `w` of the loop (photonics.py 330, 340): the layer of the place `j`. -/
def w : Nat → Nat
  | 0 => 0
  | j + 1 => w j + 1 - (j + 1) % 2

/-- `poynting[j]` (photonics.py 331-340). -/
noncomputable def poynting (g j : Nat) : ℝ :=
  ((down γ h g j + up γ h g j) * (starRingEnd ℂ) ((down γ h g j - up γ h g j) * γ (w j)) / γ 0).re

/-- `absorb[m]` (photonics.py 350-352), for the `g` layers. -/
noncomputable def absorb (g m : Nat) : ℝ := |-(poynting γ h g (2 * m + 1) - poynting γ h g (2 * m))|

end

/-- The wave lengths of the table of silicon (photonics.py 239). -/
def grid (k : Nat) : ℝ := 250 + 5 * k

/-- `np.argmin(np.sign(lam - a)) - 1` (photonics.py 243), for `lam` between the ends of the table: the place before the first wave length that is larger. -/
noncomputable def place (lam : ℝ) : Nat := (List.range 250).findIdx (fun k => decide (lam < grid k)) - 1

/-- `epscSi` (photonics.py 238-245) with the table `e`. -/
noncomputable def epscSi (e : Nat → ℂ) (lam : ℝ) : ℂ :=
  let y := place lam
  (e (y + 1) - e y) / ((grid (y + 1) - grid y : ℝ) : ℂ) * ((lam - grid y : ℝ) : ℂ) + e y

/-- The absorption of the last layer, for the wave length `lam` (photonics.py 271-352, 367-375, 405-413), with the layers `eps` and the heights `hs` between air and silicon. -/
noncomputable def share (si : ℝ → ℂ) (eps hs : List ℝ) (lam : ℝ) : ℝ :=
  let g := eps.length + 2
  let all : List ℂ := [1] ++ eps.map (fun (e : ℝ) => (e : ℂ)) ++ [si lam]
  let hauteur : List ℝ := [0] ++ hs ++ [30000]
  absorb (gamma (2 * Real.pi / lam) g fun k => all.getD k 0) (fun k => hauteur.getD k 0) g (g - 1)

/-- `np.linspace(375, 750, 100)` (photonics.py 359-363). -/
noncomputable def lambdas : List ℝ := (List.range 100).map fun (k : Nat) => 375 + 375 / 99 * (k : ℝ)

/-- `trapezoid` (photonics.py 26-30). -/
noncomputable def trapezoid : List (ℝ × ℝ) → ℝ
  | (y, x) :: (y', x') :: l => (x' - x) * (y + y') / 2 + trapezoid ((y', x') :: l)
  | _ => 0

/-- The cost (photonics.py 376-380, 414-418) of the shares at the wave lengths. -/
noncomputable def cost (solar ab : ℝ → ℝ) : ℝ :=
  let maxScc := trapezoid (lambdas.map fun lam => (solar lam, lam))
  let jsc := trapezoid (lambdas.map fun lam => (solar lam * ab lam, lam))
  1 - jsc / maxScc

/-- `cf_photosic_realistic` (photonics.py 383-418): the first half of the numbers are the permittivities. -/
noncomputable def realistic (si : ℝ → ℂ) (solar : ℝ → ℝ) (x : List ℝ) : ℝ :=
  let dimension := x.length / 2
  let eps := x.take dimension
  let d := (x.drop dimension).take dimension
  cost solar (share si eps d)

/-- `cf_photosic_reference` (photonics.py 355-380): the permittivities are alternately 2 and 3. -/
noncomputable def reference (si : ℝ → ℂ) (solar : ℝ → ℝ) (x : List ℝ) : ℝ :=
  cost solar (share si (List.replicate (x.length / 2) [2, 3]).flatten x)

/-! ### Scattering matrices with blocks -/

section
variable {n : Type} [Fintype n] [DecidableEq n]

/-- A scattering matrix with blocks. Used in `cascade` (photonics.py 76-100). -/
@[ext] structure Block (n : Type) where
  b00 : Matrix n n ℂ
  b01 : Matrix n n ℂ
  b10 : Matrix n n ℂ
  b11 : Matrix n n ℂ

/-- `cascade` (photonics.py 76-100). -/
noncomputable def cascade (T U : Block n) : Block n :=
  let J := (1 - U.b00 * T.b11)⁻¹
  let K := (1 - T.b11 * U.b00)⁻¹
  ⟨T.b00 + T.b01 * J * U.b00 * T.b10, T.b01 * J * U.b01, U.b10 * K * T.b10, U.b11 + U.b10 * K * T.b11 * U.b01⟩

/-- `c_bas` (photonics.py 103-115) with the factors of the layer on the diagonal of `D`. -/
def cBas (T : Block n) (D : Matrix n n ℂ) : Block n := ⟨T.b00, T.b01 * D, D * T.b10, D * T.b11 * D⟩

end

end NG.Solar
