/-
Model of the grating of `nevergrad/functions/photonics/photonics.py`: `marche`, `creneau`, `homogene`, `interface` and `morpho`
(lines 118-232). Real and complex numbers are exact. The matrices have `2 N + 1` rows, one for each order from `-N` to `N` (the code has
`N = 25`). `np.linalg.eig` is an argument. `np.linalg.inv` raises for a matrix without inverse; the inverse of the model is then zero,
and the theorems ask for the inverses to exist.
-/
import Verif.Model.Solar
import Mathlib.Analysis.SpecialFunctions.Complex.Circle
import Mathlib.Data.Matrix.Block

namespace NG.Morpho

open Matrix NG.Solar

/-- The rows of the matrices: `2 * nmod + 1` orders (photonics.py 184, 187). -/
abbrev Idx (N : Nat) := Fin (2 * N + 1)

/-- The order of a row: `np.arange(-nmod, nmod + 1)` (photonics.py 139, 165). -/
def order {N : Nat} (i : Idx N) : ℤ := (i : ℤ) - N

/-- The array `tmp` of `marche` (photonics.py 121-126). -/
noncomputable def tmp (p x : ℝ) (k : Nat) : ℂ :=
  1 / (2 * Real.pi * k) * (Complex.exp (-2 * Complex.I * Real.pi * p * k) - 1) * Complex.exp (-2 * Complex.I * Real.pi * k * x)

/-- The first column `l` of `marche` (photonics.py 127-128). -/
noncomputable def firstCol (a b p x : ℝ) (k : Nat) : ℂ :=
  if k = 0 then p * a + (1 - p) * b else Complex.I * (a - b) * tmp p x k

/-- The first row `m` of `marche` (photonics.py 129-130). -/
noncomputable def firstRow (a b p x : ℝ) (k : Nat) : ℂ :=
  if k = 0 then firstCol a b p x 0 else Complex.I * (b - a) * (starRingEnd ℂ) (tmp p x k)

/-- `marche` (photonics.py 118-132); `toeplitz(l, m)` has the column `l` and the row `m`. -/
noncomputable def marche (a b p : ℝ) (n : Nat) (x : ℝ) : Matrix (Fin n) (Fin n) ℂ := fun i j =>
  if j ≤ i then firstCol a b p x (i - j) else firstRow a b p x (j - i)

/-- The two blocks of the array `P` and the array `V` of a medium (returned by photonics.py 135-168). -/
structure Modes (n : Type) where
  top : Matrix n n ℂ
  bot : Matrix n n ℂ
  val : n → ℂ

/-- The diagonal matrix `alpha` (photonics.py 139). -/
noncomputable def alpha (N : Nat) (a0 : ℝ) : Matrix (Idx N) (Idx N) ℂ := diagonal fun i => (a0 : ℂ) + 2 * Real.pi * (order i : ℂ)

/-- The matrix `M` of `creneau` (photonics.py 141, 147-155). -/
noncomputable def modeMatrix (N : Nat) (k0 a0 pol e1 e2 a x0 : ℝ) : Matrix (Idx N) (Idx N) ℂ :=
  if pol = 0 then alpha N a0 * alpha N a0 - ((k0 : ℂ) * k0) • marche e1 e2 a (2 * N + 1) x0
  else
    let T := (marche (1 / e1) (1 / e2) a (2 * N + 1) x0)⁻¹
    T * alpha N a0 * (marche e1 e2 a (2 * N + 1) x0)⁻¹ * alpha N a0 - ((k0 : ℂ) * k0) • T

/-- `L = np.sqrt(-L + 0j)` and the change of the sign (photonics.py 143-144, 157-158). -/
noncomputable def root (z : ℂ) : ℂ :=
  let l := (-z) ^ (1 / 2 : ℂ)
  if l.im < -(1 / 10 ^ 15) then -l else l

/-- `creneau` (photonics.py 135-160). -/
noncomputable def creneau {N : Nat} (eig : Matrix (Idx N) (Idx N) ℂ → (Idx N → ℂ) × Matrix (Idx N) (Idx N) ℂ)
    (k0 a0 pol e1 e2 a x0 : ℝ) : Modes (Idx N) :=
  let r := eig (modeMatrix N k0 a0 pol e1 e2 a x0)
  let L := fun i => root (r.1 i)
  if pol = 0 then ⟨r.2, r.2 * diagonal L, L⟩ else ⟨r.2, marche (1 / e1) (1 / e2) a (2 * N + 1) x0 * r.2 * diagonal L, L⟩

/-- `valp` (photonics.py 165-166); numpy compares complex numbers by their real parts first. -/
noncomputable def valp {N : Nat} (k0 a0 eps : ℝ) (i : Idx N) : ℂ :=
  let v : ℂ := ((eps * k0 * k0 - (a0 + 2 * Real.pi * (order i : ℝ)) ^ 2 : ℝ) : ℂ) ^ (1 / 2 : ℂ)
  if v.re < 0 ∨ v.re = 0 ∧ v.im < 0 then -v else v

/-- `homogene` (photonics.py 163-168). -/
noncomputable def homogene (N : Nat) (k0 a0 pol eps : ℝ) : Modes (Idx N) :=
  ⟨1, diagonal fun i => valp k0 a0 eps i * (pol / eps + (1 - pol)), fun i => valp k0 a0 eps i⟩

section
variable {n : Type} [Fintype n] [DecidableEq n]

/-- The matrix inverted in `interface` (photonics.py 174). -/
def outMat (P Q : Modes n) : Matrix (n ⊕ n) (n ⊕ n) ℂ := fromBlocks P.top (-Q.top) P.bot Q.bot

/-- `interface` (photonics.py 171-177). -/
noncomputable def interface (P Q : Modes n) : Block n :=
  let S := (outMat P Q)⁻¹ * fromBlocks (-P.top) Q.top P.bot Q.bot
  ⟨S.toBlocks₁₁, S.toBlocks₁₂, S.toBlocks₂₁, S.toBlocks₂₂⟩

/-- The diagonal matrix `D` of `c_bas` (photonics.py 105). -/
noncomputable def delay (v : n → ℂ) (h : ℝ) : Matrix n n ℂ := diagonal fun i => Complex.exp (Complex.I * v i * h)

/-- The first `S` of `morpho` (photonics.py 197). -/
def start : Block n := ⟨0, 1, 1, 0⟩

end

/-- The numbers of one motif, divided by `d` (photonics.py 188-193). -/
structure Motif where
  h : ℝ
  x0 : ℝ
  a : ℝ
  spacer : ℝ

section
variable {N : Nat} (eig : Matrix (Idx N) (Idx N) ℂ → (Idx N → ℂ) × Matrix (Idx N) (Idx N) ℂ)

/-- One turn of the loop over the motifs (photonics.py 198-203, 222-227). -/
noncomputable def addMotif (k0 pol e2 : ℝ) (S : Block (Idx N)) (m : Motif) : Block (Idx N) :=
  let P := homogene N k0 0 pol 1
  let Pc := creneau eig k0 0 pol e2 1 m.a m.x0
  let S := cascade S (interface P Pc)
  let S := cBas S (delay Pc.val m.h)
  let S := cascade S (interface Pc P)
  cBas S (delay P.val m.spacer)

/-- The matrix `S` after the loop and the substrate (photonics.py 196-205, 215-229). -/
noncomputable def grating (k0 pol e2 : ℝ) (ms : List Motif) : Block (Idx N) :=
  cascade (ms.foldl (addMotif eig k0 pol e2) start) (interface (homogene N k0 0 pol 1) (homogene N k0 0 pol e2))

/-- The row of the order 0: `nmod` (photonics.py 208, 230). -/
def mid (N : Nat) : Idx N := ⟨N, by omega⟩

/-- The share of the light reflected in the order of the row `i` (photonics.py 208, 230). -/
noncomputable def reflected (k0 pol e2 : ℝ) (ms : List Motif) (i : Idx N) : ℝ :=
  ‖(grating eig k0 pol e2 ms).b00 i (mid N)‖ ^ 2 * (valp k0 0 1 i).re / k0

end

/-- The period `d` of the grating (photonics.py 183). -/
def period : ℚ := 600521475 / 1000000

/-- The slices of `X / d` (photonics.py 188-193). -/
noncomputable def motifs (X : List ℝ) : List Motif :=
  let nm := X.length / 4
  (List.range nm).map fun j : Nat =>
    ⟨X.getD j 0 / period, X.getD (nm + j) 0 / period, X.getD (2 * nm + j) 0 / period, X.getD (3 * nm + j) 0 / period⟩

/-- `2 * np.pi / l` with `l = lam / d` (photonics.py 194-195, 211-214). -/
noncomputable def waveNumber (lam : ℝ) : ℝ := 2 * Real.pi / (lam / period)

/-- `e2` (photonics.py 186). -/
noncomputable def epsilon2 : ℝ := 24336 / 10000

/-- The wavelengths of the second part (photonics.py 211). -/
noncomputable def lams : List ℝ := [400, 500, 600, 700, 800].map fun l : ℝ => l + 24587 / 100000

/-- `morpho` (photonics.py 180-232) for any number of orders. -/
noncomputable def cost {N : Nat} (hN : 0 < N) (eig : Matrix (Idx N) (Idx N) ℂ → (Idx N → ℂ) × Matrix (Idx N) (Idx N) ℂ) (X : List ℝ) : ℝ :=
  let k0 := waveNumber (4495897 / 10000)
  let R := fun i : Idx N => reflected eig k0 1 epsilon2 (motifs X) i
  let c := 1 - (R ⟨N - 1, by omega⟩ + R ⟨N + 1, by omega⟩) / 2 + R (mid N) / 2
  c + (lams.map fun l : ℝ => reflected eig (waveNumber l) 1 epsilon2 (motifs X) (mid N)).sum / lams.length

/-- `morpho` (photonics.py 180-232). -/
noncomputable def morpho (eig : Matrix (Idx 25) (Idx 25) ℂ → (Idx 25 → ℂ) × Matrix (Idx 25) (Idx 25) ℂ) (X : List ℝ) : ℝ := cost (N := 25) (by omega) eig X

end NG.Morpho
