/-
C141: the grating of the photonics problem morpho: the matrices are those of the profile of the grating, the scattering matrix gives the
fields that are continuous everywhere, the energy is conserved and the cost has the symmetries of the grating.
-/
import Verif.Lemmas.Morpho
import Mathlib.Analysis.Complex.Order
import Mathlib.MeasureTheory.Integral.IntervalIntegral.Periodic
import Mathlib.Analysis.SpecialFunctions.Integrals.Basic
import Mathlib.LinearAlgebra.Matrix.PosDef
import Verif.Model.Photonics
import Mathlib.Analysis.Matrix.Order
import Mathlib.Analysis.Matrix.Spectrum

set_option linter.unusedSectionVars false

namespace NG.Morpho

open Matrix NG.Solar
open scoped ComplexOrder

/-! ### The profile -/

/-- The profile of the grating, of period 1: `a` on a width `p` from `x`, and `b` elsewhere. -/
noncomputable def profile (a b p x t : ℝ) : ℝ := if Int.fract (t - x) < p then a else b

/-- The wave of order `k`. -/
noncomputable def wave (k : ℤ) (t : ℝ) : ℂ := Complex.exp (-2 * Real.pi * Complex.I * k * t)

theorem wave_add (k : ℤ) (s t : ℝ) : wave k (s + t) = wave k s * wave k t := by
  rw [wave, wave, wave, ← Complex.exp_add]; congr 1; push_cast; ring

theorem wave_one (k : ℤ) : wave k 1 = 1 := by
  rw [wave, show (-2 * Real.pi * Complex.I * k * ((1 : ℝ) : ℂ) : ℂ) = ((-k : ℤ) : ℂ) * (2 * Real.pi * Complex.I) by push_cast; ring]
  exact Complex.exp_int_mul_two_pi_mul_I _

theorem wave_zero (t : ℝ) : wave 0 t = 1 := by simp [wave]

theorem wave_conj (k : ℤ) (t : ℝ) : (starRingEnd ℂ) (wave k t) = wave (-k) t := by
  rw [wave, wave, ← Complex.exp_conj]
  congr 1
  simp only [map_mul, map_neg, Complex.conj_I, Complex.conj_ofReal, map_intCast, map_ofNat]
  push_cast; ring

theorem wave_mul (k l : ℤ) (t : ℝ) : wave k t * wave l t = wave (k + l) t := by
  rw [wave, wave, wave, ← Complex.exp_add]; congr 1; push_cast; ring

theorem wave_cont (k : ℤ) : Continuous (wave k) := by unfold wave; fun_prop

theorem wave_integral (k : ℤ) (s t : ℝ) : ∫ u in s..t, wave k u = if k = 0 then ((t - s : ℝ) : ℂ) else (wave k t - wave k s) / (-2 * Real.pi * Complex.I * k) := by
  split
  · rename_i h
    subst h
    simp [wave_zero]
  · rename_i h
    have hc : (-2 * Real.pi * Complex.I * k : ℂ) ≠ 0 := by
      have : (k : ℂ) ≠ 0 := by exact_mod_cast h
      have := Real.pi_ne_zero
      simp [*]
    exact integral_exp_mul_complex hc

/-- The integral of a profile times a continuous function of period 1. -/
theorem profile_integral {a b p x : ℝ} (h0 : 0 ≤ p) (h1 : p ≤ 1) {g : ℝ → ℂ} (hg : Continuous g) (hper : ∀ t, g (t + 1) = g t) :
    ∫ t in (0 : ℝ)..1, (profile a b p x t : ℂ) * g t = a * (∫ t in x..(x + p), g t) + b * ∫ t in (x + p)..(x + 1), g t := by
  have hp : Function.Periodic (fun t => (profile a b p x t : ℂ) * g t) 1 := fun t => by
    simp only [profile, hper]
    rw [show t + 1 - x = (t - x) + 1 by ring, Int.fract_add_one]
  have h := hp.intervalIntegral_add_eq 0 x
  rw [zero_add] at h
  rw [h]
  have e1 : Set.EqOn (fun t => (a : ℂ) * g t) (fun t => (profile a b p x t : ℂ) * g t) (Set.uIoo x (x + p)) := fun t ht => by
    rw [Set.uIoo_of_le (by linarith)] at ht
    have : Int.fract (t - x) = t - x := Int.fract_eq_self.2 ⟨by linarith [ht.1], by linarith [ht.2]⟩
    simp only [profile, this]
    rw [if_pos (by linarith [ht.2])]
  have e2 : Set.EqOn (fun t => (b : ℂ) * g t) (fun t => (profile a b p x t : ℂ) * g t) (Set.uIoo (x + p) (x + 1)) := fun t ht => by
    rw [Set.uIoo_of_le (by linarith)] at ht
    have : Int.fract (t - x) = t - x := Int.fract_eq_self.2 ⟨by linarith [ht.1], by linarith [ht.2]⟩
    simp only [profile, this]
    rw [if_neg (by linarith [ht.1])]
  have i1 : IntervalIntegrable (fun t => (a : ℂ) * g t) MeasureTheory.volume x (x + p) := (continuous_const.mul hg).intervalIntegrable _ _
  have i2 : IntervalIntegrable (fun t => (b : ℂ) * g t) MeasureTheory.volume (x + p) (x + 1) := (continuous_const.mul hg).intervalIntegrable _ _
  rw [← intervalIntegral.integral_add_adjacent_intervals (i1.congr_uIoo e1) (i2.congr_uIoo e2), ← intervalIntegral.integral_congr_uIoo e1, ← intervalIntegral.integral_congr_uIoo e2,
    intervalIntegral.integral_const_mul, intervalIntegral.integral_const_mul]

theorem wave_per (k : ℤ) (t : ℝ) : wave k (t + 1) = wave k t := by rw [wave_add, wave_one, mul_one]

/-- The Fourier coefficients of a profile. -/
theorem coefficient {a b p x : ℝ} (h0 : 0 ≤ p) (h1 : p ≤ 1) (k : ℤ) :
    ∫ t in (0 : ℝ)..1, (profile a b p x t : ℂ) * wave k t =
      if k = 0 then (p * a + (1 - p) * b : ℂ) else (a - b) * (wave k p - 1) * wave k x / (-2 * Real.pi * Complex.I * k) := by
  rw [profile_integral h0 h1 (wave_cont k) (wave_per k), wave_integral, wave_integral]
  split
  · push_cast; ring
  · rw [wave_per, wave_add]; ring

theorem tmp_eq (p x : ℝ) (k : Nat) : tmp p x k = 1 / (2 * Real.pi * k) * (wave k p - 1) * wave k x := by
  simp only [tmp, wave, Int.cast_natCast]
  congr 3
  · congr 1; ring
  · ring

/-- **C141.** The matrix of a profile has its Fourier coefficients: the entry of the row `i` and the column `j` is the one of order `i - j`. -/
theorem marche_fourier {a b p x : ℝ} (h0 : 0 ≤ p) (h1 : p ≤ 1) {n : Nat} (i j : Fin n) :
    marche a b p n x i j = ∫ t in (0 : ℝ)..1, (profile a b p x t : ℂ) * wave ((i : ℤ) - j) t := by
  have hpi : (Real.pi : ℂ) ≠ 0 := by exact_mod_cast Real.pi_ne_zero
  rw [coefficient h0 h1]
  simp only [marche, firstCol, firstRow]
  by_cases hij : i = j
  · subst hij; simp
  have hv : (i : ℕ) ≠ j := fun h => hij (Fin.ext h)
  have hz : (i : ℤ) - j ≠ 0 := by omega
  rw [if_neg hz]
  by_cases hle : j ≤ i
  · have hk : ((i - j : ℕ) : ℤ) = (i : ℤ) - j := by have : (j : ℕ) ≤ i := hle; omega
    have hk0 : (i - j : ℕ) ≠ 0 := by have : (j : ℕ) ≤ i := hle; omega
    rw [if_pos hle, if_neg hk0, tmp_eq, ← hk]
    have : ((i - j : ℕ) : ℂ) ≠ 0 := by exact_mod_cast hk0
    rw [Int.cast_natCast]
    field_simp
    linear_combination (((a : ℂ) - b) * (wave ((i - j : ℕ) : ℤ) p - 1) * wave ((i - j : ℕ) : ℤ) x) * Complex.I_sq
  · have hlt : (i : ℕ) < j := lt_of_not_ge hle
    have hk : -((j - i : ℕ) : ℤ) = (i : ℤ) - j := by omega
    have hk0 : (j - i : ℕ) ≠ 0 := by omega
    rw [if_neg hle, if_neg hk0, tmp_eq, ← hk]
    have : ((j - i : ℕ) : ℂ) ≠ 0 := by exact_mod_cast hk0
    simp only [map_mul, map_div₀, map_one, map_sub, Complex.conj_ofReal, map_natCast, map_ofNat, wave_conj]
    push_cast
    field_simp
    linear_combination (-((a : ℂ) - b) * (wave (-((j - i : ℕ) : ℤ)) p - 1) * wave (-((j - i : ℕ) : ℤ)) x) * Complex.I_sq

/-- **C141.** The matrix is Hermitian. -/
theorem marche_hermitian (a b p x : ℝ) (n : Nat) : (marche a b p n x).IsHermitian := by
  refine IsHermitian.ext fun i j => ?_
  simp only [marche]
  rcases lt_trichotomy i j with h | h | h
  · rw [if_pos h.le, if_neg (not_le.2 h)]
    have hk : (j - i : ℕ) ≠ 0 := by have : (i : ℕ) < j := h; omega
    rw [firstCol, firstRow, if_neg hk, if_neg hk]
    simp only [Complex.star_def, map_mul, map_sub, Complex.conj_I, Complex.conj_ofReal]
    ring
  · subst h
    simp [firstCol, ← Complex.ofReal_one]
  · rw [if_pos h.le, if_neg (not_le.2 h)]
    have hk : (i - j : ℕ) ≠ 0 := by have : (j : ℕ) < i := h; omega
    rw [firstCol, firstRow, if_neg hk, if_neg hk]
    simp only [Complex.star_def, map_mul, map_sub, Complex.conj_I, Complex.conj_ofReal, Complex.conj_conj]
    ring

theorem marche_add (a b a' b' p x : ℝ) (n : Nat) : marche (a + a') (b + b') p n x = marche a b p n x + marche a' b' p n x := by
  ext i j
  simp only [marche, Matrix.add_apply]
  split
  · simp only [firstCol]; split <;> push_cast <;> ring
  · simp only [firstRow, firstCol]; split <;> push_cast <;> ring

/-- **C141.** A grating of one material is this material. -/
theorem marche_uniform (a p x : ℝ) (n : Nat) : marche a a p n x = (a : ℂ) • (1 : Matrix (Fin n) (Fin n) ℂ) := by
  ext i j
  simp only [marche, firstCol, firstRow, Matrix.smul_apply, Matrix.one_apply]
  by_cases h : i = j
  · subst h; simp; ring
  · have h1 : (i : ℕ) ≠ j := fun e => h (Fin.ext e)
    by_cases hle : j ≤ i
    · have : (i - j : ℕ) ≠ 0 := by have : (j : ℕ) ≤ i := hle; omega
      simp [hle, this, h]
    · have : (j - i : ℕ) ≠ 0 := by have : (i : ℕ) < j := lt_of_not_ge hle; omega
      simp [hle, this, h]

/-- **C141.** Moving the grating by one period changes nothing. -/
theorem marche_period (a b p x : ℝ) (n : Nat) : marche a b p n (x + 1) = marche a b p n x := by
  ext i j
  simp only [marche, firstCol, firstRow, tmp_eq, wave_per]

theorem marche_form {a b p x : ℝ} (h0 : 0 ≤ p) (h1 : p ≤ 1) {n : Nat} (c : Fin n → ℂ) :
    star c ⬝ᵥ (marche a b p n x *ᵥ c) =
      ((a * (∫ t in x..(x + p), Complex.normSq (∑ j, c j * wave (-(j : ℤ)) t)) + b * ∫ t in (x + p)..(x + 1), Complex.normSq (∑ j, c j * wave (-(j : ℤ)) t) : ℝ) : ℂ) := by
  have hq : ∀ t, ((Complex.normSq (∑ j, c j * wave (-(j : ℤ)) t) : ℝ) : ℂ) = ∑ i, ∑ j, (starRingEnd ℂ) (c i) * c j * wave ((i : ℤ) - j) t := fun t => by
    rw [Complex.normSq_eq_conj_mul_self, map_sum, Finset.sum_mul]
    refine Finset.sum_congr rfl fun i _ => ?_
    rw [Finset.mul_sum]
    refine Finset.sum_congr rfl fun j _ => ?_
    rw [map_mul, wave_conj, neg_neg, sub_eq_add_neg, ← wave_mul]
    ring
  have hint : ∀ s t : ℝ, ((∫ u in s..t, Complex.normSq (∑ j, c j * wave (-(j : ℤ)) u) : ℝ) : ℂ) = ∑ i, ∑ j, (starRingEnd ℂ) (c i) * c j * ∫ u in s..t, wave ((i : ℤ) - j) u := fun s t => by
    rw [← intervalIntegral.integral_ofReal]
    simp only [hq]
    have c1 : ∀ i j : Fin n, Continuous fun u => (starRingEnd ℂ) (c i) * c j * wave ((i : ℤ) - j) u := fun i j => continuous_const.mul (wave_cont _)
    have c2 : ∀ i : Fin n, Continuous fun u => ∑ j : Fin n, (starRingEnd ℂ) (c i) * c j * wave ((i : ℤ) - j) u := fun i => continuous_finset_sum _ fun j _ => c1 i j
    rw [intervalIntegral.integral_finset_sum fun i _ => (c2 i).intervalIntegrable _ _]
    refine Finset.sum_congr rfl fun i _ => ?_
    rw [intervalIntegral.integral_finset_sum fun j _ => (c1 i j).intervalIntegrable _ _]
    refine Finset.sum_congr rfl fun j _ => ?_
    rw [intervalIntegral.integral_const_mul]
  push_cast
  rw [hint, hint, Finset.mul_sum, Finset.mul_sum, ← Finset.sum_add_distrib]
  simp only [dotProduct, mulVec, Pi.star_apply, Complex.star_def]
  refine Finset.sum_congr rfl fun i _ => ?_
  rw [Finset.mul_sum, Finset.mul_sum, Finset.mul_sum, ← Finset.sum_add_distrib]
  refine Finset.sum_congr rfl fun j _ => ?_
  rw [marche_fourier h0 h1, profile_integral h0 h1 (wave_cont _) (wave_per _)]
  ring

theorem marche_nonneg {a b p x : ℝ} (h0 : 0 ≤ p) (h1 : p ≤ 1) (ha : 0 ≤ a) (hb : 0 ≤ b) (n : Nat) : (marche a b p n x).PosSemidef := by
  refine PosSemidef.of_dotProduct_mulVec_nonneg (marche_hermitian a b p x n) fun c => ?_
  rw [marche_form h0 h1]
  rw [Complex.zero_le_real]
  have i1 : 0 ≤ ∫ t in x..(x + p), Complex.normSq (∑ j, c j * wave (-(j : ℤ)) t) := intervalIntegral.integral_nonneg (by linarith) fun t _ => Complex.normSq_nonneg _
  have i2 : 0 ≤ ∫ t in (x + p)..(x + 1), Complex.normSq (∑ j, c j * wave (-(j : ℤ)) t) := intervalIntegral.integral_nonneg (by linarith) fun t _ => Complex.normSq_nonneg _
  positivity

/-- **C141.** The matrix of a grating of two transparent materials is positive definite: its inverse exists. -/
theorem marche_pos {a b p x : ℝ} (h0 : 0 ≤ p) (h1 : p ≤ 1) (ha : 0 < a) (hb : 0 < b) (n : Nat) : (marche a b p n x).PosDef := by
  have e : marche a b p n x = marche (min a b) (min a b) p n x + marche (a - min a b) (b - min a b) p n x := by
    rw [← marche_add]; congr 1 <;> ring
  rw [e, marche_uniform]
  refine PosDef.add_posSemidef ?_ (marche_nonneg h0 h1 (by linarith [min_le_left a b]) (by linarith [min_le_right a b]) n)
  refine PosDef.smul PosDef.one ?_
  rw [Complex.zero_lt_real]
  exact lt_min ha hb

/-! ### Fields -/

theorem root_sq (z : ℂ) : root z * root z = -z := by
  simp only [root]
  have h := sqrt_eq (-z)
  split
  · rw [neg_mul_neg, ← sq, h]
  · rw [← sq, h]

theorem valp_sq {N : Nat} (k0 a0 eps : ℝ) (i : Idx N) : valp k0 a0 eps i * valp k0 a0 eps i = ((eps * k0 * k0 - (a0 + 2 * Real.pi * (order i : ℝ)) ^ 2 : ℝ) : ℂ) := by
  simp only [valp]
  have h := sqrt_eq ((eps * k0 * k0 - (a0 + 2 * Real.pi * (order i : ℝ)) ^ 2 : ℝ) : ℂ)
  split
  · rw [neg_mul_neg, ← sq, h]
  · rw [← sq, h]

section
variable {N : Nat} {eig : Matrix (Idx N) (Idx N) ℂ → (Idx N → ℂ) × Matrix (Idx N) (Idx N) ℂ}

/-- `np.linalg.eig` gives eigenvalues and eigenvectors that span the space. -/
def Eigen (eig : Matrix (Idx N) (Idx N) ℂ → (Idx N → ℂ) × Matrix (Idx N) (Idx N) ℂ) (M : Matrix (Idx N) (Idx N) ℂ) : Prop :=
  M * (eig M).2 = (eig M).2 * diagonal (eig M).1 ∧ IsUnit (eig M).2.det

/-- The matrix that makes the lower block of a medium from the upper one. -/
noncomputable def weight (N : Nat) (pol e1 e2 a x0 : ℝ) : Matrix (Idx N) (Idx N) ℂ := if pol = 0 then 1 else marche (1 / e1) (1 / e2) a (2 * N + 1) x0

theorem alpha_hermitian (a0 : ℝ) : (alpha N a0).IsHermitian := by
  refine isHermitian_diagonal_of_self_adjoint _ (funext fun i => ?_)
  simp

theorem mode_hermitian {k0 a0 pol e1 e2 a x0 : ℝ} (h0 : 0 ≤ a) (h1 : a ≤ 1) (he1 : 0 < e1) (he2 : 0 < e2) :
    (weight N pol e1 e2 a x0 * modeMatrix N k0 a0 pol e1 e2 a x0).IsHermitian := by
  have hk : star ((k0 : ℂ) * k0) = (k0 : ℂ) * k0 := by simp
  simp only [weight, modeMatrix]
  split
  · rw [one_mul]
    refine IsHermitian.sub ?_ ?_
    · rw [IsHermitian, conjTranspose_mul, (alpha_hermitian a0).eq]
    · rw [IsHermitian, conjTranspose_smul, (marche_hermitian ..).eq, hk]
  · have hu : IsUnit (marche (1 / e1) (1 / e2) a (2 * N + 1) x0).det := (isUnit_iff_isUnit_det _).1 (marche_pos h0 h1 (by positivity) (by positivity) _).isUnit
    have hi : ((marche e1 e2 a (2 * N + 1) x0)⁻¹).IsHermitian := (marche_hermitian ..).inv
    have e : marche (1 / e1) (1 / e2) a (2 * N + 1) x0 * ((marche (1 / e1) (1 / e2) a (2 * N + 1) x0)⁻¹ * alpha N a0 * (marche e1 e2 a (2 * N + 1) x0)⁻¹ * alpha N a0 -
        ((k0 : ℂ) * k0) • (marche (1 / e1) (1 / e2) a (2 * N + 1) x0)⁻¹) = alpha N a0 * (marche e1 e2 a (2 * N + 1) x0)⁻¹ * alpha N a0 - ((k0 : ℂ) * k0) • 1 := by
      rw [mul_sub, mul_smul_comm, mul_nonsing_inv _ hu, ← mul_assoc, ← mul_assoc, ← mul_assoc, mul_nonsing_inv _ hu, one_mul]
    rw [e]
    refine IsHermitian.sub ?_ ?_
    · rw [IsHermitian, conjTranspose_mul, conjTranspose_mul, hi.eq, (alpha_hermitian a0).eq, mul_assoc]
    · rw [IsHermitian, conjTranspose_smul, conjTranspose_one, hk]

/-- **C141.** A grating of two transparent materials has no losses. -/
theorem creneau_lossless {k0 a0 pol e1 e2 a x0 : ℝ} (h0 : 0 ≤ a) (h1 : a ≤ 1) (he1 : 0 < e1) (he2 : 0 < e2) (hg : Eigen eig (modeMatrix N k0 a0 pol e1 e2 a x0)) :
    Lossless (creneau eig k0 a0 pol e1 e2 a x0) (weight N pol e1 e2 a x0) (modeMatrix N k0 a0 pol e1 e2 a x0) where
  bot := by simp only [creneau, weight]; split <;> simp
  herm := by simp only [weight]; split; exacts [isHermitian_one, marche_hermitian ..]
  herm' := mode_hermitian h0 h1 he1 he2
  modes := by
    have e : ∀ P : Modes (Idx N), P.top = (eig (modeMatrix N k0 a0 pol e1 e2 a x0)).2 → P.val = (fun i => root ((eig (modeMatrix N k0 a0 pol e1 e2 a x0)).1 i)) →
        modeMatrix N k0 a0 pol e1 e2 a x0 * P.top = P.top * diagonal fun i => -(P.val i * P.val i) := fun P ht hv => by
      rw [ht, hv, hg.1]
      simp only [root_sq, neg_neg]
    refine e _ ?_ ?_ <;> (simp only [creneau]; split <;> rfl)

/-- **C141.** A homogeneous transparent material has no losses. -/
theorem homogene_lossless (N : Nat) (k0 a0 pol eps : ℝ) :
    Lossless (homogene N k0 a0 pol eps) (((pol / eps + (1 - pol) : ℝ) : ℂ) • 1) (diagonal fun i => -(valp k0 a0 eps i * valp k0 a0 eps i)) where
  bot := by
    simp only [homogene, mul_one, smul_mul_assoc, one_mul, smul_eq_diagonal_mul]
    rw [diagonal_mul_diagonal]
    congr 1; funext i; push_cast; ring
  herm := by rw [IsHermitian, conjTranspose_smul, conjTranspose_one]; simp
  herm' := by
    rw [smul_mul_assoc, one_mul, IsHermitian, conjTranspose_smul, diagonal_conjTranspose]
    congr 1
    · simp
    · congr 1; funext i
      simp only [Pi.star_apply, valp_sq]
      simp
  modes := by simp only [homogene, mul_one, one_mul]

/-! ### The stack -/

/-- None of the inverses taken by the code for the layers is the one of a singular matrix, from the scattering matrix `S` on. -/
def RegularFrom (eig : Matrix (Idx N) (Idx N) ℂ → (Idx N → ℂ) × Matrix (Idx N) (Idx N) ℂ) (k0 pol e2 : ℝ) : Block (Idx N) → List Motif → Prop
  | S, [] => IsUnit (outMat (homogene N k0 0 pol 1) (homogene N k0 0 pol e2)).det ∧
      IsUnit (1 - (interface (homogene N k0 0 pol 1) (homogene N k0 0 pol e2)).b00 * S.b11).det
  | S, m :: ms =>
    let P := homogene N k0 0 pol 1
    let Pc := creneau eig k0 0 pol e2 1 m.a m.x0
    let S1 := cBas (cascade S (interface P Pc)) (delay Pc.val m.h)
    IsUnit (outMat P Pc).det ∧ IsUnit (1 - (interface P Pc).b00 * S.b11).det ∧ IsUnit (outMat Pc P).det ∧
      IsUnit (1 - (interface Pc P).b00 * S1.b11).det ∧ RegularFrom eig k0 pol e2 (addMotif eig k0 pol e2 S m) ms

/-- The same for a whole stack. -/
def Regular (eig : Matrix (Idx N) (Idx N) ℂ → (Idx N → ℂ) × Matrix (Idx N) (Idx N) ℂ) (k0 pol e2 : ℝ) (ms : List Motif) : Prop := RegularFrom eig k0 pol e2 start ms

/-- The waves go from the air through one motif and its spacer to the air. -/
def Through (P Pc : Modes (Idx N)) (m : Motif) (a b c d : Idx N → ℂ) : Prop :=
  ∃ a1 b1 a2 b2 a3 b3, Meets P Pc a b a1 b1 ∧ Travels Pc.val m.h a1 b1 a2 b2 ∧ Meets Pc P a2 b2 a3 b3 ∧ Travels P.val m.spacer a3 b3 c d

/-- The waves above a stack and below its substrate: there are waves in all the layers that are continuous at all the interfaces. -/
def Fields (eig : Matrix (Idx N) (Idx N) ℂ → (Idx N → ℂ) × Matrix (Idx N) (Idx N) ℂ) (k0 pol e2 : ℝ) : List Motif → (a b c d : Idx N → ℂ) → Prop
  | [], a, b, c, d => Meets (homogene N k0 0 pol 1) (homogene N k0 0 pol e2) a b c d
  | m :: ms, a, b, c, d => ∃ x y, Through (homogene N k0 0 pol 1) (creneau eig k0 0 pol e2 1 m.a m.x0) m a b x y ∧ Fields eig k0 pol e2 ms x y c d

theorem fields_from {k0 pol e2 : ℝ} : ∀ (ms : List Motif) (S : Block (Idx N)), RegularFrom eig k0 pol e2 S ms → ∀ a b c d,
    (Rel (cascade (ms.foldl (addMotif eig k0 pol e2) S) (interface (homogene N k0 0 pol 1) (homogene N k0 0 pol e2))) a b c d ↔
      ∃ x y, Rel S a b x y ∧ Fields eig k0 pol e2 ms x y c d)
  | [], S, h, a, b, c, d => by
    rw [List.foldl_nil, rel_cascade h.2]
    simp only [rel_interface h.1, Fields]
  | m :: ms, S, h, a, b, c, d => by
    obtain ⟨h1, h2, h3, h4, h5⟩ := h
    rw [List.foldl_cons, fields_from ms _ h5]
    simp only [addMotif, rel_cBas, rel_cascade h2, rel_cascade h4, rel_interface h1, rel_interface h3, Fields, Through]
    constructor
    · rintro ⟨x, y, ⟨x1, y1, ⟨x2, y2, ⟨x3, y3, ⟨x4, y4, g1, g2⟩, g3⟩, g4⟩, g5⟩, g6⟩
      exact ⟨x4, y4, g1, x, y, ⟨x3, y3, x2, y2, x1, y1, g2, g3, g4, g5⟩, g6⟩
    · rintro ⟨x4, y4, g1, x, y, ⟨x3, y3, x2, y2, x1, y1, g2, g3, g4, g5⟩, g6⟩
      exact ⟨x, y, ⟨x1, y1, ⟨x2, y2, ⟨x3, y3, ⟨x4, y4, g1, g2⟩, g3⟩, g4⟩, g5⟩, g6⟩

/-- **C141.** The scattering matrix computed for a stack gives the only waves that are continuous at all the interfaces. -/
theorem grating_fields {k0 pol e2 : ℝ} {ms : List Motif} (h : Regular eig k0 pol e2 ms) (a b c d : Idx N → ℂ) :
    Fields eig k0 pol e2 ms a b c d ↔ b = (grating eig k0 pol e2 ms).b00 *ᵥ a + (grating eig k0 pol e2 ms).b01 *ᵥ d ∧
      c = (grating eig k0 pol e2 ms).b10 *ᵥ a + (grating eig k0 pol e2 ms).b11 *ᵥ d := by
  have := fields_from ms start h a b c d
  simp only [rel_start] at this
  refine Iff.trans ?_ this.symm
  constructor
  · intro hf; exact ⟨a, b, ⟨rfl, rfl⟩, hf⟩
  · rintro ⟨x, y, ⟨rfl, rfl⟩, hf⟩; exact hf

/-! ### Energy -/

/-- What is needed of the motifs and of `np.linalg.eig` for the layers to be transparent. -/
def Transparent (eig : Matrix (Idx N) (Idx N) ℂ → (Idx N → ℂ) × Matrix (Idx N) (Idx N) ℂ) (k0 pol e2 : ℝ) (ms : List Motif) : Prop :=
  ∀ m ∈ ms, 0 ≤ m.a ∧ m.a ≤ 1 ∧ Eigen eig (modeMatrix N k0 0 pol e2 1 m.a m.x0)

theorem fields_flux {k0 pol e2 : ℝ} (he2 : 0 < e2) : ∀ (ms : List Motif), Transparent eig k0 pol e2 ms → ∀ a b c d,
    Fields eig k0 pol e2 ms a b c d → flux (homogene N k0 0 pol 1) a b = flux (homogene N k0 0 pol e2) c d
  | [], _, a, b, c, d, h => flux_meets h
  | m :: ms, ht, a, b, c, d, h => by
    obtain ⟨x, y, ⟨a1, b1, a2, b2, a3, b3, g1, g2, g3, g4⟩, hf⟩ := h
    obtain ⟨h0, h1, hg⟩ := ht m List.mem_cons_self
    rw [flux_meets g1, flux_travels (creneau_lossless h0 h1 he2 one_pos hg) g2, flux_meets g3, flux_travels (homogene_lossless ..) g4]
    exact fields_flux he2 ms (fun m' hm => ht m' (List.mem_cons_of_mem _ hm)) x y c d hf

theorem flux_homogene (k0 pol eps : ℝ) (a b : Idx N → ℂ) :
    flux (homogene N k0 0 pol eps) a b = (pol / eps + (1 - pol)) * ∑ i, ((starRingEnd ℂ) (a i + b i) * (valp k0 0 eps i * (a i - b i))).re := by
  simp only [flux, homogene, one_mulVec, dotProduct, mulVec_diagonal, Complex.re_sum, Finset.mul_sum, Pi.star_apply, Complex.star_def, Pi.add_apply, Pi.sub_apply]
  refine Finset.sum_congr rfl fun i _ => ?_
  rw [← Complex.re_ofReal_mul]
  congr 1
  push_cast
  ring

theorem valp_re_nonneg (k0 eps : ℝ) (i : Idx N) : 0 ≤ (valp k0 0 eps i).re := by
  simp only [valp]
  split
  · rename_i h
    rw [Complex.neg_re]
    rcases h with h | h
    · linarith
    · rw [h.1]; simp
  · exact sqrt_re_nonneg _

theorem valp_mid {k0 : ℝ} (hk : 0 < k0) : valp k0 0 1 (mid N) = k0 := by
  have e : ((1 * k0 * k0 - (0 + 2 * Real.pi * (order (mid N) : ℝ)) ^ 2 : ℝ) : ℂ) = ((k0 * k0 : ℝ) : ℂ) := by
    congr 1
    simp [order, mid]
  simp only [valp]
  rw [e, sqrt_real (mul_self_nonneg _), Real.sqrt_mul_self hk.le]
  rw [if_neg]
  simp only [Complex.ofReal_re, not_or, not_and]
  exact ⟨by linarith, fun h => by linarith⟩

/-- The share of the light that goes down in the substrate, in the order of the row `i`. -/
noncomputable def transmitted (eig : Matrix (Idx N) (Idx N) ℂ → (Idx N → ℂ) × Matrix (Idx N) (Idx N) ℂ) (k0 pol e2 : ℝ) (ms : List Motif) (i : Idx N) : ℝ :=
  (pol / e2 + (1 - pol)) * ‖(grating eig k0 pol e2 ms).b10 i (mid N)‖ ^ 2 * (valp k0 0 e2 i).re / k0

/-- **C141.** All the light is reflected or goes down into the substrate. -/
theorem energy {k0 pol e2 : ℝ} (hk : 0 < k0) (he2 : 0 < e2) {ms : List Motif} (ht : Transparent eig k0 pol e2 ms) (hr : Regular eig k0 pol e2 ms) :
    ∑ i, reflected eig k0 pol e2 ms i + ∑ i, transmitted eig k0 pol e2 ms i = 1 := by
  have hf := (grating_fields hr (Pi.single (mid N) 1) _ _ 0).2 ⟨rfl, rfl⟩
  have hfl := fields_flux he2 ms ht _ _ _ _ hf
  simp only [mulVec_zero, add_zero, mulVec_single_one] at hfl
  rw [flux_homogene, flux_homogene] at hfl
  set S := grating eig k0 pol e2 ms with hS
  have e1 : ∀ i, ((starRingEnd ℂ) ((Pi.single (mid N) 1 : Idx N → ℂ) i + S.b00.col (mid N) i) * (valp k0 0 1 i * ((Pi.single (mid N) 1 : Idx N → ℂ) i - S.b00.col (mid N) i))).re =
      (if i = mid N then k0 else 0) - ‖S.b00 i (mid N)‖ ^ 2 * (valp k0 0 1 i).re := fun i => by
    by_cases hi : i = mid N
    · subst hi
      rw [if_pos rfl, valp_mid hk, Pi.single_eq_same]
      rw [← Complex.normSq_eq_norm_sq, Complex.normSq_apply]
      simp only [col_apply, Complex.mul_re, Complex.mul_im, map_add, map_one, Complex.add_re, Complex.add_im, Complex.sub_re, Complex.sub_im, Complex.conj_re, Complex.conj_im, Complex.one_re, Complex.one_im, Complex.ofReal_re, Complex.ofReal_im]
      ring
    · rw [if_neg hi, Pi.single_eq_of_ne hi]
      rw [← Complex.normSq_eq_norm_sq, Complex.normSq_apply]
      simp only [col_apply, zero_add, zero_sub, Complex.mul_re, Complex.mul_im, Complex.neg_re, Complex.neg_im, Complex.conj_re, Complex.conj_im]
      ring
  have e2' : ∀ i, ((starRingEnd ℂ) (S.b10.col (mid N) i + (0 : Idx N → ℂ) i) * (valp k0 0 e2 i * (S.b10.col (mid N) i - (0 : Idx N → ℂ) i))).re = ‖S.b10 i (mid N)‖ ^ 2 * (valp k0 0 e2 i).re := fun i => by
    rw [← Complex.normSq_eq_norm_sq, Complex.normSq_apply]
    simp only [col_apply, Pi.zero_apply, add_zero, sub_zero, Complex.mul_re, Complex.mul_im, Complex.conj_re, Complex.conj_im]
    ring
  simp only [e1, e2', Finset.sum_sub_distrib, Finset.sum_ite_eq', Finset.mem_univ, if_true] at hfl
  simp only [reflected, transmitted, ← hS, ← Finset.sum_div]
  have e3 : ∑ i, (pol / e2 + (1 - pol)) * ‖S.b10 i (mid N)‖ ^ 2 * (valp k0 0 e2 i).re = (pol / e2 + (1 - pol)) * ∑ i, ‖S.b10 i (mid N)‖ ^ 2 * (valp k0 0 e2 i).re := by
    rw [Finset.mul_sum]; exact Finset.sum_congr rfl fun i _ => by ring
  rw [e3, ← hfl]
  field_simp
  ring

theorem reflected_nonneg {k0 pol e2 : ℝ} (hk : 0 < k0) (ms : List Motif) (i : Idx N) : 0 ≤ reflected eig k0 pol e2 ms i := by
  have := valp_re_nonneg (N := N) k0 1 i
  unfold reflected
  positivity

theorem transmitted_nonneg {k0 pol e2 : ℝ} (hk : 0 < k0) (he2 : 0 < e2) (h0 : 0 ≤ pol) (h1 : pol ≤ 1) (ms : List Motif) (i : Idx N) : 0 ≤ transmitted eig k0 pol e2 ms i := by
  have := valp_re_nonneg (N := N) k0 e2 i
  have : 0 ≤ pol / e2 + (1 - pol) := by have := div_nonneg h0 he2.le; linarith
  unfold transmitted
  positivity

/-- **C141.** The orders reflect at most all the light together. -/
theorem reflected_le {k0 pol e2 : ℝ} (hk : 0 < k0) (he2 : 0 < e2) (h0 : 0 ≤ pol) (h1 : pol ≤ 1) {ms : List Motif} (ht : Transparent eig k0 pol e2 ms)
    (hr : Regular eig k0 pol e2 ms) (s : Finset (Idx N)) : ∑ i ∈ s, reflected eig k0 pol e2 ms i ≤ 1 := by
  have h := energy hk he2 ht hr
  have h2 : 0 ≤ ∑ i, transmitted eig k0 pol e2 ms i := Finset.sum_nonneg fun i _ => transmitted_nonneg hk he2 h0 h1 ms i
  have h3 : ∑ i ∈ s, reflected eig k0 pol e2 ms i ≤ ∑ i, reflected eig k0 pol e2 ms i :=
    Finset.sum_le_sum_of_subset_of_nonneg (Finset.subset_univ s) fun i _ _ => reflected_nonneg hk ms i
  linarith

theorem period_pos : (0 : ℝ) < period := by norm_num [period]

theorem waveNumber_pos {lam : ℝ} (h : 0 < lam) : 0 < waveNumber lam := by
  have := period_pos
  have := Real.pi_pos
  unfold waveNumber
  positivity

/-- The wave numbers for which `morpho` computes a scattering matrix. -/
noncomputable def waveNumbers : List ℝ := waveNumber (4495897 / 10000) :: lams.map waveNumber

/-- **C141.** The cost of a grating is at least 1/2 and at most 5/2. -/
theorem cost_range (hN : 0 < N) {X : List ℝ} (ht : ∀ k ∈ waveNumbers, Transparent eig k 1 epsilon2 (motifs X)) (hr : ∀ k ∈ waveNumbers, Regular eig k 1 epsilon2 (motifs X)) :
    1 / 2 ≤ cost hN eig X ∧ cost hN eig X ≤ 5 / 2 := by
  have he : 0 < epsilon2 := by norm_num [epsilon2]
  have hpos : ∀ k ∈ waveNumbers, 0 < k := fun k hk => by
    rcases List.mem_cons.1 hk with rfl | hk
    · exact waveNumber_pos (by norm_num)
    · obtain ⟨l, hl, rfl⟩ := List.mem_map.1 hk
      refine waveNumber_pos ?_
      simp only [lams, List.map_cons, List.map_nil, List.mem_cons, List.not_mem_nil, or_false] at hl
      rcases hl with rfl | rfl | rfl | rfl | rfl <;> norm_num
  have hle : ∀ k ∈ waveNumbers, ∀ s : Finset (Idx N), ∑ i ∈ s, reflected eig k 1 epsilon2 (motifs X) i ≤ 1 := fun k hk s =>
    reflected_le (hpos k hk) he zero_le_one le_rfl (ht k hk) (hr k hk) s
  have h0 : ∀ k ∈ waveNumbers, ∀ i, 0 ≤ reflected eig k 1 epsilon2 (motifs X) i := fun k hk i => reflected_nonneg (hpos k hk) _ i
  have hbar : 0 ≤ (lams.map fun l : ℝ => reflected eig (waveNumber l) 1 epsilon2 (motifs X) (mid N)).sum ∧
      (lams.map fun l : ℝ => reflected eig (waveNumber l) 1 epsilon2 (motifs X) (mid N)).sum ≤ lams.length := by
    constructor
    · refine List.sum_nonneg fun y hy => ?_
      obtain ⟨l, hl, rfl⟩ := List.mem_map.1 hy
      exact h0 _ (List.mem_cons_of_mem _ (List.mem_map_of_mem hl)) _
    · have := List.sum_le_card_nsmul (lams.map fun l : ℝ => reflected eig (waveNumber l) 1 epsilon2 (motifs X) (mid N)) 1 fun y hy => by
        obtain ⟨l, hl, rfl⟩ := List.mem_map.1 hy
        simpa using hle _ (List.mem_cons_of_mem _ (List.mem_map_of_mem hl)) {mid N}
      simpa using this
  have hlen : (0 : ℝ) < lams.length := by simp [lams]
  have hb1 := div_nonneg hbar.1 hlen.le
  have hb2 := (div_le_one hlen).2 hbar.2
  have hk : waveNumber (4495897 / 10000) ∈ waveNumbers := List.mem_cons_self
  have hs := hle _ hk {⟨N - 1, by omega⟩, ⟨N + 1, by omega⟩}
  rw [Finset.sum_pair (by intro h; have := congrArg Fin.val h; simp at this)] at hs
  have hm := hle _ hk {mid N}
  rw [Finset.sum_singleton] at hm
  have g1 := h0 _ hk ⟨N - 1, by omega⟩
  have g2 := h0 _ hk ⟨N + 1, by omega⟩
  have g3 := h0 _ hk (mid N)
  simp only [cost]
  constructor <;> linarith

/-! ### Symmetries -/

/-- Two media have the same fields up to the matrix `U`: the modes of the second are those of the first, combined by `C`. -/
structure Same (U : Matrix (Idx N) (Idx N) ℂ) (P Q : Modes (Idx N)) : Prop where
  ex : ∃ C C' : Matrix (Idx N) (Idx N) ℂ, C * C' = 1 ∧ C' * C = 1 ∧ Q.top = U * P.top * C ∧ Q.bot = U * P.bot * C ∧ ∀ i j, C i j = 0 ∨ P.val i = Q.val j

theorem delay_comm {P Q : Modes (Idx N)} {C : Matrix (Idx N) (Idx N) ℂ} (h : ∀ i j, C i j = 0 ∨ P.val i = Q.val j) (t : ℝ) :
    delay P.val t * C = C * delay Q.val t := by
  ext i j
  simp only [delay, diagonal_mul, mul_diagonal]
  rcases h i j with h | h
  · simp [h]
  · rw [h]; ring

theorem travels_iff (v : Idx N → ℂ) (h : ℝ) (a b c d : Idx N → ℂ) : Travels v h a b c d ↔ c = delay v h *ᵥ a ∧ b = delay v h *ᵥ d := by
  simp only [Travels, delay, funext_iff, mulVec_diagonal]

theorem through_same {U U' : Matrix (Idx N) (Idx N) ℂ} (hU : U' * U = 1) {P Pc Qc : Modes (Idx N)} (htop : P.top = 1) (hbot : U * P.bot = P.bot * U)
    (hval : ∀ i j, U i j = 0 ∨ P.val i = P.val j) (hs : Same U Pc Qc) {m m' : Motif} (hh : m'.h = m.h) (hsp : m'.spacer = m.spacer) {a b c d : Idx N → ℂ}
    (h : Through P Pc m a b c d) : Through P Qc m' (U *ᵥ a) (U *ᵥ b) (U *ᵥ c) (U *ᵥ d) := by
  obtain ⟨a1, b1, a2, b2, a3, b3, ⟨g1, g1'⟩, g2, ⟨g3, g3'⟩, g4⟩ := h
  obtain ⟨C, C', hC, hC', ht, hb, hv⟩ := hs.ex
  rw [travels_iff] at g2 g4
  have hd : ∀ t, delay Qc.val t * C' = C' * delay Pc.val t := fun t => by
    calc delay Qc.val t * C' = C' * (C * delay Qc.val t) * C' := by rw [← mul_assoc, hC', one_mul]
      _ = C' * (delay Pc.val t * C) * C' := by rw [delay_comm hv]
      _ = C' * delay Pc.val t := by rw [mul_assoc, mul_assoc, hC, mul_one]
  have hUd : ∀ t, delay P.val t * U = U * delay P.val t := fun t => delay_comm hval t
  have e1 : ∀ x : Idx N → ℂ, Qc.top *ᵥ (C' *ᵥ x) = U *ᵥ (Pc.top *ᵥ x) := fun x => by
    rw [mulVec_mulVec, ht, mul_assoc, hC, mul_one, mulVec_mulVec]
  have e2 : ∀ x : Idx N → ℂ, Qc.bot *ᵥ (C' *ᵥ x) = U *ᵥ (Pc.bot *ᵥ x) := fun x => by
    rw [mulVec_mulVec, hb, mul_assoc, hC, mul_one, mulVec_mulVec]
  have e3 : ∀ x : Idx N → ℂ, P.bot *ᵥ (U *ᵥ x) = U *ᵥ (P.bot *ᵥ x) := fun x => by
    rw [mulVec_mulVec, ← hbot, mulVec_mulVec]
  rw [htop, one_mulVec] at g1 g3
  refine ⟨C' *ᵥ a1, C' *ᵥ b1, C' *ᵥ a2, C' *ᵥ b2, U *ᵥ a3, U *ᵥ b3, ⟨?_, ?_⟩, ?_, ⟨?_, ?_⟩, ?_⟩
  · rw [htop, one_mulVec, ← mulVec_add, ← mulVec_add, e1, g1]
  · rw [← mulVec_sub, ← mulVec_sub, e3, e2, g1']
  · rw [travels_iff, hh, mulVec_mulVec, hd, mulVec_mulVec, hd, ← mulVec_mulVec, ← mulVec_mulVec, g2.1, g2.2]
    exact ⟨rfl, rfl⟩
  · rw [htop, one_mulVec, ← mulVec_add, ← mulVec_add, e1, g3]
  · rw [← mulVec_sub, ← mulVec_sub, e3, e2, g3']
  · rw [travels_iff, hsp, mulVec_mulVec, hUd, mulVec_mulVec, hUd, ← mulVec_mulVec, ← mulVec_mulVec, g4.1, g4.2]
    exact ⟨rfl, rfl⟩

/-- Gratings with matrices that are the same up to `U` have the same fields up to `U`, whatever eigenvectors are found. -/
theorem creneau_same {eig' : Matrix (Idx N) (Idx N) ℂ → (Idx N → ℂ) × Matrix (Idx N) (Idx N) ℂ} {U U' : Matrix (Idx N) (Idx N) ℂ} (hU : U * U' = 1) (hU' : U' * U = 1)
    {k0 a0 pol e1 e2 a x a' x' : ℝ} (hm : modeMatrix N k0 a0 pol e1 e2 a' x' = U * modeMatrix N k0 a0 pol e1 e2 a x * U')
    (hw : weight N pol e1 e2 a' x' = U * weight N pol e1 e2 a x * U') (hg : Eigen eig (modeMatrix N k0 a0 pol e1 e2 a x))
    (hg' : Eigen eig' (modeMatrix N k0 a0 pol e1 e2 a' x')) : Same U (creneau eig k0 a0 pol e1 e2 a x) (creneau eig' k0 a0 pol e1 e2 a' x') := by
  have form : ∀ (eig : Matrix (Idx N) (Idx N) ℂ → (Idx N → ℂ) × Matrix (Idx N) (Idx N) ℂ) (a x : ℝ), creneau eig k0 a0 pol e1 e2 a x =
      ⟨(eig (modeMatrix N k0 a0 pol e1 e2 a x)).2, weight N pol e1 e2 a x * (eig (modeMatrix N k0 a0 pol e1 e2 a x)).2 * diagonal (fun i => root ((eig (modeMatrix N k0 a0 pol e1 e2 a x)).1 i)),
        fun i => root ((eig (modeMatrix N k0 a0 pol e1 e2 a x)).1 i)⟩ := fun eig a x => by
    simp only [creneau, weight]; split <;> simp
  rw [form, form]
  obtain ⟨h1, h2⟩ := hg
  obtain ⟨h1', h2'⟩ := hg'
  rw [hm] at h1'
  rw [← hm] at h1'
  generalize eig (modeMatrix N k0 a0 pol e1 e2 a x) = r at *
  generalize eig' (modeMatrix N k0 a0 pol e1 e2 a' x') = r' at *
  rw [hm] at h1'
  generalize modeMatrix N k0 a0 pol e1 e2 a x = M at *
  obtain ⟨l, E⟩ := r
  obtain ⟨l', E'⟩ := r'
  simp only at h1 h2 h1' h2'
  have i1 := nonsing_inv_mul _ h2
  have i1' := mul_nonsing_inv _ h2
  have i2 := nonsing_inv_mul _ h2'
  have i2' := mul_nonsing_inv _ h2'
  have hM : M * (U' * E') = U' * E' * diagonal l' := by
    calc M * (U' * E') = U' * (U * M * U' * E') := by simp only [← mul_assoc, hU', one_mul]
      _ = _ := by rw [h1', mul_assoc]
  have hC : ∀ i j, (E⁻¹ * U' * E') i j = 0 ∨ l i = l' j := fun i j => by
    have : diagonal l * (E⁻¹ * U' * E') = (E⁻¹ * U' * E') * diagonal l' := by
      calc diagonal l * (E⁻¹ * U' * E') = E⁻¹ * (E * diagonal l) * (E⁻¹ * U' * E') := by rw [← mul_assoc E⁻¹, i1, one_mul]
        _ = E⁻¹ * (M * (U' * E')) := by rw [← h1]; simp only [mul_assoc]; rw [← mul_assoc E E⁻¹, i1', one_mul]
        _ = _ := by rw [hM]; simp only [mul_assoc]
    have := congrFun (congrFun this i) j
    rw [diagonal_mul, mul_diagonal] at this
    by_cases h : l i = l' j
    · exact Or.inr h
    · left
      have hz : (l i - l' j) * (E⁻¹ * U' * E') i j = 0 := by linear_combination this
      rcases mul_eq_zero.1 hz with hz | hz
      · exact absurd (sub_eq_zero.1 hz) h
      · exact hz
  refine ⟨E⁻¹ * U' * E', E'⁻¹ * U * E, ?_, ?_, ?_, ?_, fun i j => (hC i j).imp id fun h => by simp only [h]⟩
  · simp only [mul_assoc]; rw [← mul_assoc E' E'⁻¹, i2', one_mul, ← mul_assoc U' U, hU', one_mul, i1]
  · simp only [mul_assoc]; rw [← mul_assoc E E⁻¹, i1', one_mul, ← mul_assoc U U', hU, one_mul, i2]
  · simp only [mul_assoc]; rw [← mul_assoc E E⁻¹, i1', one_mul, ← mul_assoc U U', hU, one_mul]
  · have hL : diagonal (fun i => root (l i)) * (E⁻¹ * U' * E') = (E⁻¹ * U' * E') * diagonal fun i => root (l' i) := by
      ext i j
      rw [diagonal_mul, mul_diagonal]
      rcases hC i j with h | h
      · simp [h]
      · rw [h]; ring
    have e : U * (weight N pol e1 e2 a x * E * diagonal fun i => root (l i)) * (E⁻¹ * U' * E') =
        U * (weight N pol e1 e2 a x * E * ((diagonal fun i => root (l i)) * (E⁻¹ * U' * E'))) := by simp only [mul_assoc]
    simp only
    rw [hw, e, hL]
    simp only [mul_assoc]
    rw [← mul_assoc E E⁻¹, i1', one_mul]

/-- What a symmetry `U` has to do: it leaves the air and the substrate as they are, and makes each motif of the first stack the one of the second. -/
structure Symmetry (k0 pol e2 : ℝ) (U U' : Matrix (Idx N) (Idx N) ℂ) (ms ms' : List Motif) : Prop where
  right : U * U' = 1
  left : U' * U = 1
  air : ∀ eps, ∀ i j, U i j = 0 ∨ (valp k0 0 eps i : ℂ) = valp k0 0 eps j
  each : List.Forall₂ (fun m m' => m'.h = m.h ∧ m'.spacer = m.spacer ∧ modeMatrix N k0 0 pol e2 1 m'.a m'.x0 = U * modeMatrix N k0 0 pol e2 1 m.a m.x0 * U' ∧
    weight N pol e2 1 m'.a m'.x0 = U * weight N pol e2 1 m.a m.x0 * U') ms ms'

theorem homogene_comm {k0 pol eps : ℝ} {U : Matrix (Idx N) (Idx N) ℂ} (h : ∀ i j, U i j = 0 ∨ (valp k0 0 eps i : ℂ) = valp k0 0 eps j) :
    U * (homogene N k0 0 pol eps).bot = (homogene N k0 0 pol eps).bot * U := by
  ext i j
  simp only [homogene, diagonal_mul, mul_diagonal]
  rcases h i j with h | h
  · simp [h]
  · rw [h]; ring

theorem fields_same {eig' : Matrix (Idx N) (Idx N) ℂ → (Idx N → ℂ) × Matrix (Idx N) (Idx N) ℂ} {k0 pol e2 : ℝ} {U U' : Matrix (Idx N) (Idx N) ℂ} (hU : U * U' = 1) (hU' : U' * U = 1)
    (air : ∀ eps, ∀ i j, U i j = 0 ∨ (valp k0 0 eps i : ℂ) = valp k0 0 eps j) {ms ms' : List Motif}
    (each : List.Forall₂ (fun m m' => m'.h = m.h ∧ m'.spacer = m.spacer ∧ modeMatrix N k0 0 pol e2 1 m'.a m'.x0 = U * modeMatrix N k0 0 pol e2 1 m.a m.x0 * U' ∧
      weight N pol e2 1 m'.a m'.x0 = U * weight N pol e2 1 m.a m.x0 * U') ms ms')
    (hg : ∀ m ∈ ms, Eigen eig (modeMatrix N k0 0 pol e2 1 m.a m.x0)) (hg' : ∀ m ∈ ms', Eigen eig' (modeMatrix N k0 0 pol e2 1 m.a m.x0)) :
    ∀ a b c d, Fields eig k0 pol e2 ms a b c d → Fields eig' k0 pol e2 ms' (U *ᵥ a) (U *ᵥ b) (U *ᵥ c) (U *ᵥ d) := by
  induction each with
  | nil =>
    intro a b c d h
    obtain ⟨h1, h2⟩ := h
    refine ⟨?_, ?_⟩
    · simp only [homogene, one_mulVec] at h1 ⊢
      rw [← mulVec_add, ← mulVec_add, h1]
    · rw [← mulVec_sub, ← mulVec_sub, mulVec_mulVec, ← homogene_comm (air 1), ← mulVec_mulVec, h2, mulVec_mulVec, homogene_comm (air e2), mulVec_mulVec]
  | @cons m m' ms ms' hm _ ih =>
    intro a b c d h
    obtain ⟨x, y, ht, hf⟩ := h
    obtain ⟨h1, h2, h3, h4⟩ := hm
    exact ⟨U *ᵥ x, U *ᵥ y, through_same hU' rfl (homogene_comm (air 1)) (air 1) (creneau_same hU hU' h3 h4 (hg m List.mem_cons_self) (hg' m' List.mem_cons_self)) h1 h2 ht,
      ih (fun n hn => hg n (List.mem_cons_of_mem _ hn)) (fun n hn => hg' n (List.mem_cons_of_mem _ hn)) x y c d hf⟩

/-- The reflection of a stack that is the same up to `U`. -/
theorem grating_same {eig' : Matrix (Idx N) (Idx N) ℂ → (Idx N → ℂ) × Matrix (Idx N) (Idx N) ℂ} {k0 pol e2 : ℝ} {U U' : Matrix (Idx N) (Idx N) ℂ} {ms ms' : List Motif}
    (hs : Symmetry k0 pol e2 U U' ms ms') (hg : ∀ m ∈ ms, Eigen eig (modeMatrix N k0 0 pol e2 1 m.a m.x0)) (hg' : ∀ m ∈ ms', Eigen eig' (modeMatrix N k0 0 pol e2 1 m.a m.x0))
    (hr : Regular eig k0 pol e2 ms) (hr' : Regular eig' k0 pol e2 ms') :
    (grating eig' k0 pol e2 ms').b00 = U * (grating eig k0 pol e2 ms).b00 * U' := by
  have key : ∀ a, (grating eig' k0 pol e2 ms').b00 *ᵥ (U *ᵥ a) = U *ᵥ ((grating eig k0 pol e2 ms).b00 *ᵥ a) := fun a => by
    have h1 := (grating_fields hr a _ _ 0).2 ⟨rfl, rfl⟩
    have h2 := fields_same (eig' := eig') hs.right hs.left hs.air hs.each hg hg' _ _ _ _ h1
    have h3 := (grating_fields hr' _ _ _ _).1 h2
    have := h3.1
    simp only [mulVec_zero, add_zero] at this
    exact this.symm
  have e : (grating eig' k0 pol e2 ms').b00 * U = U * (grating eig k0 pol e2 ms).b00 := by
    ext i j
    have := congrFun (key (Pi.single j 1)) i
    rw [mulVec_mulVec, mulVec_mulVec, mulVec_single_one, mulVec_single_one] at this
    exact this
  rw [← e, mul_assoc, hs.right, mul_one]

/-- **C141.** The light reflected in each order does not depend on the eigenvectors that are found. -/
theorem eigen_irrelevant {eig' : Matrix (Idx N) (Idx N) ℂ → (Idx N → ℂ) × Matrix (Idx N) (Idx N) ℂ} {k0 pol e2 : ℝ} {ms : List Motif} (ht : Transparent eig k0 pol e2 ms)
    (ht' : Transparent eig' k0 pol e2 ms) (hr : Regular eig k0 pol e2 ms) (hr' : Regular eig' k0 pol e2 ms) (i : Idx N) :
    reflected eig' k0 pol e2 ms i = reflected eig k0 pol e2 ms i := by
  have hs : Symmetry (N := N) k0 pol e2 1 1 ms ms := by
    refine ⟨one_mul 1, one_mul 1, fun eps i j => ?_, List.forall₂_same.2 fun m _ => by simp⟩
    by_cases h : i = j
    · exact Or.inr (by rw [h])
    · exact Or.inl (one_apply_ne h)
  simp only [reflected, grating_same hs (fun m hm => (ht m hm).2.2) (fun m hm => (ht' m hm).2.2) hr hr', one_mul, mul_one]

theorem inv_conj {U U' A : Matrix (Idx N) (Idx N) ℂ} (hU : U * U' = 1) (hU' : U' * U = 1) (hA : IsUnit A.det) : (U * A * U')⁻¹ = U * A⁻¹ * U' := by
  refine inv_eq_right_inv ?_
  calc U * A * U' * (U * A⁻¹ * U') = U * A * (U' * U) * A⁻¹ * U' := by simp only [mul_assoc]
    _ = 1 := by rw [hU', mul_one, mul_assoc U A, mul_nonsing_inv _ hA, mul_one, hU]

/-- A matrix that moves the profile and leaves the squares of the orders moves the matrix of the modes. -/
theorem mode_conj {U U' : Matrix (Idx N) (Idx N) ℂ} (hU : U * U' = 1) (hU' : U' * U = 1) {σ : ℂ} (hσ : σ * σ = 1) (hα : U * alpha N 0 * U' = σ • alpha N 0)
    {k0 pol e1 e2 a x x' : ℝ} (h0 : 0 ≤ a) (h1 : a ≤ 1) (he1 : 0 < e1) (he2 : 0 < e2)
    (hm : ∀ e e' : ℝ, marche e e' a (2 * N + 1) x' = U * marche e e' a (2 * N + 1) x * U') :
    modeMatrix N k0 0 pol e1 e2 a x' = U * modeMatrix N k0 0 pol e1 e2 a x * U' ∧ weight N pol e1 e2 a x' = U * weight N pol e1 e2 a x * U' := by
  have hu1 : IsUnit (marche (1 / e1) (1 / e2) a (2 * N + 1) x).det := (isUnit_iff_isUnit_det _).1 (marche_pos h0 h1 (by positivity) (by positivity) _).isUnit
  have hu2 : IsUnit (marche e1 e2 a (2 * N + 1) x).det := (isUnit_iff_isUnit_det _).1 (marche_pos h0 h1 he1 he2 _).isUnit
  have hα' : alpha N 0 = σ • (U * alpha N 0 * U') := by rw [hα, smul_smul, hσ, one_smul]
  simp only [modeMatrix, weight]
  constructor
  · split
    · rw [hm, mul_sub, sub_mul, mul_smul_comm, smul_mul_assoc]
      congr 1
      conv_lhs => rw [hα']
      rw [smul_mul_smul_comm, hσ, one_smul]
      calc U * alpha N 0 * U' * (U * alpha N 0 * U') = U * alpha N 0 * (U' * U) * alpha N 0 * U' := by simp only [mul_assoc]
        _ = _ := by rw [hU', mul_one]; simp only [mul_assoc]
    · rw [hm, hm, inv_conj hU hU' hu1, inv_conj hU hU' hu2, mul_sub, sub_mul, mul_smul_comm, smul_mul_assoc]
      congr 1
      conv_lhs => rw [hα']
      simp only [mul_smul_comm, smul_mul_assoc, smul_smul, hσ, one_smul]
      generalize (marche (1 / e1) (1 / e2) a (2 * N + 1) x)⁻¹ = T
      generalize (marche e1 e2 a (2 * N + 1) x)⁻¹ = A
      calc U * T * U' * (U * alpha N 0 * U') * (U * A * U') * (U * alpha N 0 * U') = U * T * (U' * U) * alpha N 0 * (U' * U) * A * (U' * U) * alpha N 0 * U' := by simp only [mul_assoc]
        _ = _ := by rw [hU', mul_one, mul_one, mul_one]; simp only [mul_assoc]
  · split
    · rw [mul_one, hU]
    · exact hm _ _

theorem wave_norm (k : ℤ) (t : ℝ) : ‖wave k t‖ = 1 := by
  rw [wave, show (-2 * Real.pi * Complex.I * k * t : ℂ) = ((-2 * Real.pi * k * t : ℝ) : ℂ) * Complex.I by push_cast; ring]
  exact Complex.norm_exp_ofReal_mul_I _

theorem wave_neg_mul (k : ℤ) (t : ℝ) : wave k t * wave (-k) t = 1 := by rw [wave_mul, add_neg_cancel, wave_zero]

/-- A motif moved by `s`. -/
def Motif.shift (s : ℝ) (m : Motif) : Motif := { m with x0 := m.x0 + s }

/-- A motif seen in a mirror. -/
def Motif.flip (m : Motif) : Motif := { m with x0 := -m.x0 - m.a }

theorem translate_symmetry {k0 pol e2 : ℝ} (he2 : 0 < e2) (s : ℝ) {ms : List Motif} (hw : ∀ m ∈ ms, 0 ≤ m.a ∧ m.a ≤ 1) :
    Symmetry (N := N) k0 pol e2 (diagonal fun i => wave (order i) s) (diagonal fun i => wave (-order i) s) ms (ms.map (Motif.shift s)) := by
  have h1 : (diagonal fun i : Idx N => wave (order i) s) * (diagonal fun i : Idx N => wave (-order i) s) = 1 := by
    rw [diagonal_mul_diagonal]; simp only [wave_neg_mul]; exact diagonal_one
  have h2 : (diagonal fun i : Idx N => wave (-order i) s) * (diagonal fun i : Idx N => wave (order i) s) = 1 := by
    rw [diagonal_mul_diagonal]; simp only [mul_comm (wave (-_) s), wave_neg_mul]; exact diagonal_one
  refine ⟨h1, h2, fun eps i j => ?_, ?_⟩
  · by_cases h : i = j
    · exact Or.inr (by rw [h])
    · exact Or.inl (diagonal_apply_ne _ h)
  · rw [List.forall₂_map_right_iff]
    refine List.forall₂_same.2 fun m hm => ⟨rfl, rfl, ?_⟩
    refine mode_conj h1 h2 (σ := 1) (one_mul 1) ?_ (hw m hm).1 (hw m hm).2 he2 one_pos fun e e' => ?_
    · rw [one_smul, alpha, diagonal_mul_diagonal, diagonal_mul_diagonal]
      congr 1; funext i
      linear_combination ((0 : ℝ) + 2 * Real.pi * (order i : ℂ)) * wave_neg_mul (order i) s
    · ext i j
      rw [mul_diagonal, diagonal_mul]
      simp only [Motif.shift]
      rw [marche_fourier (hw m hm).1 (hw m hm).2, marche_fourier (hw m hm).1 (hw m hm).2, coefficient (hw m hm).1 (hw m hm).2, coefficient (hw m hm).1 (hw m hm).2]
      have hij : (i : ℤ) - j = order i - order j := by simp [order]
      rw [hij]
      split
      · rename_i h
        have : order i = order j := by omega
        rw [this]
        linear_combination -((m.a * e + (1 - m.a) * e' : ℂ)) * wave_neg_mul (order j) s
      · rw [wave_add, show order i - order j = order i + -order j by ring, ← wave_mul _ _ s]
        ring

/-- **C141.** Moving the whole grating along the surface does not change the light reflected in each order. -/
theorem translate {k0 pol e2 : ℝ} (he2 : 0 < e2) (s : ℝ) {ms : List Motif} (ht : Transparent eig k0 pol e2 ms) (ht' : Transparent eig k0 pol e2 (ms.map (Motif.shift s)))
    (hr : Regular eig k0 pol e2 ms) (hr' : Regular eig k0 pol e2 (ms.map (Motif.shift s))) (i : Idx N) :
    reflected eig k0 pol e2 (ms.map (Motif.shift s)) i = reflected eig k0 pol e2 ms i := by
  have hs := translate_symmetry (N := N) (k0 := k0) (pol := pol) he2 s fun m hm => ⟨(ht m hm).1, (ht m hm).2.1⟩
  simp only [reflected, grating_same hs (fun m hm => (ht m hm).2.2) (fun m hm => (ht' m hm).2.2) hr hr', mul_diagonal, diagonal_mul, norm_mul, wave_norm, one_mul, mul_one]

/-- The matrix that puts the orders in the other order. -/
def flipMat (N : Nat) : Matrix (Idx N) (Idx N) ℂ := fun i j => if j = Fin.rev i then 1 else 0

theorem flip_mul (A : Matrix (Idx N) (Idx N) ℂ) (i j : Idx N) : (flipMat N * A) i j = A (Fin.rev i) j := by
  simp [flipMat, mul_apply]

theorem mul_flip (A : Matrix (Idx N) (Idx N) ℂ) (i j : Idx N) : (A * flipMat N) i j = A i (Fin.rev j) := by
  simp only [flipMat, mul_apply]
  rw [Finset.sum_eq_single (Fin.rev j)]
  · simp
  · intro b _ hb
    have : j ≠ Fin.rev b := fun h => hb (by rw [h, Fin.rev_rev])
    simp [this]
  · simp

theorem order_rev (i : Idx N) : order (Fin.rev i) = -order i := by
  simp only [order, Fin.val_rev]; omega

theorem valp_rev (k0 eps : ℝ) (i : Idx N) : valp k0 0 eps (Fin.rev i) = valp k0 0 eps i := by
  simp only [valp, order_rev]; push_cast; simp only [zero_add, mul_neg, neg_sq]

theorem flip_symmetry {k0 pol e2 : ℝ} (he2 : 0 < e2) {ms : List Motif} (hw : ∀ m ∈ ms, 0 ≤ m.a ∧ m.a ≤ 1) :
    Symmetry (N := N) k0 pol e2 (flipMat N) (flipMat N) ms (ms.map Motif.flip) := by
  have h1 : flipMat N * flipMat N = 1 := by
    ext i j
    rw [flip_mul]
    simp [flipMat, one_apply, eq_comm]
  refine ⟨h1, h1, fun eps i j => ?_, ?_⟩
  · by_cases h : j = Fin.rev i
    · exact Or.inr (by rw [h, valp_rev])
    · exact Or.inl (by simp [flipMat, h])
  · rw [List.forall₂_map_right_iff]
    refine List.forall₂_same.2 fun m hm => ⟨rfl, rfl, ?_⟩
    refine mode_conj h1 h1 (σ := -1) (by norm_num) ?_ (hw m hm).1 (hw m hm).2 he2 one_pos fun e e' => ?_
    · ext i j
      rw [mul_flip, flip_mul]
      simp only [alpha, diagonal_apply, Matrix.smul_apply, Fin.rev_inj, order_rev]
      split <;> simp
    · ext i j
      rw [mul_flip, flip_mul]
      simp only [Motif.flip]
      rw [marche_fourier (hw m hm).1 (hw m hm).2, marche_fourier (hw m hm).1 (hw m hm).2, coefficient (hw m hm).1 (hw m hm).2, coefficient (hw m hm).1 (hw m hm).2]
      have hij : ((Fin.rev i : Idx N) : ℤ) - (Fin.rev j : Idx N) = -((i : ℤ) - j) := by simp only [Fin.val_rev]; omega
      rw [hij]
      generalize (i : ℤ) - j = k
      by_cases hk : k = 0
      · simp [hk]
      · rw [if_neg hk, if_neg (by omega)]
        have w1 : wave k (-m.x0 - m.a) = wave (-k) m.x0 * wave (-k) m.a := by
          rw [← wave_add, wave, wave]; congr 1; push_cast; ring
        rw [w1]
        have w2 := wave_neg_mul k m.a
        have hk' : (k : ℂ) ≠ 0 := by exact_mod_cast hk
        have hpi : (Real.pi : ℂ) ≠ 0 := by exact_mod_cast Real.pi_ne_zero
        push_cast
        field_simp
        linear_combination (-((e : ℂ) - e') * wave (-k) m.x0) * w2

/-- **C141.** The mirror image of a grating reflects in each order what the grating reflects in the opposite order. -/
theorem mirror {k0 pol e2 : ℝ} (he2 : 0 < e2) {ms : List Motif} (ht : Transparent eig k0 pol e2 ms) (ht' : Transparent eig k0 pol e2 (ms.map Motif.flip))
    (hr : Regular eig k0 pol e2 ms) (hr' : Regular eig k0 pol e2 (ms.map Motif.flip)) (i : Idx N) :
    reflected eig k0 pol e2 (ms.map Motif.flip) i = reflected eig k0 pol e2 ms (Fin.rev i) := by
  have hs := flip_symmetry (N := N) (k0 := k0) (pol := pol) he2 fun m hm => ⟨(ht m hm).1, (ht m hm).2.1⟩
  have hmid : Fin.rev (mid N) = mid N := Fin.ext (by simp only [Fin.val_rev, mid]; omega)
  simp only [reflected, grating_same hs (fun m hm => (ht m hm).2.2) (fun m hm => (ht' m hm).2.2) hr hr', mul_flip, flip_mul, valp_rev, hmid]

/-! ### The cost -/

/-- The list of numbers for the given heights, positions, widths and spacers. -/
def numbers (hs xs ws ss : List ℝ) : List ℝ := hs ++ xs ++ ws ++ ss

theorem motifs_numbers {hs xs ws ss : List ℝ} {n : Nat} (h1 : hs.length = n) (h2 : xs.length = n) (h3 : ws.length = n) (h4 : ss.length = n) :
    motifs (numbers hs xs ws ss) = (List.range n).map fun j : Nat => ⟨hs.getD j 0 / period, xs.getD j 0 / period, ws.getD j 0 / period, ss.getD j 0 / period⟩ := by
  have hl : (numbers hs xs ws ss).length / 4 = n := by simp only [numbers, List.length_append]; omega
  simp only [motifs, hl]
  refine List.map_congr_left fun j hj => ?_
  have hj := List.mem_range.1 hj
  simp only [numbers, List.getD_eq_getElem?_getD, List.append_assoc]
  rw [List.getElem?_append_left (by omega), List.getElem?_append_right (by omega), List.getElem?_append_left (by omega), List.getElem?_append_right (by omega),
    List.getElem?_append_right (by omega), List.getElem?_append_left (by omega), List.getElem?_append_right (by omega), List.getElem?_append_right (by omega),
    List.getElem?_append_right (by omega), show n + j - hs.length = j by omega, show 2 * n + j - hs.length - xs.length = j by omega,
    show 3 * n + j - hs.length - xs.length - ws.length = j by omega]

/-- What is asked of a list of numbers: the widths are between 0 and the period, and neither `np.linalg.eig` nor the inverses fail. -/
def Good (eig : Matrix (Idx N) (Idx N) ℂ → (Idx N → ℂ) × Matrix (Idx N) (Idx N) ℂ) (X : List ℝ) : Prop :=
  ∀ k ∈ waveNumbers, Transparent eig k 1 epsilon2 (motifs X) ∧ Regular eig k 1 epsilon2 (motifs X)

theorem cost_congr (hN : 0 < N) {X Y : List ℝ} {eig' : Matrix (Idx N) (Idx N) ℂ → (Idx N → ℂ) × Matrix (Idx N) (Idx N) ℂ} (f : Idx N → Idx N) (hm : f (mid N) = mid N)
    (hf : f ⟨N - 1, by omega⟩ = ⟨N - 1, by omega⟩ ∧ f ⟨N + 1, by omega⟩ = ⟨N + 1, by omega⟩ ∨ f ⟨N - 1, by omega⟩ = ⟨N + 1, by omega⟩ ∧ f ⟨N + 1, by omega⟩ = ⟨N - 1, by omega⟩)
    (h : ∀ k ∈ waveNumbers, ∀ i, reflected eig' k 1 epsilon2 (motifs Y) i = reflected eig k 1 epsilon2 (motifs X) (f i)) : cost hN eig' Y = cost hN eig X := by
  have h0 : waveNumber (4495897 / 10000) ∈ waveNumbers := List.mem_cons_self
  have e1 : (lams.map fun l : ℝ => reflected eig' (waveNumber l) 1 epsilon2 (motifs Y) (mid N)) = lams.map fun l : ℝ => reflected eig (waveNumber l) 1 epsilon2 (motifs X) (mid N) :=
    List.map_congr_left fun l hl => by rw [h _ (List.mem_cons_of_mem _ (List.mem_map_of_mem hl)), hm]
  have e2 := h _ h0 ⟨N - 1, by omega⟩
  have e3 := h _ h0 ⟨N + 1, by omega⟩
  have e4 := h _ h0 (mid N)
  rw [hm] at e4
  unfold cost
  rw [e1]
  simp only
  rw [e2, e3, e4]
  rcases hf with ⟨h1, h2⟩ | ⟨h1, h2⟩
  · rw [h1, h2]
  · rw [h1, h2, add_comm (reflected eig _ _ _ _ ⟨N + 1, _⟩)]

theorem epsilon2_pos : 0 < epsilon2 := by norm_num [epsilon2]

/-- **C141.** The cost does not depend on the eigenvectors that are found. -/
theorem cost_eigen (hN : 0 < N) {eig' : Matrix (Idx N) (Idx N) ℂ → (Idx N → ℂ) × Matrix (Idx N) (Idx N) ℂ} {X : List ℝ} (h : Good eig X) (h' : Good eig' X) :
    cost hN eig' X = cost hN eig X :=
  cost_congr hN id rfl (Or.inl ⟨rfl, rfl⟩) fun k hk i => eigen_irrelevant (h k hk).1 (h' k hk).1 (h k hk).2 (h' k hk).2 i

/-- **C141.** The cost does not change when the whole grating is moved. -/
theorem cost_translate (hN : 0 < N) (s : ℝ) {hs xs ws ss : List ℝ} {n : Nat} (h1 : hs.length = n) (h2 : xs.length = n) (h3 : ws.length = n) (h4 : ss.length = n)
    (h : Good eig (numbers hs xs ws ss)) (h' : Good eig (numbers hs (xs.map (· + s)) ws ss)) :
    cost hN eig (numbers hs (xs.map (· + s)) ws ss) = cost hN eig (numbers hs xs ws ss) := by
  have e : motifs (numbers hs (xs.map (· + s)) ws ss) = (motifs (numbers hs xs ws ss)).map (Motif.shift (s / period)) := by
    rw [motifs_numbers h1 (by simpa using h2) h3 h4, motifs_numbers h1 h2 h3 h4, List.map_map]
    refine List.map_congr_left fun j hj => ?_
    have hj := List.mem_range.1 hj
    simp only [Motif.shift, Function.comp, List.getD_eq_getElem?_getD, List.getElem?_map]
    rw [List.getElem?_eq_getElem (by omega : j < xs.length)]
    simp [add_div]
  refine cost_congr hN id rfl (Or.inl ⟨rfl, rfl⟩) fun k hk i => ?_
  have g := h k hk
  have g' := h' k hk
  rw [e] at g' ⊢
  exact translate epsilon2_pos _ g.1 g'.1 g.2 g'.2 i

/-- **C141.** The cost does not change when the grating is seen in a mirror. -/
theorem cost_mirror (hN : 0 < N) {hs xs ws ss : List ℝ} {n : Nat} (h1 : hs.length = n) (h2 : xs.length = n) (h3 : ws.length = n) (h4 : ss.length = n)
    (h : Good eig (numbers hs xs ws ss)) (h' : Good eig (numbers hs (List.zipWith (fun x w => -x - w) xs ws) ws ss)) :
    cost hN eig (numbers hs (List.zipWith (fun x w => -x - w) xs ws) ws ss) = cost hN eig (numbers hs xs ws ss) := by
  have e : motifs (numbers hs (List.zipWith (fun x w => -x - w) xs ws) ws ss) = (motifs (numbers hs xs ws ss)).map Motif.flip := by
    rw [motifs_numbers h1 (by simp [h2, h3]) h3 h4, motifs_numbers h1 h2 h3 h4, List.map_map]
    refine List.map_congr_left fun j hj => ?_
    have hj := List.mem_range.1 hj
    simp only [Motif.flip, Function.comp, List.getD_eq_getElem?_getD, List.getElem?_zipWith]
    rw [List.getElem?_eq_getElem (by omega : j < xs.length), List.getElem?_eq_getElem (by omega : j < ws.length)]
    simp [sub_div, neg_div]
  refine cost_congr hN Fin.rev (Fin.ext (by simp only [Fin.val_rev, mid]; omega)) (Or.inr ⟨Fin.ext (by simp only [Fin.val_rev]; omega), Fin.ext (by simp only [Fin.val_rev]; omega)⟩) fun k hk i => ?_
  have g := h k hk
  have g' := h' k hk
  rw [e] at g' ⊢
  exact mirror epsilon2_pos g.1 g'.1 g.2 g'.2 i

/-- **C141.** The cost does not change when one ridge is moved by a period. -/
theorem cost_period (hN : 0 < N) {hs xs ws ss : List ℝ} {n : Nat} (h1 : hs.length = n) (h2 : xs.length = n) (h3 : ws.length = n) (h4 : ss.length = n) (j : Nat) :
    cost hN eig (numbers hs (xs.modify j (· + period)) ws ss) = cost hN eig (numbers hs xs ws ss) := by
  have hx : ∀ (k0 pol e2 : ℝ) (S : Block (Idx N)) (m : Motif), addMotif eig k0 pol e2 S (m.shift 1) = addMotif eig k0 pol e2 S m := fun k0 pol e2 S m => by
    simp only [addMotif, Motif.shift, creneau, modeMatrix, marche_period]
  have hfold : ∀ (k0 pol e2 : ℝ) (ms ms' : List Motif), List.Forall₂ (fun m m' => m' = m ∨ m' = m.shift 1) ms ms' → ∀ S, ms'.foldl (addMotif eig k0 pol e2) S = ms.foldl (addMotif eig k0 pol e2) S :=
    fun k0 pol e2 ms ms' hf => by
      induction hf with
      | nil => exact fun _ => rfl
      | @cons m m' _ _ hm _ ih =>
        intro S
        rw [List.foldl_cons, List.foldl_cons, ih]
        rcases hm with rfl | rfl
        · rfl
        · rw [hx]
  have hall : List.Forall₂ (fun m m' => m' = m ∨ m' = m.shift 1) (motifs (numbers hs xs ws ss)) (motifs (numbers hs (xs.modify j (· + period)) ws ss)) := by
    rw [motifs_numbers h1 h2 h3 h4, motifs_numbers h1 (by simpa using h2) h3 h4, List.forall₂_map_left_iff, List.forall₂_map_right_iff]
    refine List.forall₂_same.2 fun i hi => ?_
    have hi := List.mem_range.1 hi
    simp only [Motif.shift, List.getD_eq_getElem?_getD, List.getElem?_modify]
    rw [List.getElem?_eq_getElem (by omega : i < xs.length)]
    by_cases hij : j = i
    · right
      have := period_pos
      simp only [hij, if_true, Option.map_eq_map, Option.map_some, Option.getD_some, add_div, div_self this.ne']
    · left
      simp [hij]
  refine cost_congr hN id rfl (Or.inl ⟨rfl, rfl⟩) fun k _ i => ?_
  simp only [reflected, grating, hfold k 1 epsilon2 _ _ hall, id]

/-! ### Modes -/

theorem weight_pos {pol e1 e2 a x0 : ℝ} (h0 : 0 ≤ a) (h1 : a ≤ 1) (he1 : 0 < e1) (he2 : 0 < e2) : (weight N pol e1 e2 a x0).PosDef := by
  simp only [weight]
  split
  · exact PosDef.one
  · exact marche_pos h0 h1 (by positivity) (by positivity) _

theorem hermitian_eigen {K : Matrix (Idx N) (Idx N) ℂ} (hK : K.IsHermitian) : ∃ (l : Idx N → ℂ) (Q : Matrix (Idx N) (Idx N) ℂ), K * Q = Q * diagonal l ∧ IsUnit Q.det := by
  refine ⟨RCLike.ofReal ∘ hK.eigenvalues, hK.eigenvectorUnitary, ?_, ?_⟩
  · have h := hK.spectral_theorem
    rw [Unitary.conjStarAlgAut_apply] at h
    have h2 := congrArg (· * (hK.eigenvectorUnitary : Matrix (Idx N) (Idx N) ℂ)) h
    refine h2.trans ?_
    change _ * _ * _ * _ = _
    rw [mul_assoc, Unitary.coe_star_mul_self, mul_one]
  · exact (isUnit_iff_isUnit_det _).1 (IsUnit.of_mul_eq_one _ (Unitary.coe_mul_star_self hK.eigenvectorUnitary))

open scoped MatrixOrder Matrix.Norms.L2Operator in
/-- **C141.** The matrix of the modes always has eigenvectors that span the space. -/
theorem eigen_exists {k0 a0 pol e1 e2 a x0 : ℝ} (h0 : 0 ≤ a) (h1 : a ≤ 1) (he1 : 0 < e1) (he2 : 0 < e2) :
    ∃ (l : Idx N → ℂ) (E : Matrix (Idx N) (Idx N) ℂ), modeMatrix N k0 a0 pol e1 e2 a x0 * E = E * diagonal l ∧ IsUnit E.det := by
  have hp := weight_pos (N := N) (pol := pol) (x0 := x0) h0 h1 he1 he2
  have hh := mode_hermitian (N := N) (k0 := k0) (a0 := a0) (pol := pol) (x0 := x0) h0 h1 he1 he2
  generalize weight N pol e1 e2 a x0 = W at *
  generalize modeMatrix N k0 a0 pol e1 e2 a x0 = M at *
  obtain ⟨b, hu, hb, rfl⟩ := CStarAlgebra.isStrictlyPositive_iff_exists_isUnit_and_isSelfAdjoint_and_eq_mul_self.1 hp.isStrictlyPositive
  have hud : IsUnit b.det := (isUnit_iff_isUnit_det _).1 hu
  have hb' : b.IsHermitian := hb
  have i1 := nonsing_inv_mul _ hud
  have i2 := mul_nonsing_inv _ hud
  have hK : (b * M * b⁻¹).IsHermitian := by
    have e : b * M * b⁻¹ = b⁻¹ * (b * b * M) * b⁻¹ := by simp only [← mul_assoc, i1, one_mul]
    rw [e, IsHermitian, conjTranspose_mul, conjTranspose_mul, hb'.inv.eq, hh.eq]
    simp only [mul_assoc]
  obtain ⟨l, Q, hq, hd⟩ := hermitian_eigen hK
  refine ⟨l, b⁻¹ * Q, ?_, ?_⟩
  · calc M * (b⁻¹ * Q) = b⁻¹ * (b * M * b⁻¹ * Q) := by simp only [← mul_assoc, i1, one_mul]
      _ = _ := by rw [hq, mul_assoc]
  · rw [det_mul]
    exact (isUnit_nonsing_inv_det _ hud).mul hd

theorem col_ne {E : Matrix (Idx N) (Idx N) ℂ} (h : IsUnit E.det) (i : Idx N) : E.col i ≠ 0 := fun h0 => by
  have : E *ᵥ Pi.single i 1 = 0 := by rw [mulVec_single_one]; exact h0
  have h2 : (Pi.single i 1 : Idx N → ℂ) = 0 := by
    rw [← one_mulVec (Pi.single i 1 : Idx N → ℂ), ← nonsing_inv_mul _ h, ← mulVec_mulVec, this, mulVec_zero]
  simpa using congrFun h2 i

/-- The eigenvalues are real. -/
theorem eigen_real {k0 a0 pol e1 e2 a x0 : ℝ} (h0 : 0 ≤ a) (h1 : a ≤ 1) (he1 : 0 < e1) (he2 : 0 < e2) (hg : Eigen eig (modeMatrix N k0 a0 pol e1 e2 a x0)) (i : Idx N) :
    ((eig (modeMatrix N k0 a0 pol e1 e2 a x0)).1 i).im = 0 := by
  have hp := weight_pos (N := N) (pol := pol) (x0 := x0) h0 h1 he1 he2
  have hh := mode_hermitian (N := N) (k0 := k0) (a0 := a0) (pol := pol) (x0 := x0) h0 h1 he1 he2
  obtain ⟨he, hu⟩ := hg
  generalize eig (modeMatrix N k0 a0 pol e1 e2 a x0) = r at *
  obtain ⟨l, E⟩ := r
  simp only at he hu ⊢
  generalize weight N pol e1 e2 a x0 = W at *
  generalize modeMatrix N k0 a0 pol e1 e2 a x0 = M at *
  have hv : M *ᵥ E.col i = l i • E.col i := by
    have : (M * E) *ᵥ Pi.single i 1 = (E * diagonal l) *ᵥ Pi.single i 1 := by rw [he]
    rw [← mulVec_mulVec, ← mulVec_mulVec, mulVec_single_one] at this
    rw [this]
    have e : (diagonal l) *ᵥ Pi.single i 1 = l i • (Pi.single i 1 : Idx N → ℂ) := by
      funext j
      rw [mulVec_diagonal]
      by_cases hj : j = i
      · subst hj; simp
      · simp [hj]
    rw [e, mulVec_smul, mulVec_single_one]
  have h2 := form_im hh (E.col i)
  rw [← mulVec_mulVec, hv, mulVec_smul, dotProduct_smul, smul_eq_mul, Complex.mul_im, form_im hp.isHermitian, mul_zero, zero_add] at h2
  have h3 := hp.dotProduct_mulVec_pos (col_ne hu i)
  have h4 : 0 < (star (E.col i) ⬝ᵥ W *ᵥ E.col i).re := (Complex.lt_def.1 h3).1
  rcases mul_eq_zero.1 h2 with h | h
  · exact h
  · exact absurd h h4.ne'

theorem root_real {z : ℂ} (h : z.im = 0) : 0 ≤ (root z).re ∧ 0 ≤ (root z).im ∧ ((root z).re = 0 ∨ (root z).im = 0) := by
  have hz : z = (z.re : ℂ) := Complex.ext rfl (by simpa using h)
  have key : 0 ≤ ((-z) ^ (1 / 2 : ℂ)).re ∧ 0 ≤ ((-z) ^ (1 / 2 : ℂ)).im ∧ (((-z) ^ (1 / 2 : ℂ)).re = 0 ∨ ((-z) ^ (1 / 2 : ℂ)).im = 0) := by
    rw [hz, ← Complex.ofReal_neg]
    by_cases hr : 0 ≤ -z.re
    · rw [sqrt_real hr]
      simp [Real.sqrt_nonneg]
    · rw [Complex.ofReal_cpow_of_nonpos (by linarith), ← Complex.ofReal_neg, sqrt_real (by linarith)]
      rw [show (Real.pi * Complex.I * (1 / 2 : ℂ) : ℂ) = Real.pi / 2 * Complex.I by ring, Complex.exp_pi_div_two_mul_I]
      simp [Real.sqrt_nonneg]
  have hn : ¬((-z) ^ (1 / 2 : ℂ)).im < -(1 / 10 ^ 15) := fun hlt => by
    have := key.2.1
    have : (0 : ℝ) < 1 / 10 ^ 15 := by positivity
    linarith
  simp only [root, if_neg hn]
  exact key

/-- **C141.** A mode of a grating either goes through the layer, or fades away: it does not grow. -/
theorem modes_fade {k0 a0 pol e1 e2 a x0 : ℝ} (h0 : 0 ≤ a) (h1 : a ≤ 1) (he1 : 0 < e1) (he2 : 0 < e2) (hg : Eigen eig (modeMatrix N k0 a0 pol e1 e2 a x0)) (i : Idx N) :
    0 ≤ ((creneau eig k0 a0 pol e1 e2 a x0).val i).re ∧ 0 ≤ ((creneau eig k0 a0 pol e1 e2 a x0).val i).im ∧
      (((creneau eig k0 a0 pol e1 e2 a x0).val i).re = 0 ∨ ((creneau eig k0 a0 pol e1 e2 a x0).val i).im = 0) ∧
      ∀ h : ℝ, 0 ≤ h → ‖delay (creneau eig k0 a0 pol e1 e2 a x0).val h i i‖ ≤ 1 := by
  have hv : (creneau eig k0 a0 pol e1 e2 a x0).val i = root ((eig (modeMatrix N k0 a0 pol e1 e2 a x0)).1 i) := by
    simp only [creneau]; split <;> rfl
  have hr := root_real (eigen_real h0 h1 he1 he2 hg i)
  rw [← hv] at hr
  refine ⟨hr.1, hr.2.1, hr.2.2, fun h hh => ?_⟩
  rw [delay, diagonal_apply_eq, Complex.norm_exp]
  refine Real.exp_le_one_iff.2 ?_
  simp only [Complex.mul_re, Complex.mul_im, Complex.I_re, Complex.I_im, Complex.ofReal_re, Complex.ofReal_im]
  nlinarith [mul_nonneg hr.2.1 hh]

theorem valp_cases (k0 eps : ℝ) (i : Idx N) : 0 ≤ (valp k0 0 eps i).re ∧ 0 ≤ (valp k0 0 eps i).im := by
  have h := root_real (z := -((eps * k0 * k0 - (0 + 2 * Real.pi * (order i : ℝ)) ^ 2 : ℝ) : ℂ)) (by rw [← Complex.ofReal_neg]; rfl)
  have hn : root (-((eps * k0 * k0 - (0 + 2 * Real.pi * (order i : ℝ)) ^ 2 : ℝ) : ℂ)) = valp k0 0 eps i ∨ root (-((eps * k0 * k0 - (0 + 2 * Real.pi * (order i : ℝ)) ^ 2 : ℝ) : ℂ)) = -valp k0 0 eps i := by
    simp only [root, valp, neg_neg]
    split <;> split <;> simp
  rcases hn with hn | hn
  · rw [hn] at h; exact ⟨h.1, h.2.1⟩
  · have h2 := valp_re_nonneg (N := N) k0 eps i
    rw [hn, Complex.neg_re, Complex.neg_im] at h
    have hre : (valp k0 0 eps i).re = 0 := by linarith [h.1]
    refine ⟨h2, ?_⟩
    by_contra hlt
    push Not at hlt
    -- the sign is changed when the real part is zero and the imaginary part is negative
    simp only [valp] at hre hlt
    split at hlt
    · rename_i hc
      rw [if_pos hc] at hre
      rw [Complex.neg_re] at hre; rw [Complex.neg_im] at hlt
      rcases hc with hc | hc
      · linarith
      · linarith [hc.2]
    · rename_i hc
      rw [if_neg hc] at hre
      exact hc (Or.inr ⟨hre, hlt⟩)

/-! ### The bare substrate -/

theorem sum_ne {k0 pol e2 : ℝ} (hk : 0 < k0) (he2 : 0 < e2) (hne : e2 ≠ 1) (h0 : 0 ≤ pol) (h1 : pol ≤ 1) (i : Idx N) :
    valp k0 0 1 i + valp k0 0 e2 i * ((pol / e2 + (1 - pol) : ℝ) : ℂ) ≠ 0 := by
  intro hz
  have hw : 0 < pol / e2 + (1 - pol) := by
    rcases eq_or_lt_of_le h0 with h | h
    · rw [← h]; norm_num
    · have := div_pos h he2; linarith
  have c1 := valp_cases (N := N) k0 1 i
  have c2 := valp_cases (N := N) k0 e2 i
  have hre := congrArg Complex.re hz
  have him := congrArg Complex.im hz
  simp only [Complex.add_re, Complex.add_im, Complex.re_mul_ofReal, Complex.im_mul_ofReal, Complex.zero_re, Complex.zero_im] at hre him
  have p1 := mul_nonneg c2.1 hw.le
  have p2 := mul_nonneg c2.2 hw.le
  have z1 : valp k0 0 1 i = 0 := Complex.ext (by simp; linarith) (by simp; linarith)
  have z2 : valp k0 0 e2 i = 0 := by
    have q1 : (valp k0 0 e2 i).re * (pol / e2 + (1 - pol)) = 0 := by linarith [c1.1]
    have q2 : (valp k0 0 e2 i).im * (pol / e2 + (1 - pol)) = 0 := by linarith [c1.2]
    exact Complex.ext (by simpa [hw.ne'] using q1) (by simpa [hw.ne'] using q2)
  have s1 := valp_sq k0 0 1 i
  have s2 := valp_sq k0 0 e2 i
  rw [z1, zero_mul] at s1
  rw [z2, zero_mul] at s2
  have s1' := Complex.ofReal_eq_zero.1 s1.symm
  have s2' := Complex.ofReal_eq_zero.1 s2.symm
  have : (e2 - 1) * (k0 * k0) = 0 := by linear_combination s2' - s1'
  rcases mul_eq_zero.1 this with h | h
  · exact hne (by linarith)
  · exact (mul_pos hk hk).ne' h

/-- **C141.** The inverses for a bare substrate exist. -/
theorem bare_regular {k0 pol e2 : ℝ} (hk : 0 < k0) (he2 : 0 < e2) (hne : e2 ≠ 1) (h0 : 0 ≤ pol) (h1 : pol ≤ 1) : Regular eig k0 pol e2 [] := by
  refine ⟨?_, by simp [start]⟩
  rw [← isUnit_iff_isUnit_det, ← mulVec_injective_iff_isUnit]
  change Function.Injective (outMat (homogene N k0 0 pol 1) (homogene N k0 0 pol e2)).mulVecLin
  rw [injective_iff_map_eq_zero (outMat (homogene N k0 0 pol 1) (homogene N k0 0 pol e2)).mulVecLin]
  intro v hv
  rw [mulVecLin_apply, outMat, fromBlocks_mulVec] at hv
  have e1 : ∀ i, v (Sum.inl i) = v (Sum.inr i) := fun i => by
    have := congrFun hv (Sum.inl i)
    simp only [homogene, Sum.elim_inl, one_mulVec, neg_mulVec, Pi.add_apply, Pi.neg_apply, Function.comp, Pi.zero_apply] at this
    linear_combination this
  have e2' : ∀ i, v (Sum.inl i) = 0 := fun i => by
    have := congrFun hv (Sum.inr i)
    simp only [homogene, Sum.elim_inr, mulVec_diagonal, Pi.add_apply, Function.comp, Pi.zero_apply] at this
    rw [← e1 i] at this
    have hz : (valp k0 0 1 i + valp k0 0 e2 i * ((pol / e2 + (1 - pol) : ℝ) : ℂ)) * v (Sum.inl i) = 0 := by push_cast at this ⊢; linear_combination this
    exact (mul_eq_zero.1 hz).resolve_left (sum_ne hk he2 hne h0 h1 i)
  funext i
  rcases i with i | i
  · exact e2' i
  · rw [← e1 i]; exact e2' i

theorem valp_mid' {k0 e2 : ℝ} (hk : 0 < k0) (he2 : 0 < e2) : valp k0 0 e2 (mid N) = ((Real.sqrt e2 * k0 : ℝ) : ℂ) := by
  have e : ((e2 * k0 * k0 - (0 + 2 * Real.pi * (order (mid N) : ℝ)) ^ 2 : ℝ) : ℂ) = ((e2 * (k0 * k0) : ℝ) : ℂ) := by
    congr 1
    simp [order, mid, mul_assoc]
  have hp : 0 < Real.sqrt e2 * k0 := mul_pos (Real.sqrt_pos.2 he2) hk
  simp only [valp]
  rw [e, sqrt_real (mul_nonneg he2.le (mul_self_nonneg _)), Real.sqrt_mul he2.le, Real.sqrt_mul_self hk.le]
  rw [if_neg]
  simp only [Complex.ofReal_re, not_or, not_and]
  exact ⟨by linarith, fun h => by linarith⟩

/-- **C141.** A bare substrate reflects what the laws of Fresnel say, and only in the order 0. -/
theorem bare {k0 e2 : ℝ} (hk : 0 < k0) (he2 : 0 < e2) (hne : e2 ≠ 1) (i : Idx N) :
    reflected eig k0 1 e2 [] i = if i = mid N then ((Real.sqrt e2 - 1) / (Real.sqrt e2 + 1)) ^ 2 else 0 := by
  have hr := bare_regular (N := N) (eig := eig) (pol := 1) hk he2 hne zero_le_one le_rfl
  obtain ⟨h1, h2⟩ := (grating_fields hr (Pi.single (mid N) 1) _ _ 0).2 ⟨rfl, rfl⟩
  simp only [mulVec_zero, add_zero, mulVec_single_one, homogene, one_mulVec] at h1 h2
  have h1' := congrFun h1 i
  have h2' := congrFun h2 i
  simp only [mulVec_diagonal, Pi.add_apply, Pi.sub_apply, col_apply, Pi.zero_apply, sub_zero] at h1' h2'
  rw [← h1'] at h2'
  have hs := sum_ne (N := N) (pol := 1) hk he2 hne zero_le_one le_rfl i
  rw [reflected]
  generalize (grating eig k0 1 e2 []).b00 i (mid N) = b at *
  by_cases hi : i = mid N
  · subst hi
    rw [if_pos rfl]
    rw [valp_mid hk, valp_mid' hk he2] at h2'
    rw [valp_mid hk, Complex.ofReal_re, mul_div_assoc, div_self hk.ne', mul_one]
    simp only [Pi.single_eq_same] at h2'
    have hq : 0 < Real.sqrt e2 := Real.sqrt_pos.2 he2
    have hqq : Real.sqrt e2 * Real.sqrt e2 = e2 := Real.mul_self_sqrt he2.le
    have hb : b = (((Real.sqrt e2 - 1) / (Real.sqrt e2 + 1) : ℝ) : ℂ) := by
      have hqc : (Real.sqrt e2 : ℂ) ≠ 0 := by exact_mod_cast hq.ne'
      have hq1 : (Real.sqrt e2 + 1 : ℂ) ≠ 0 := by
        have : (Real.sqrt e2 + 1 : ℝ) ≠ 0 := by positivity
        exact_mod_cast this
      have hkc : (k0 : ℂ) ≠ 0 := by exact_mod_cast hk.ne'
      have hec : (e2 : ℂ) = Real.sqrt e2 * Real.sqrt e2 := by exact_mod_cast hqq.symm
      push_cast at h2' ⊢
      rw [hec] at h2'
      rw [eq_div_iff hq1]
      field_simp at h2'
      linear_combination -h2'
    rw [hb, Complex.norm_real, Real.norm_eq_abs, sq_abs]
  · rw [if_neg hi]
    simp only [Pi.single_eq_of_ne hi, zero_add, zero_sub] at h2'
    have hz : (valp k0 0 1 i + valp k0 0 e2 i * ((1 / e2 + (1 - 1) : ℝ) : ℂ)) * b = 0 := by push_cast at h2' ⊢; linear_combination -h2'
    rw [(mul_eq_zero.1 hz).resolve_left hs]
    simp

/-- **C141.** Without motifs the loss is 1 and one and a half times the share reflected by glass. -/
theorem cost_bare (hN : 0 < N) : cost hN eig [] = 1 + 3 / 2 * (49 / 1024) := by
  have he : Real.sqrt epsilon2 = 39 / 25 := by
    rw [show (epsilon2 : ℝ) = (39 / 25) * (39 / 25) by norm_num [epsilon2]]
    exact Real.sqrt_mul_self (by norm_num)
  have hb : ∀ l : ℝ, 0 < l → ∀ i : Idx N, reflected eig (waveNumber l) 1 epsilon2 [] i = if i = mid N then 49 / 1024 else 0 := fun l hl i => by
    rw [bare (waveNumber_pos hl) (by norm_num [epsilon2]) (by norm_num [epsilon2]), he]
    norm_num
  have hm : motifs [] = [] := by simp [motifs, NG.Morpho.motifs]
  have n1 : (⟨N - 1, by omega⟩ : Idx N) ≠ mid N := fun h => by simp [mid] at h; omega
  have n2 : (⟨N + 1, by omega⟩ : Idx N) ≠ mid N := fun h => by simp [mid] at h
  simp only [cost, hm, lams, List.map_cons, List.map_nil]
  rw [hb _ (by norm_num), hb _ (by norm_num), hb _ (by norm_num), hb _ (by norm_num), hb _ (by norm_num), hb _ (by norm_num), hb _ (by norm_num), hb _ (by norm_num)]
  rw [if_neg n1, if_neg n2]
  simp
  norm_num

/-! ### A motif of no height -/

theorem through_flat {k0 pol : ℝ} {Pc : Modes (Idx N)} {m : Motif} (hh : m.h = 0) (hs : m.spacer = 0) (hv : ∀ i : Idx N, valp k0 0 1 i ≠ 0) {a b c d : Idx N → ℂ}
    (h : Through (homogene N k0 0 pol 1) Pc m a b c d) : a = c ∧ b = d := by
  obtain ⟨a1, b1, a2, b2, a3, b3, ⟨g1, g1'⟩, g2, ⟨g3, g3'⟩, g4⟩ := h
  simp only [Travels, hh, hs, Complex.ofReal_zero, mul_zero, Complex.exp_zero, one_mul] at g2 g4
  obtain rfl : a2 = a1 := funext g2.1
  obtain rfl : b1 = b2 := funext g2.2
  obtain rfl : c = a3 := funext g4.1
  obtain rfl : b3 = d := funext g4.2
  have e1 := g1.trans g3
  have e2 := g1'.trans g3'
  simp only [homogene, one_mulVec] at e1 e2
  have k : ∀ i, a i = c i ∧ b i = b3 i := fun i => by
    have e1 := congrFun e1 i
    have e2 := congrFun e2 i
    simp only [mulVec_diagonal, Pi.add_apply, Pi.sub_apply] at e1 e2
    have e2 : a i - b i = c i - b3 i := by
      refine mul_left_cancel₀ (hv i) ?_
      push_cast at e2
      linear_combination e2
    constructor
    · linear_combination (e1 + e2) / 2
    · linear_combination (e1 - e2) / 2
  exact ⟨funext fun i => (k i).1, funext fun i => (k i).2⟩

theorem fields_flat {k0 pol e2 : ℝ} {m : Motif} (hh : m.h = 0) (hs : m.spacer = 0) (hv : ∀ i : Idx N, valp k0 0 1 i ≠ 0) {ns : List Motif} :
    ∀ (ms : List Motif) {a b c d : Idx N → ℂ}, Fields eig k0 pol e2 (ms ++ m :: ns) a b c d → Fields eig k0 pol e2 (ms ++ ns) a b c d
  | [], a, b, c, d, h => by
    obtain ⟨x, y, h1, h2⟩ := h
    obtain ⟨rfl, rfl⟩ := through_flat hh hs hv h1
    exact h2
  | k :: ms, a, b, c, d, h => by
    obtain ⟨x, y, h1, h2⟩ := h
    exact ⟨x, y, h1, fields_flat hh hs hv ms h2⟩

/-- **C141.** A motif of no height with no spacer changes nothing, wherever it is and whatever its width. -/
theorem flat {k0 pol e2 : ℝ} {m : Motif} (hh : m.h = 0) (hs : m.spacer = 0) (hv : ∀ i : Idx N, valp k0 0 1 i ≠ 0) {ms ns : List Motif}
    (h1 : Regular eig k0 pol e2 (ms ++ m :: ns)) (h2 : Regular eig k0 pol e2 (ms ++ ns)) :
    grating eig k0 pol e2 (ms ++ m :: ns) = grating eig k0 pol e2 (ms ++ ns) :=
  rel_ext fun a b c d h => (grating_fields h2 a b c d).1 (fields_flat hh hs hv ms ((grating_fields h1 a b c d).2 h))

end

/-- With one order on each side, an eigenvalue routine that does what is asked, and no motif. -/
example (eig : Matrix (Idx 1) (Idx 1) ℂ → (Idx 1 → ℂ) × Matrix (Idx 1) (Idx 1) ℂ) : cost one_pos eig [] = 2195 / 2048 := by
  rw [cost_bare]; norm_num

/-- **C141.** There is a routine that finds the modes of all the motifs whose width is between 0 and the period: `Transparent` can be met. -/
theorem eig_exists (N : Nat) : ∃ eig : Matrix (Idx N) (Idx N) ℂ → (Idx N → ℂ) × Matrix (Idx N) (Idx N) ℂ,
    ∀ (k0 pol e2 : ℝ), 0 < e2 → ∀ ms : List Motif, (∀ m ∈ ms, 0 ≤ m.a ∧ m.a ≤ 1) → Transparent eig k0 pol e2 ms := by
  classical
  have hex : ∀ M : Matrix (Idx N) (Idx N) ℂ, ∃ r : (Idx N → ℂ) × Matrix (Idx N) (Idx N) ℂ,
      (∃ (l : Idx N → ℂ) (E : Matrix (Idx N) (Idx N) ℂ), M * E = E * diagonal l ∧ IsUnit E.det) → M * r.2 = r.2 * diagonal r.1 ∧ IsUnit r.2.det := fun M => by
    by_cases h : ∃ (l : Idx N → ℂ) (E : Matrix (Idx N) (Idx N) ℂ), M * E = E * diagonal l ∧ IsUnit E.det
    · obtain ⟨l, E, hh⟩ := h; exact ⟨(l, E), fun _ => hh⟩
    · exact ⟨(0, 0), fun h' => absurd h' h⟩
  choose eig he using hex
  refine ⟨eig, fun k0 pol e2 h2 ms hm m hmm => ⟨(hm m hmm).1, (hm m hmm).2, ?_⟩⟩
  exact he _ (eigen_exists (hm m hmm).1 (hm m hmm).2 h2 one_pos)

/-- **C141.** The widths within the bounds of the parametrization are between 0 and the period. -/
theorem widths_ok {hs xs ws ss : List ℝ} {n : Nat} (h1 : hs.length = n) (h2 : xs.length = n) (h3 : ws.length = n) (h4 : ss.length = n) {lo hi : ℚ}
    (hb : NG.Photonics.Name.morpho.bounds[2]? = some (lo, hi)) (hw : ∀ w ∈ ws, (lo : ℝ) ≤ w ∧ w ≤ hi) :
    ∀ m ∈ motifs (numbers hs xs ws ss), 0 ≤ m.a ∧ m.a ≤ 1 := by
  rw [motifs_numbers h1 h2 h3 h4]
  obtain ⟨rfl, rfl⟩ : lo = 30 ∧ hi = 600 := by
    simp only [NG.Photonics.Name.bounds] at hb
    simpa [eq_comm] using hb
  intro m hm
  obtain ⟨j, hj, rfl⟩ := List.mem_map.1 hm
  have hj := List.mem_range.1 hj
  have hg : ws.getD j 0 = ws[j]'(by omega) := by rw [List.getD_eq_getElem?_getD, List.getElem?_eq_getElem (by omega)]; rfl
  have := hw _ (List.getElem_mem (show j < ws.length by omega))
  norm_num at this
  simp only [hg]
  refine ⟨div_nonneg (by linarith) period_pos.le, (div_le_one period_pos).2 ?_⟩
  norm_num [period]
  linarith

/-- The matrix of a motif of half the period: the mean, and the first coefficients of a square wave. -/
example : marche 2 1 (1 / 2) 3 0 0 0 = 3 / 2 ∧ marche 2 1 (1 / 2) 3 0 1 0 = -Complex.I / Real.pi ∧ marche 2 1 (1 / 2) 3 0 2 0 = 0 := by
  have hpi : (Real.pi : ℂ) ≠ 0 := by exact_mod_cast Real.pi_ne_zero
  refine ⟨?_, ?_, ?_⟩
  · simp [marche, firstCol]; norm_num
  · have h : Complex.exp (-2 * Complex.I * Real.pi * ((1 / 2 : ℝ) : ℂ) * ((1 : ℕ) : ℂ)) = -1 := by
      rw [show (-2 * Complex.I * Real.pi * ((1 / 2 : ℝ) : ℂ) * ((1 : ℕ) : ℂ) : ℂ) = -(Real.pi * Complex.I) by push_cast; ring, Complex.exp_neg, Complex.exp_pi_mul_I]
      norm_num
    rw [marche, if_pos (by decide), firstCol, if_neg (by decide), tmp]
    change Complex.I * _ * (1 / (2 * Real.pi * ((1 : ℕ) : ℂ)) * (Complex.exp (-2 * Complex.I * Real.pi * ((1 / 2 : ℝ) : ℂ) * ((1 : ℕ) : ℂ)) - 1) * _) = _
    rw [h]
    simp
    field_simp
    norm_num
  · have h : Complex.exp (-2 * Complex.I * Real.pi * ((1 / 2 : ℝ) : ℂ) * ((2 : ℕ) : ℂ)) = 1 := by
      rw [show (-2 * Complex.I * Real.pi * ((1 / 2 : ℝ) : ℂ) * ((2 : ℕ) : ℂ) : ℂ) = -(2 * Real.pi * Complex.I) by push_cast; ring, Complex.exp_neg, Complex.exp_two_pi_mul_I]
      norm_num
    rw [marche, if_pos (by decide), firstCol, if_neg (by decide), tmp]
    change Complex.I * _ * (1 / (2 * Real.pi * ((2 : ℕ) : ℂ)) * (Complex.exp (-2 * Complex.I * Real.pi * ((1 / 2 : ℝ) : ℂ) * ((2 : ℕ) : ℂ)) - 1) * _) = _
    rw [h]
    simp

end NG.Morpho
