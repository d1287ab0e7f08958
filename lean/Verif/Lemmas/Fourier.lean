import Verif.Model.Fourier
import Mathlib.RingTheory.RootsOfUnity.Complex

/-! # Lemmas on the finite Fourier transforms -/

namespace NG
namespace Fourier

open Finset

theorem root_prim {n : ℕ} (hn : n ≠ 0) : IsPrimitiveRoot (root n) n :=
  (Complex.isPrimitiveRoot_exp n hn).inv

theorem root_ne {n : ℕ} : root n ≠ 0 := inv_ne_zero (Complex.exp_ne_zero _)

theorem conj_root (n : ℕ) : (starRingEnd ℂ) (root n) = (root n)⁻¹ := by
  unfold root
  rw [map_inv₀, ← Complex.exp_conj, inv_inv, ← Complex.exp_neg]
  congr 1
  rw [map_div₀, map_mul, map_mul, Complex.conj_I, Complex.conj_ofReal, Complex.conj_natCast, Complex.conj_ofNat]
  ring

theorem orth {n k l : ℕ} (hk : k < n) (hl : l < n) :
    ∑ j ∈ range n, root n ^ (j * k) * (root n)⁻¹ ^ (j * l) = if k = l then (n : ℂ) else 0 := by
  have hn : n ≠ 0 := by omega
  have hp := root_prim hn
  have e : ∀ j, root n ^ (j * k) * (root n)⁻¹ ^ (j * l) = (root n ^ k * (root n)⁻¹ ^ l) ^ j := by
    intro j
    rw [mul_pow, ← pow_mul, ← pow_mul, mul_comm j k, mul_comm j l]
  simp only [e]
  by_cases h : k = l
  · subst h
    have : root n ^ k * (root n)⁻¹ ^ k = 1 := by
      rw [← mul_pow, mul_inv_cancel₀ root_ne, one_pow]
    rw [this]; simp
  · have hz : root n ^ k * (root n)⁻¹ ^ l ≠ 1 := by
      intro hz
      apply h
      apply hp.pow_inj hk hl
      have := congrArg (· * root n ^ l) hz
      simpa [mul_assoc, root_ne] using this
    rw [if_neg h, geom_sum_eq hz]
    have : (root n ^ k * (root n)⁻¹ ^ l) ^ n = 1 := by
      rw [mul_pow, ← pow_mul, ← pow_mul, mul_comm k, mul_comm l, pow_mul, pow_mul, inv_pow, hp.pow_eq_one]
      simp
    rw [this]; simp

theorem orth' {n k l : ℕ} (hk : k < n) (hl : l < n) :
    ∑ j ∈ range n, (root n)⁻¹ ^ (k * j) * root n ^ (j * l) = if k = l then (n : ℂ) else 0 := by
  have := orth hl hk
  rw [← show (if l = k then (n : ℂ) else 0) = if k = l then (n : ℂ) else 0 by simp [eq_comm], ← this]
  apply sum_congr rfl
  intro j _
  rw [mul_comm, mul_comm k j]

theorem sqrt_sq' {n : ℕ} (hn : n ≠ 0) : (Real.sqrt n : ℂ)⁻¹ * (Real.sqrt n : ℂ)⁻¹ * n = 1 := by
  have h0 : (0 : ℝ) ≤ n := Nat.cast_nonneg n
  have h : (Real.sqrt n : ℂ) * (Real.sqrt n : ℂ) = n := by
    rw [← Complex.ofReal_mul, Real.mul_self_sqrt h0]; simp
  have hn' : (n : ℂ) ≠ 0 := Nat.cast_ne_zero.2 hn
  rw [← mul_inv, h, inv_mul_cancel₀ hn']

theorem fft_ifft {n : ℕ} (y : ℕ → ℂ) {k : ℕ} (hk : k < n) : fft n (ifft n y) k = y k := by
  have hn : n ≠ 0 := by omega
  unfold fft ifft
  have : ∀ j ∈ range n, (Real.sqrt n : ℂ)⁻¹ * (∑ l ∈ range n, y l * (root n)⁻¹ ^ (j * l)) * root n ^ (j * k)
      = (Real.sqrt n : ℂ)⁻¹ * ∑ l ∈ range n, y l * (root n ^ (j * k) * (root n)⁻¹ ^ (j * l)) := by
    intro j _
    rw [mul_assoc, sum_mul]
    congr 1
    apply sum_congr rfl
    intro l _
    ring
  rw [sum_congr rfl this, ← mul_sum, sum_comm]
  have h2 : ∀ l ∈ range n, ∑ j ∈ range n, y l * (root n ^ (j * k) * (root n)⁻¹ ^ (j * l)) = if k = l then y l * n else 0 := by
    intro l hl
    rw [← mul_sum, orth hk (mem_range.1 hl)]
    split <;> simp
  rw [sum_congr rfl h2, sum_ite_eq, if_pos (mem_range.2 hk), ← mul_assoc, mul_comm (y k), ← mul_assoc, sqrt_sq' hn, one_mul]

theorem ifft_fft {n : ℕ} (y : ℕ → ℂ) {k : ℕ} (hk : k < n) : ifft n (fft n y) k = y k := by
  have hn : n ≠ 0 := by omega
  unfold fft ifft
  have : ∀ j ∈ range n, (Real.sqrt n : ℂ)⁻¹ * (∑ l ∈ range n, y l * (root n) ^ (l * j)) * (root n)⁻¹ ^ (k * j)
      = (Real.sqrt n : ℂ)⁻¹ * ∑ l ∈ range n, y l * ((root n)⁻¹ ^ (k * j) * (root n) ^ (j * l)) := by
    intro j _
    rw [mul_assoc, sum_mul]
    congr 1
    apply sum_congr rfl
    intro l _
    rw [mul_comm l j]
    ring
  rw [sum_congr rfl this, ← mul_sum, sum_comm]
  have h2 : ∀ l ∈ range n, ∑ j ∈ range n, y l * ((root n)⁻¹ ^ (k * j) * (root n) ^ (j * l)) = if k = l then y l * n else 0 := by
    intro l hl
    rw [← mul_sum, orth' hk (mem_range.1 hl)]
    split <;> simp
  rw [sum_congr rfl h2, sum_ite_eq, if_pos (mem_range.2 hk), ← mul_assoc, mul_comm (y k), ← mul_assoc, sqrt_sq' hn, one_mul]

/-- The opposite of a frequency. -/
def opp (n k : ℕ) : ℕ := (n - k) % n

theorem opp_lt {n k : ℕ} (hk : k < n) : opp n k < n := Nat.mod_lt _ (by omega)

theorem opp_zero (n : ℕ) : opp n 0 = 0 := by simp [opp]

theorem opp_pos {n k : ℕ} (h : 0 < k) (hk : k < n) : opp n k = n - k := Nat.mod_eq_of_lt (by omega)

theorem root_opp {n k : ℕ} (hk : k < n) (j : ℕ) : root n ^ (j * opp n k) = (root n)⁻¹ ^ (j * k) := by
  have hp := root_prim (n := n) (by omega)
  rcases Nat.eq_zero_or_pos k with h0 | h0
  · subst h0; simp [opp_zero]
  · rw [opp_pos h0 hk]
    have : root n ^ (j * (n - k)) * root n ^ (j * k) = 1 := by
      rw [← pow_add, ← Nat.mul_add, Nat.sub_add_cancel hk.le, mul_comm, pow_mul, hp.pow_eq_one, one_pow]
    rw [inv_pow]
    exact eq_inv_of_mul_eq_one_left this

theorem fft_conj {n : ℕ} (y : ℕ → ℂ) {k : ℕ} (hk : k < n) :
    fft n (fun j => (starRingEnd ℂ) (y j)) k = (starRingEnd ℂ) (fft n y (opp n k)) := by
  unfold fft
  rw [map_mul, map_inv₀, Complex.conj_ofReal, map_sum]
  congr 1
  apply sum_congr rfl
  intro j _
  rw [map_mul, root_opp hk, map_pow, map_inv₀, conj_root, inv_inv]

theorem rfft_opp {n : ℕ} (x : ℕ → ℝ) {k : ℕ} (hk : k < n) : rfft n x k = (starRingEnd ℂ) (rfft n x (opp n k)) := by
  unfold rfft
  rw [← fft_conj _ hk]
  simp

theorem fft_congr {n : ℕ} {y z : ℕ → ℂ} (h : ∀ j < n, y j = z j) (k : ℕ) : fft n y k = fft n z k := by
  unfold fft
  congr 1
  exact sum_congr rfl (fun j hj => by rw [h j (mem_range.1 hj)])

theorem ifft_congr {n : ℕ} {y z : ℕ → ℂ} (h : ∀ j < n, y j = z j) (k : ℕ) : ifft n y k = ifft n z k := by
  unfold ifft
  congr 1
  exact sum_congr rfl (fun j hj => by rw [h j (mem_range.1 hj)])

theorem fft_add (n : ℕ) (y z : ℕ → ℂ) (k : ℕ) : fft n (fun j => y j + z j) k = fft n y k + fft n z k := by
  unfold fft
  rw [← mul_add, ← sum_add_distrib]
  congr 1
  exact sum_congr rfl (fun j _ => by ring)

theorem fft_smul (n : ℕ) (c : ℂ) (y : ℕ → ℂ) (k : ℕ) : fft n (fun j => c * y j) k = c * fft n y k := by
  unfold fft
  rw [mul_left_comm]
  congr 1
  rw [mul_sum]
  exact sum_congr rfl (fun j _ => by ring)

/-- All the coefficients of the array with the given first half of the coefficients. -/
noncomputable def full (h : ℕ) (y : ℕ → ℂ) (k : ℕ) : ℂ :=
  if k = 0 then ((y 0).re : ℂ) else if k < h then y k else if k = h then ((y h).re : ℂ) else (starRingEnd ℂ) (y (2 * h - k))

theorem root_half {h : ℕ} (hh : 0 < h) : root (2 * h) ^ h = -1 := by
  have hp := root_prim (n := 2 * h) (by omega)
  have h1 : (root (2 * h) ^ h) ^ 2 = 1 := by rw [← pow_mul, mul_comm h 2, hp.pow_eq_one]
  have h2 : root (2 * h) ^ h ≠ 1 := by
    intro h2
    have := hp.dvd_of_pow_eq_one h h2
    have := Nat.le_of_dvd hh this
    omega
  have h3 : (root (2 * h) ^ h - 1) * (root (2 * h) ^ h + 1) = 0 := by linear_combination h1
  rcases mul_eq_zero.1 h3 with h4 | h4
  · exact absurd (by linear_combination h4) h2
  · linear_combination h4

theorem split_sum {h : ℕ} (hh : 0 < h) (f : ℕ → ℂ) :
    ∑ k ∈ range (2 * h), f k = f 0 + f h + ∑ k ∈ Ico 1 h, (f k + f (2 * h - k)) := by
  have e1 : ∑ k ∈ range (2 * h), f k = ∑ k ∈ range h, f k + ∑ k ∈ Ico h (2 * h), f k := by
    rw [range_eq_Ico, range_eq_Ico, sum_Ico_consecutive] <;> omega
  have e2 : ∑ k ∈ range h, f k = f 0 + ∑ k ∈ Ico 1 h, f k := by
    rw [range_eq_Ico, sum_eq_sum_Ico_succ_bot hh]
  have e3 : ∑ k ∈ Ico h (2 * h), f k = f h + ∑ k ∈ Ico (h + 1) (2 * h), f k := by
    rw [sum_eq_sum_Ico_succ_bot (by omega)]
  have e4 : ∑ k ∈ Ico (h + 1) (2 * h), f k = ∑ k ∈ Ico 1 h, f (2 * h - k) := by
    apply sum_bij' (fun k _ => 2 * h - k) (fun k _ => 2 * h - k)
    · intro k hk; simp only [mem_Ico] at hk ⊢; omega
    · intro k hk; simp only [mem_Ico] at hk ⊢; omega
    · intro k hk; simp only [mem_Ico] at hk; omega
    · intro k hk; simp only [mem_Ico] at hk; omega
    · intro k hk
      simp only [mem_Ico] at hk
      congr 1
      omega
  rw [e1, e2, e3, e4, sum_add_distrib]
  ring

theorem irfft_eq {h : ℕ} (hh : 0 < h) (y : ℕ → ℂ) (j : ℕ) : (irfft h y j : ℂ) = ifft (2 * h) (full h y) j := by
  have hp := root_prim (n := 2 * h) (by omega)
  unfold irfft ifft
  rw [Complex.ofReal_mul, Complex.ofReal_inv, split_sum hh]
  congr 1
  rw [Complex.ofReal_add, Complex.ofReal_add, Complex.ofReal_mul, Complex.ofReal_mul, Complex.ofReal_sum, mul_sum]
  congr 1
  · have h1 : full h y 0 = ((y 0).re : ℂ) := by simp [full]
    have h2 : full h y h = ((y h).re : ℂ) := by simp [full, hh.ne']
    have h3 : (root (2 * h))⁻¹ ^ (j * h) = (-1) ^ j := by
      rw [mul_comm j h, pow_mul, inv_pow, root_half hh]
      norm_num
    rw [h1, h2, h3]
    push_cast
    ring
  · apply sum_congr rfl
    intro k hk
    have hk := mem_Ico.1 hk
    have h1 : full h y k = y k := by
      unfold full; rw [if_neg (by omega), if_pos (by omega)]
    have h2 : full h y (2 * h - k) = (starRingEnd ℂ) (y k) := by
      unfold full; rw [if_neg (by omega), if_neg (by omega), if_neg (by omega)]
      congr 2; omega
    have h3 : (root (2 * h))⁻¹ ^ (j * (2 * h - k)) = (starRingEnd ℂ) ((root (2 * h))⁻¹ ^ (j * k)) := by
      rw [map_pow, map_inv₀, conj_root, inv_inv, inv_pow, ← opp_pos (by omega : 0 < k) (by omega : k < 2 * h),
        root_opp (by omega : k < 2 * h), ← inv_pow, inv_inv]
    rw [h1, h2, h3, ← map_mul, Complex.add_conj]
    push_cast
    ring

theorem full_opp {h : ℕ} (y : ℕ → ℂ) {k : ℕ} (hk : k < 2 * h) : full h y (opp (2 * h) k) = (starRingEnd ℂ) (full h y k) := by
  rcases Nat.eq_zero_or_pos k with h0 | h0
  · subst h0; simp [opp_zero, full]
  · rw [opp_pos h0 hk]
    unfold full
    rcases lt_trichotomy k h with h1 | h1 | h1
    · rw [if_neg (by omega), if_neg (by omega), if_neg (by omega), if_neg (by omega), if_pos h1]
      congr 2; omega
    · subst h1
      rw [if_neg (by omega), if_neg (by omega), if_pos (by omega), if_neg (by omega), if_neg (by omega), if_pos rfl]
      simp
    · rw [if_neg (by omega), if_pos (by omega), if_neg (by omega), if_neg (by omega), if_neg (by omega)]
      simp

/-- The coefficients of the inverse. -/
theorem rfft_irfft_full {h : ℕ} (hh : 0 < h) (y : ℕ → ℂ) {k : ℕ} (hk : k < 2 * h) : rfft (2 * h) (irfft h y) k = full h y k := by
  unfold rfft
  simp only [irfft_eq hh]
  exact fft_ifft _ hk

theorem rfft_real {n : ℕ} (x : ℕ → ℝ) {k : ℕ} (hk : k < n) (h : opp n k = k) : ((rfft n x k).re : ℂ) = rfft n x k := by
  have := rfft_opp x hk
  rw [h] at this
  exact Complex.conj_eq_iff_re.1 this.symm

theorem full_rfft {h : ℕ} (x : ℕ → ℝ) {k : ℕ} (hk : k < 2 * h) : full h (rfft (2 * h) x) k = rfft (2 * h) x k := by
  unfold full
  split_ifs with h1 h2 h3
  · subst h1; exact rfft_real x (by omega) (opp_zero _)
  · rfl
  · subst h3
    exact rfft_real x (by omega) (by rw [opp_pos (by omega) (by omega)]; omega)
  · rw [rfft_opp x hk, opp_pos (by omega) hk]

theorem irfft_rfft {h : ℕ} (hh : 0 < h) (x : ℕ → ℝ) {j : ℕ} (hj : j < 2 * h) : irfft h (rfft (2 * h) x) j = x j := by
  have : (irfft h (rfft (2 * h) x) j : ℂ) = (x j : ℂ) := by
    rw [irfft_eq hh, ifft_congr (fun k hk => full_rfft x hk)]
    exact ifft_fft _ hj
  exact_mod_cast this

theorem irfft_congr {h : ℕ} {y z : ℕ → ℂ} (e : ∀ k ≤ h, y k = z k) (j : ℕ) : irfft h y j = irfft h z j := by
  unfold irfft
  rw [e 0 (by omega), e h le_rfl]
  congr 3
  exact sum_congr rfl (fun k hk => by rw [e k (by have := mem_Ico.1 hk; omega)])

theorem parseval {n : ℕ} (y : ℕ → ℂ) : ∑ k ∈ range n, Complex.normSq (fft n y k) = ∑ j ∈ range n, Complex.normSq (y j) := by
  have hC : ∑ k ∈ range n, fft n y k * (starRingEnd ℂ) (fft n y k) = ∑ j ∈ range n, y j * (starRingEnd ℂ) (y j) := by
    have e : ∀ k ∈ range n, fft n y k * (starRingEnd ℂ) (fft n y k)
        = ∑ j ∈ range n, (starRingEnd ℂ) (y j) * ((Real.sqrt n : ℂ)⁻¹ * (fft n y k * (root n)⁻¹ ^ (j * k))) := by
      intro k _
      conv_lhs => rw [show (starRingEnd ℂ) (fft n y k) = (Real.sqrt n : ℂ)⁻¹ * ∑ j ∈ range n, (starRingEnd ℂ) (y j) * (root n)⁻¹ ^ (j * k) by
        unfold fft
        rw [map_mul, map_inv₀, Complex.conj_ofReal, map_sum]
        congr 1
        exact sum_congr rfl (fun j _ => by rw [map_mul, map_pow, conj_root])]
      rw [mul_sum, mul_sum]
      exact sum_congr rfl (fun j _ => by ring)
    rw [sum_congr rfl e, sum_comm]
    apply sum_congr rfl
    intro j hj
    rw [← mul_sum, ← mul_sum]
    have := ifft_fft y (mem_range.1 hj)
    conv_rhs => rw [← this]
    rw [this, mul_comm]
    congr 1
  have : ((∑ k ∈ range n, Complex.normSq (fft n y k) : ℝ) : ℂ) = ((∑ j ∈ range n, Complex.normSq (y j) : ℝ) : ℂ) := by
    push_cast
    simp only [← Complex.mul_conj]
    exact hC
  exact_mod_cast this

end Fourier
end NG
