/-
C142: the solver in the frequency domain: the matrices are differences on the grid, the wave matrix is symmetric, the source is only at
the border of its region, the loss does not depend on the eigenvectors found, and the index of a mode is at most the one of the material.
-/
import Verif.Model.Fdfd
import Verif.Lemmas.Morpho

namespace NG.Fdfd

open Matrix

/-! ### The grid -/

/-- The value in the cell `(x, y)`, and 0 outside of the grid. -/
def val {Nx Ny : Nat} (f : Fin (Nx * Ny) → ℂ) (x y : ℤ) : ℂ :=
  if h : 0 ≤ x ∧ x < Nx ∧ 0 ≤ y ∧ y < Ny then
    f ⟨(x + Nx * y).toNat, by
      obtain ⟨h1, h2, h3, h4⟩ := h
      have : x + Nx * y < Nx * Ny := by nlinarith
      have h0 : 0 ≤ x + Nx * y := by positivity
      zify
      rw [Int.toNat_of_nonneg h0]
      exact this⟩
  else 0

section
variable {Nx Ny : Nat}

/-- The column of a cell. -/
def col (i : Fin (Nx * Ny)) : ℤ := ((i : Nat) % Nx : Nat)

/-- The row of a cell. -/
def row (i : Fin (Nx * Ny)) : ℤ := ((i : Nat) / Nx : Nat)

theorem Nx_pos (i : Fin (Nx * Ny)) : 0 < Nx := Nat.pos_of_ne_zero fun h => by subst h; have := i.2; simp at this

theorem val_eq (f : Fin (Nx * Ny) → ℂ) {x y : Nat} (hx : x < Nx) (hy : y < Ny) (j : Fin (Nx * Ny)) (hj : (j : Nat) = x + Nx * y) : val f x y = f j := by
  rw [val, dif_pos ⟨by omega, by omega, by omega, by omega⟩]
  congr 1
  apply Fin.ext
  simp only
  rw [hj]
  have : (x : ℤ) + Nx * y = ((x + Nx * y : Nat) : ℤ) := by push_cast; ring
  rw [this, Int.toNat_natCast]

theorem row_lt (i : Fin (Nx * Ny)) : (i : Nat) / Nx < Ny := Nat.div_lt_of_lt_mul i.2

theorem val_self (f : Fin (Nx * Ny) → ℂ) (i : Fin (Nx * Ny)) : val f (col i) (row i) = f i :=
  val_eq f (Nat.mod_lt _ (Nx_pos i)) (row_lt i) i (Nat.mod_add_div _ _).symm

theorem val_out (f : Fin (Nx * Ny) → ℂ) {x y : ℤ} (h : ¬(0 ≤ x ∧ x < Nx ∧ 0 ≤ y ∧ y < Ny)) : val f x y = 0 := dif_neg h

theorem band_mulVec (M k : Nat) (c : Nat → ℂ) (f : Fin M → ℂ) (i : Fin M) : (band M k c *ᵥ f) i = if h : (i : Nat) + k < M then c i * f ⟨i + k, h⟩ else 0 := by
  simp only [mulVec, dotProduct, band, ite_mul, zero_mul]
  split
  · rename_i h
    rw [Finset.sum_eq_single ⟨i + k, h⟩]
    · simp
    · intro j _ hj
      rw [if_neg]
      exact fun e => hj (Fin.ext e)
    · simp
  · rename_i h
    refine Finset.sum_eq_zero fun j _ => if_neg fun e => h ?_
    rw [← e]; exact j.2

theorem band_conj_mulVec (M k : Nat) (c : Nat → ℂ) (f : Fin M → ℂ) (i : Fin M) :
    ((band M k c)ᴴ *ᵥ f) i = if h : k ≤ (i : Nat) then (starRingEnd ℂ) (c (i - k)) * f ⟨i - k, by omega⟩ else 0 := by
  simp only [mulVec, dotProduct, band, conjTranspose_apply]
  split
  · rename_i h
    rw [Finset.sum_eq_single ⟨i - k, by omega⟩]
    · rw [if_pos (by simp only; omega)]; rfl
    · intro j _ hj
      rw [if_neg, star_zero, zero_mul]
      exact fun e => hj (Fin.ext (by simp only; omega))
    · simp
  · rename_i h
    refine Finset.sum_eq_zero fun j _ => ?_
    rw [if_neg (by omega), star_zero, zero_mul]

/-- **C142.** `DEX` takes the difference with the next cell along x; beyond the border the field is 0. -/
theorem dex_spec (h1 : Nx ≠ 1) (dx kx : ℝ) (f : Fin (Nx * Ny) → ℂ) (i : Fin (Nx * Ny)) :
    (dex Nx Ny dx kx *ᵥ f) i = (val f (col i + 1) (row i) - val f (col i) (row i)) / dx := by
  have hN := Nx_pos i
  rw [val_self, dex, if_neg h1, add_mulVec, Pi.add_apply, mulVec_diagonal, band_mulVec]
  have hd := Nat.mod_add_div (i : Nat) Nx
  by_cases hx : (i : Nat) % Nx = Nx - 1
  · rw [val_out, if_pos hx]
    · split <;> (push_cast; ring)
    · simp only [col]; omega
  · have hlt : (i : Nat) % Nx + 1 < Nx := by have := Nat.mod_lt (i : Nat) hN; omega
    have hr := row_lt i
    have hM : (i : Nat) + 1 < Nx * Ny := by
      have : Nx * ((i : Nat) / Nx) + Nx ≤ Nx * Ny := by rw [← Nat.mul_succ]; exact Nat.mul_le_mul_left _ hr
      omega
    have := val_eq f hlt hr ⟨i + 1, hM⟩ (by simp only; omega)
    rw [dif_pos hM, if_neg hx]
    simp only [col, row]
    push_cast at this ⊢
    rw [this]
    ring

/-- **C142.** `DEY` takes the difference with the next cell along y; beyond the border the field is 0. -/
theorem dey_spec (h1 : Ny ≠ 1) (dy ky : ℝ) (f : Fin (Nx * Ny) → ℂ) (i : Fin (Nx * Ny)) :
    (dey Nx Ny dy ky *ᵥ f) i = (val f (col i) (row i + 1) - val f (col i) (row i)) / dy := by
  have hN := Nx_pos i
  rw [val_self, dey, if_neg h1, add_mulVec, Pi.add_apply, mulVec_diagonal, band_mulVec]
  have hd := Nat.mod_add_div (i : Nat) Nx
  have hm := Nat.mod_lt (i : Nat) hN
  by_cases hy : (i : Nat) / Nx + 1 < Ny
  · have hM : (i : Nat) + Nx < Nx * Ny := by
      have : Nx * ((i : Nat) / Nx + 1) + Nx ≤ Nx * Ny := by rw [← Nat.mul_succ]; exact Nat.mul_le_mul_left _ hy
      rw [Nat.mul_succ] at this
      omega
    have := val_eq f hm hy ⟨i + Nx, hM⟩ (by simp only; rw [Nat.mul_succ]; omega)
    rw [dif_pos hM]
    simp only [col, row]
    push_cast at this ⊢
    rw [this]
    ring
  · rw [val_out, dif_neg]
    · push_cast; ring
    · intro hM
      have : Nx * ((i : Nat) / Nx + 1) ≤ i + Nx := by rw [Nat.mul_succ]; omega
      have h3 : Nx * ((i : Nat) / Nx + 1) < Nx * Ny := by omega
      exact hy (Nat.lt_of_mul_lt_mul_left h3)
    · simp only [row]; omega

/-- **C142.** `DHX` takes the difference with the cell before along x. -/
theorem dhx_spec (h1 : Nx ≠ 1) (dx kx : ℝ) (f : Fin (Nx * Ny) → ℂ) (i : Fin (Nx * Ny)) :
    (dual (dex Nx Ny dx kx) *ᵥ f) i = (val f (col i) (row i) - val f (col i - 1) (row i)) / dx := by
  have hN := Nx_pos i
  rw [val_self, dual, dex, if_neg h1, conjTranspose_add, diagonal_conjTranspose, neg_mulVec, add_mulVec, Pi.neg_apply, Pi.add_apply, mulVec_diagonal, band_conj_mulVec]
  have hd := Nat.mod_add_div (i : Nat) Nx
  have hr := row_lt i
  simp only [Pi.star_apply, Complex.star_def, Complex.conj_ofReal]
  by_cases hx : (i : Nat) % Nx = 0
  · rw [val_out]
    · have hz : ∀ h : 1 ≤ (i : Nat), ((i : Nat) - 1) % Nx = Nx - 1 := fun h => by
        have e : (i : Nat) / Nx ≠ 0 := fun e => by rw [e, hx] at hd; omega
        obtain ⟨q, hq⟩ := Nat.exists_eq_succ_of_ne_zero e
        have : (i : Nat) - 1 = (Nx - 1) + Nx * q := by rw [hq, Nat.mul_succ, hx] at hd; omega
        rw [this, Nat.add_mul_mod_self_left, Nat.mod_eq_of_lt (by omega)]
      split
      · rename_i h; rw [if_pos (hz h)]; push_cast; ring
      · push_cast; ring
    · simp only [col, hx]; omega
  · have hm := Nat.mod_lt (i : Nat) hN
    have h1' : 1 ≤ (i : Nat) := by
      by_contra h
      have : (i : Nat) = 0 := by omega
      rw [this] at hx; simp at hx
    have hmod : ((i : Nat) - 1) % Nx = (i : Nat) % Nx - 1 := by
      have : (i : Nat) - 1 = ((i : Nat) % Nx - 1) + Nx * ((i : Nat) / Nx) := by omega
      rw [this, Nat.add_mul_mod_self_left, Nat.mod_eq_of_lt (by omega)]
    have := val_eq f (x := (i : Nat) % Nx - 1) (by omega) hr ⟨i - 1, by omega⟩ (by simp only; omega)
    rw [dif_pos h1', if_neg (by omega)]
    have e : col i - 1 = (((i : Nat) % Nx - 1 : Nat) : ℤ) := by simp only [col]; omega
    rw [e]
    simp only [row]
    rw [this]
    push_cast
    ring

/-- **C142.** `DHY` takes the difference with the cell before along y. -/
theorem dhy_spec (h1 : Ny ≠ 1) (dy ky : ℝ) (f : Fin (Nx * Ny) → ℂ) (i : Fin (Nx * Ny)) :
    (dual (dey Nx Ny dy ky) *ᵥ f) i = (val f (col i) (row i) - val f (col i) (row i - 1)) / dy := by
  have hN := Nx_pos i
  rw [val_self, dual, dey, if_neg h1, conjTranspose_add, diagonal_conjTranspose, neg_mulVec, add_mulVec, Pi.neg_apply, Pi.add_apply, mulVec_diagonal, band_conj_mulVec]
  have hd := Nat.mod_add_div (i : Nat) Nx
  have hr := row_lt i
  have hm := Nat.mod_lt (i : Nat) hN
  simp only [Pi.star_apply, Complex.star_def, Complex.conj_ofReal]
  by_cases hy : (i : Nat) / Nx = 0
  · rw [val_out, dif_neg]
    · push_cast; ring
    · rw [hy] at hd; omega
    · simp only [row, hy]; omega
  · obtain ⟨q, hq⟩ := Nat.exists_eq_succ_of_ne_zero hy
    have hle : Nx ≤ (i : Nat) := by rw [hq, Nat.mul_succ] at hd; omega
    have := val_eq f (y := q) hm (by omega) ⟨i - Nx, by omega⟩ (by rw [hq, Nat.mul_succ] at hd; simp only; omega)
    rw [dif_pos hle]
    have e : row i - 1 = (q : ℤ) := by simp only [row, hq]; omega
    rw [e]
    simp only [col]
    rw [this]
    push_cast
    ring

theorem val_cell {x y : ℤ} (h : 0 ≤ x ∧ x < Nx ∧ 0 ≤ y ∧ y < Ny) : ∃ j : Fin (Nx * Ny), col j = x ∧ row j = y ∧ ∀ f : Fin (Nx * Ny) → ℂ, val f x y = f j := by
  obtain ⟨h1, h2, h3, h4⟩ := h
  lift x to ℕ using h1
  lift y to ℕ using h3
  have hx : x < Nx := by omega
  have hy : y < Ny := by omega
  have hlt : x + Nx * y < Nx * Ny := by
    have : Nx * y + Nx ≤ Nx * Ny := by rw [← Nat.mul_succ]; exact Nat.mul_le_mul_left _ hy
    omega
  refine ⟨⟨x + Nx * y, hlt⟩, ?_, ?_, fun f => val_eq f hx hy _ rfl⟩
  · simp only [col, Nat.add_mul_mod_self_left, Nat.mod_eq_of_lt hx]
  · simp only [row, Nat.add_mul_div_left _ _ (by omega : 0 < Nx), Nat.div_eq_of_lt hx, Nat.zero_add]

theorem val_flux_x (h1 : Nx ≠ 1) (dx : ℝ) (u f : Fin (Nx * Ny) → ℂ) (x y : ℤ) :
    val (diagonal u *ᵥ (dex Nx Ny dx 0 *ᵥ f)) x y = val u x y * (val f (x + 1) y - val f x y) / dx := by
  by_cases h : 0 ≤ x ∧ x < Nx ∧ 0 ≤ y ∧ y < Ny
  · obtain ⟨j, rfl, rfl, hj⟩ := val_cell h
    rw [hj, hj u, mulVec_diagonal, dex_spec h1, mul_div_assoc]
  · rw [val_out _ h, val_out u h, zero_mul, zero_div]

theorem val_flux_y (h1 : Ny ≠ 1) (dy : ℝ) (u f : Fin (Nx * Ny) → ℂ) (x y : ℤ) :
    val (diagonal u *ᵥ (dey Nx Ny dy 0 *ᵥ f)) x y = val u x y * (val f x (y + 1) - val f x y) / dy := by
  by_cases h : 0 ≤ x ∧ x < Nx ∧ 0 ≤ y ∧ y < Ny
  · obtain ⟨j, rfl, rfl, hj⟩ := val_cell h
    rw [hj, hj u, mulVec_diagonal, dey_spec h1, mul_div_assoc]
  · rw [val_out _ h, val_out u h, zero_mul, zero_div]

/-- **C142.** The wave matrix is the equation of Helmholtz with second differences; nothing flows through the first border along each axis, and the field is 0 beyond the last one. -/
theorem wave_spec (hx : Nx ≠ 1) (hy : Ny ≠ 1) (dx dy : ℝ) (uyy uxx e f : Fin (Nx * Ny) → ℂ) (i : Fin (Nx * Ny)) :
    (waveMatrix Nx Ny dx dy uyy uxx e *ᵥ f) i =
      (val uyy (col i) (row i) * (val f (col i + 1) (row i) - val f (col i) (row i)) - val uyy (col i - 1) (row i) * (val f (col i) (row i) - val f (col i - 1) (row i))) / dx ^ 2
      + (val uxx (col i) (row i) * (val f (col i) (row i + 1) - val f (col i) (row i)) - val uxx (col i) (row i - 1) * (val f (col i) (row i) - val f (col i) (row i - 1))) / dy ^ 2
      + e i * f i := by
  rw [waveMatrix, add_mulVec, add_mulVec, Pi.add_apply, Pi.add_apply, mulVec_diagonal, ← mulVec_mulVec, ← mulVec_mulVec, ← mulVec_mulVec, ← mulVec_mulVec,
    dhx_spec hx, dhy_spec hy, val_flux_x hx, val_flux_x hx, val_flux_y hy, val_flux_y hy]
  rw [sub_add_cancel, sub_add_cancel]
  ring

theorem dual_dex (dx : ℝ) : dual (dex Nx Ny dx 0) = -(dex Nx Ny dx 0)ᵀ := by
  rw [dual, dex]
  split
  · simp
  · congr 1
    ext i j
    simp only [conjTranspose_apply, transpose_apply, Matrix.add_apply, diagonal_apply, band]
    split <;> split <;> simp

theorem dual_dey (dy : ℝ) : dual (dey Nx Ny dy 0) = -(dey Nx Ny dy 0)ᵀ := by
  rw [dual, dey]
  split
  · simp
  · congr 1
    ext i j
    simp only [conjTranspose_apply, transpose_apply, Matrix.add_apply, diagonal_apply, band]
    split <;> split <;> simp

/-- **C142.** The wave matrix is symmetric, with absorbing layers too. -/
theorem wave_symm (dx dy : ℝ) (uyy uxx e : Fin (Nx * Ny) → ℂ) : (waveMatrix Nx Ny dx dy uyy uxx e)ᵀ = waveMatrix Nx Ny dx dy uyy uxx e := by
  rw [waveMatrix, dual_dex, dual_dey]
  simp only [transpose_add, transpose_mul, transpose_neg, transpose_transpose, diagonal_transpose, mul_assoc, neg_mul, mul_neg]

/-- **C142.** Reciprocity: source and detector can be exchanged. -/
theorem reciprocity (dx dy : ℝ) (uyy uxx e : Fin (Nx * Ny) → ℂ) {f g b c : Fin (Nx * Ny) → ℂ}
    (hf : waveMatrix Nx Ny dx dy uyy uxx e *ᵥ f = b) (hg : waveMatrix Nx Ny dx dy uyy uxx e *ᵥ g = c) : c ⬝ᵥ f = b ⬝ᵥ g := by
  rw [← hf, ← hg, dotProduct_comm, dotProduct_mulVec, ← mulVec_transpose, wave_symm]

/-- **C142.** Without absorbing layers, for transparent materials, the wave matrix is Hermitian. -/
theorem wave_hermitian (dx dy : ℝ) {uyy uxx e : Fin (Nx * Ny) → ℂ} (h1 : ∀ i, (starRingEnd ℂ) (uyy i) = uyy i) (h2 : ∀ i, (starRingEnd ℂ) (uxx i) = uxx i) (h3 : ∀ i, (starRingEnd ℂ) (e i) = e i) :
    (waveMatrix Nx Ny dx dy uyy uxx e).IsHermitian := by
  have e1 : star uyy = uyy := funext h1
  have e2 : star uxx = uxx := funext h2
  have e3 : star e = e := funext h3
  rw [IsHermitian, waveMatrix, dual, dual]
  simp only [conjTranspose_add, conjTranspose_mul, conjTranspose_neg, conjTranspose_conjTranspose, diagonal_conjTranspose, e1, e2, e3, mul_assoc, neg_mul, mul_neg]

/-! ### The source -/

/-- **C142.** The total field is the solution plus the source in its region: it satisfies the wave equation outside of the region, and inside where the source does. -/
theorem total_field {n : Type} [Fintype n] [DecidableEq n] (A : Matrix n n ℂ) (q s f : n → ℂ) (hf : A *ᵥ f = rhs A q s) (i : n) :
    (A *ᵥ fun j => f j + q j * s j) i = q i * (A *ᵥ s) i := by
  have e : (fun j => f j + q j * s j) = f + diagonal q *ᵥ s := by
    funext j; rw [Pi.add_apply, mulVec_diagonal]
  rw [e, mulVec_add, hf, rhs, sub_mulVec, mulVec_mulVec, sub_add_cancel, ← mulVec_mulVec, mulVec_diagonal]

theorem val_mask (n : Nat) (x y : ℤ) : val (mask (Nx := Nx) (Ny := Ny) n) x y = if 0 ≤ x ∧ x < Nx ∧ 0 ≤ y ∧ y < Ny ∧ x < n then 1 else 0 := by
  by_cases h : 0 ≤ x ∧ x < Nx ∧ 0 ≤ y ∧ y < Ny
  · obtain ⟨j, hx, hy, hj⟩ := val_cell h
    rw [hj, mask, flat]
    have : ((j : Nat) % Nx < n) ↔ x < n := by rw [← hx, col]; omega
    simp only [this, h, true_and]
  · rw [val_out _ h, if_neg (fun h' => h ⟨h'.1, h'.2.1, h'.2.2.1, h'.2.2.2.1⟩)]

theorem val_mul (q s : Fin (Nx * Ny) → ℂ) (x y : ℤ) : val (diagonal q *ᵥ s) x y = val q x y * val s x y := by
  by_cases h : 0 ≤ x ∧ x < Nx ∧ 0 ≤ y ∧ y < Ny
  · obtain ⟨j, _, _, hj⟩ := val_cell h
    rw [hj, hj q, hj s, mulVec_diagonal]
  · rw [val_out _ h, val_out _ h, zero_mul]

/-- **C142.** The source is only in the two columns at the border of its region: the last column inside and the first one outside. -/
theorem source_border (hx : Nx ≠ 1) (hy : Ny ≠ 1) (dx dy : ℝ) (uyy uxx e s : Fin (Nx * Ny) → ℂ) (n : Nat) (i : Fin (Nx * Ny)) :
    rhs (waveMatrix Nx Ny dx dy uyy uxx e) (mask n) s i =
      if col i + 1 = n then val uyy (col i) (row i) * val s (col i + 1) (row i) / dx ^ 2
      else if col i = n then -(val uyy (col i - 1) (row i) * val s (col i - 1) (row i)) / dx ^ 2
      else 0 := by
  have hc : 0 ≤ col i ∧ col i < Nx := ⟨by simp only [col]; omega, by simp only [col]; exact_mod_cast Nat.mod_lt _ (Nx_pos i)⟩
  have hr : 0 ≤ row i ∧ row i < Ny := ⟨by simp only [row]; positivity, by simp only [row]; exact_mod_cast row_lt i⟩
  have hm : mask n i = if col i < n then (1 : ℂ) else 0 := by
    have := val_self (mask (Nx := Nx) (Ny := Ny) n) i
    rw [← this, val_mask]
    simp only [hc, hr, true_and]
  have hs : ∀ {x y : ℤ}, ¬(0 ≤ x ∧ x < Nx ∧ 0 ≤ y ∧ y < Ny) → val s x y = 0 := fun h => val_out s h
  have k : ∀ x y : ℤ, (y = row i ∨ x = col i) → val (mask (Nx := Nx) (Ny := Ny) n) x y * val s x y = (if x < n then 1 else 0) * val s x y := fun x y _ => by
    by_cases h : 0 ≤ x ∧ x < Nx ∧ 0 ≤ y ∧ y < Ny
    · rw [val_mask]; simp only [h, true_and]
    · rw [hs h, mul_zero, mul_zero]
  rw [rhs, sub_mulVec, Pi.sub_apply, ← mulVec_mulVec, ← mulVec_mulVec, mulVec_diagonal, wave_spec hx hy, wave_spec hx hy, mulVec_diagonal, hm]
  simp only [val_mul]
  rw [k _ _ (Or.inl rfl), k _ _ (Or.inl rfl), k _ _ (Or.inl rfl), k _ _ (Or.inr rfl), k _ _ (Or.inr rfl)]
  by_cases c1 : col i + 1 = n
  · rw [if_pos c1, if_pos (by omega), if_neg (by omega), if_pos (by omega)]
    ring
  · rw [if_neg c1]
    by_cases c2 : col i = n
    · rw [if_pos c2, if_neg (by omega), if_neg (by omega), if_pos (by omega)]
      ring
    · rw [if_neg c2]
      by_cases c3 : col i < n
      · rw [if_pos c3, if_pos (by omega), if_pos (by omega)]
        ring
      · rw [if_neg c3, if_neg (by omega), if_neg (by omega)]
        ring

end

/-! ### The derivatives commute -/

section
variable {Nx Ny : Nat}

theorem val_dey (h1 : Ny ≠ 1) (dy : ℝ) (f : Fin (Nx * Ny) → ℂ) {x y : ℤ} (hy : 0 ≤ y ∧ y < Ny) : val (dey Nx Ny dy 0 *ᵥ f) x y = (val f x (y + 1) - val f x y) / dy := by
  by_cases h : 0 ≤ x ∧ x < Nx ∧ 0 ≤ y ∧ y < Ny
  · obtain ⟨j, rfl, rfl, hj⟩ := val_cell h
    rw [hj, dey_spec h1]
  · rw [val_out _ h, val_out, val_out, sub_zero, zero_div] <;> omega

theorem val_dex (h1 : Nx ≠ 1) (dx : ℝ) (f : Fin (Nx * Ny) → ℂ) {x y : ℤ} (hx : 0 ≤ x ∧ x < Nx) : val (dex Nx Ny dx 0 *ᵥ f) x y = (val f (x + 1) y - val f x y) / dx := by
  by_cases h : 0 ≤ x ∧ x < Nx ∧ 0 ≤ y ∧ y < Ny
  · obtain ⟨j, rfl, rfl, hj⟩ := val_cell h
    rw [hj, dex_spec h1]
  · rw [val_out _ h, val_out, val_out, sub_zero, zero_div] <;> omega

/-- **C142.** The order of the derivatives does not matter. -/
theorem derivatives_commute (hx : Nx ≠ 1) (hy : Ny ≠ 1) (dx dy : ℝ) (f : Fin (Nx * Ny) → ℂ) : dex Nx Ny dx 0 *ᵥ (dey Nx Ny dy 0 *ᵥ f) = dey Nx Ny dy 0 *ᵥ (dex Nx Ny dx 0 *ᵥ f) := by
  funext i
  have hc : 0 ≤ col i ∧ col i < Nx := ⟨by simp only [col]; omega, by simp only [col]; exact_mod_cast Nat.mod_lt _ (Nx_pos i)⟩
  have hr : 0 ≤ row i ∧ row i < Ny := ⟨by simp only [row]; positivity, by simp only [row]; exact_mod_cast row_lt i⟩
  rw [dex_spec hx, dey_spec hy, val_dey hy _ _ hr, val_dey hy _ _ hr, val_dex hx _ _ hc, val_dex hx _ _ hc]
  ring

end

/-! ### The modes of the waveguides -/

theorem slab_form {n : Type} [Fintype n] [DecidableEq n] (D : Matrix n n ℂ) (e : n → ℝ) {d : ℂ} {v : n → ℂ} (hv : v ≠ 0)
    (h : (-(dual D * diagonal (fun _ => 1) * D + diagonal fun i => (e i : ℂ))) *ᵥ v = d • v) : d.im = 0 ∧ ∀ top : ℝ, (∀ i, e i ≤ top) → -top ≤ d.re := by
  have hk := congrArg (star v ⬝ᵥ ·) h
  have h1 : (diagonal (fun _ => 1) : Matrix n n ℂ) = 1 := diagonal_one
  simp only [h1, dual, mul_one, neg_mulVec, add_mulVec, neg_mul, ← mulVec_mulVec, dotProduct_neg, dotProduct_add, neg_add, neg_neg, dotProduct_smul, smul_eq_mul] at hk
  have hD : star v ⬝ᵥ Dᴴ *ᵥ (D *ᵥ v) = ((∑ i, ‖(D *ᵥ v) i‖ ^ 2 : ℝ) : ℂ) := by
    rw [dotProduct_mulVec, ← star_mulVec]
    simp only [dotProduct, Pi.star_apply, Complex.star_def, Complex.ofReal_sum, Complex.ofReal_pow]
    exact Finset.sum_congr rfl fun i _ => Complex.conj_mul' _
  have hE : star v ⬝ᵥ (diagonal fun i => (e i : ℂ)) *ᵥ v = ((∑ i, e i * ‖v i‖ ^ 2 : ℝ) : ℂ) := by
    simp only [dotProduct, Pi.star_apply, Complex.star_def, mulVec_diagonal, Complex.ofReal_sum, Complex.ofReal_mul, Complex.ofReal_pow]
    refine Finset.sum_congr rfl fun i _ => ?_
    rw [← Complex.conj_mul']; ring
  have hV : star v ⬝ᵥ v = ((∑ i, ‖v i‖ ^ 2 : ℝ) : ℂ) := by
    simp only [dotProduct, Pi.star_apply, Complex.star_def, Complex.ofReal_sum, Complex.ofReal_pow]
    exact Finset.sum_congr rfl fun i _ => Complex.conj_mul' _
  rw [hD, hE, hV] at hk
  have hpos : 0 < ∑ i, ‖v i‖ ^ 2 := by
    obtain ⟨j, hj⟩ := Function.ne_iff.1 hv
    exact Finset.sum_pos' (fun i _ => by positivity) ⟨j, Finset.mem_univ j, by have := norm_pos_iff.2 hj; positivity⟩
  have him := congrArg Complex.im hk
  have hre := congrArg Complex.re hk
  simp only [Complex.add_im, Complex.neg_im, Complex.add_re, Complex.neg_re, Complex.ofReal_im, Complex.ofReal_re, Complex.im_mul_ofReal, Complex.re_mul_ofReal, neg_zero, add_zero] at him hre
  refine ⟨?_, fun top ht => ?_⟩
  · rcases mul_eq_zero.1 him.symm with h0 | h0
    · exact h0
    · exact absurd h0 hpos.ne'
  · have hs : ∑ i, e i * ‖v i‖ ^ 2 ≤ top * ∑ i, ‖v i‖ ^ 2 := by
      rw [Finset.mul_sum]
      exact Finset.sum_le_sum fun i _ => mul_le_mul_of_nonneg_right (ht i) (by positivity)
    have hn : 0 ≤ ∑ i, ‖(D *ᵥ v) i‖ ^ 2 := Finset.sum_nonneg fun i _ => by positivity
    by_contra hlt
    push Not at hlt
    nlinarith

/-- What is said of an index: it is the root of `-d`, at most the one of the material, and the wave does not grow along the guide. -/
def GoodIndex (top : ℝ) (d : ℂ) : Prop :=
  neff d * neff d = -d ∧ 0 ≤ (neff d).re ∧ (neff d).re ≤ Real.sqrt top ∧ ∀ k0 t : ℝ, 0 ≤ k0 → 0 ≤ t → ‖Complex.exp (-Complex.I * k0 * neff d * t)‖ ≤ 1

theorem good_index {top : ℝ} {d : ℂ} (him : d.im = 0) (hre : -top ≤ d.re) : GoodIndex top d := by
  obtain ⟨r, rfl⟩ : ∃ r : ℝ, d = r := ⟨d.re, Complex.ext rfl (by simpa using him)⟩
  rw [Complex.ofReal_re] at hre
  by_cases h : 0 ≤ r
  · have e : neff r = -Complex.I * (Real.sqrt r : ℝ) := by rw [neff, NG.Solar.sqrt_real h]
    have hs : (Real.sqrt r : ℂ) * Real.sqrt r = r := by exact_mod_cast Real.mul_self_sqrt h
    refine ⟨?_, ?_, ?_, fun k0 t hk ht => ?_⟩
    · rw [e]; linear_combination (-1) * hs + (Real.sqrt r : ℂ) * Real.sqrt r * Complex.I_mul_I
    · rw [e]; simp
    · rw [e]; simp [Real.sqrt_nonneg]
    · rw [e, Complex.norm_exp]
      refine Real.exp_le_one_iff.2 ?_
      have : (-Complex.I * k0 * (-Complex.I * (Real.sqrt r : ℝ)) * t : ℂ) = ((-(k0 * Real.sqrt r * t) : ℝ) : ℂ) := by
        push_cast; linear_combination (k0 * Real.sqrt r * t : ℂ) * Complex.I_mul_I
      rw [this, Complex.ofReal_re]
      have := Real.sqrt_nonneg r
      have : 0 ≤ k0 * Real.sqrt r * t := by positivity
      linarith
  · push Not at h
    have e : neff r = (Real.sqrt (-r) : ℝ) := by
      rw [neff, Complex.ofReal_cpow_of_nonpos h.le, ← Complex.ofReal_neg, NG.Solar.sqrt_real (by linarith)]
      rw [show (Real.pi * Complex.I * (1 / 2 : ℂ) : ℂ) = Real.pi / 2 * Complex.I by ring, Complex.exp_pi_div_two_mul_I]
      linear_combination (-(Real.sqrt (-r) : ℂ)) * Complex.I_mul_I
    have hs : (Real.sqrt (-r) : ℂ) * Real.sqrt (-r) = -r := by exact_mod_cast Real.mul_self_sqrt (by linarith : 0 ≤ -r)
    refine ⟨?_, ?_, ?_, fun k0 t hk ht => ?_⟩
    · rw [e, hs]
    · rw [e, Complex.ofReal_re]; exact Real.sqrt_nonneg _
    · rw [e, Complex.ofReal_re]; exact Real.sqrt_le_sqrt (by linarith)
    · rw [e, Complex.norm_exp]
      refine Real.exp_le_one_iff.2 (le_of_eq ?_)
      have : (-Complex.I * k0 * (Real.sqrt (-r) : ℝ) * t : ℂ) = ((-(k0 * Real.sqrt (-r) * t) : ℝ) : ℂ) * Complex.I := by push_cast; ring
      rw [this, Complex.re_ofReal_mul, Complex.I_re, mul_zero]

/-- **C142.** The effective index of a mode of a waveguide along y is at most the largest refractive index. -/
theorem index_le {Ny : Nat} (dy : ℝ) {e : Fin (1 * Ny) → ℝ} {top : ℝ} (ht : ∀ i, e i ≤ top) {d : ℂ} {v : Fin (1 * Ny) → ℂ} (hv : v ≠ 0)
    (h : slabMatrix Ny dy (fun i => (e i : ℂ)) *ᵥ v = d • v) : GoodIndex top d :=
  good_index (slab_form _ e hv h).1 ((slab_form _ e hv h).2 top ht)

/-- **C142.** The same along x. -/
theorem index_le_x {Nx : Nat} (dx : ℝ) {e : Fin (Nx * 1) → ℝ} {top : ℝ} (ht : ∀ i, e i ≤ top) {d : ℂ} {v : Fin (Nx * 1) → ℂ} (hv : v ≠ 0)
    (h : slabMatrixX Nx dx (fun i => (e i : ℂ)) *ᵥ v = d • v) : GoodIndex top d :=
  good_index (slab_form _ e hv h).1 ((slab_form _ e hv h).2 top ht)

/-! ### The loss -/

theorem sqrt_scale {r : ℝ} (hr : 0 < r) (z : ℂ) : (((r ^ 2 : ℝ) : ℂ) * z) ^ (1 / 2 : ℂ) = r * z ^ (1 / 2 : ℂ) := by
  by_cases hz : z = 0
  · subst hz; simp
  · have hne : (((r ^ 2 : ℝ) : ℂ) * z) ≠ 0 := mul_ne_zero (by exact_mod_cast (by positivity : r ^ 2 ≠ 0)) hz
    rw [Complex.cpow_def_of_ne_zero hne, Complex.cpow_def_of_ne_zero hz, Complex.log_ofReal_mul (by positivity) hz, add_mul, Complex.exp_add]
    congr 1
    have : (((Real.log (r ^ 2) : ℝ) : ℂ) * (1 / 2) : ℂ) = ((Real.log r : ℝ) : ℂ) := by rw [Real.log_pow]; push_cast; ring
    rw [this, ← Complex.ofReal_exp, Real.exp_log hr]

theorem normalized_scale {n : Type} [Fintype n] (nf : ℂ) (z0 dy : ℝ) (m : n → ℂ) {z : ℂ} (hz : z ≠ 0) : normalized nf z0 dy (z • m) = (z / ‖z‖) • normalized nf z0 dy m := by
  have hn := norm_pos_iff.2 hz
  funext i
  have e : nf / (2 * z0) * (((∑ i, ‖(z • m) i‖ ^ 2) * dy : ℝ) : ℂ) = ((‖z‖ ^ 2 : ℝ) : ℂ) * (nf / (2 * z0) * (((∑ i, ‖m i‖ ^ 2) * dy : ℝ) : ℂ)) := by
    have : (∑ i, ‖(z • m) i‖ ^ 2) = ‖z‖ ^ 2 * ∑ i, ‖m i‖ ^ 2 := by
      rw [Finset.mul_sum]
      exact Finset.sum_congr rfl fun i _ => by rw [Pi.smul_apply, smul_eq_mul, norm_mul, mul_pow]
    rw [this]; push_cast; ring
  rw [normalized, e, sqrt_scale hn, Pi.smul_apply, smul_eq_mul, normalized]
  simp only [Pi.smul_apply, smul_eq_mul]
  exact (div_mul_div_comm _ _ _ _).symm

theorem s21_scale {n : Type} [Fintype n] (f o : n → ℂ) {u v : ℂ} (hu : ‖u‖ = 1) (hv : ‖v‖ = 1) : ‖s21 (fun j => u * f j) (v • o)‖ = ‖s21 f o‖ := by
  have hvv : (starRingEnd ℂ) v * v = 1 := by rw [Complex.conj_mul', hv]; norm_num
  have e : s21 (fun j => u * f j) (v • o) = u * (starRingEnd ℂ) v * s21 f o := by
    rw [s21, s21, ← mul_div_assoc, Finset.mul_sum]
    congr 1
    · refine Finset.sum_congr rfl fun i _ => ?_
      rw [Pi.smul_apply, smul_eq_mul, map_mul]; ring
    · refine Finset.sum_congr rfl fun i _ => ?_
      rw [Pi.smul_apply, smul_eq_mul, map_mul]; linear_combination (starRingEnd ℂ) (o i) * o i * hvv
  rw [e, norm_mul, norm_mul, hu, RCLike.norm_conj, hv, one_mul, one_mul]

/-- **C142.** The loss does not depend on the factors of the eigenvectors that `lin.eigs` finds. -/
theorem loss_scale {Nx Ny : Nat} {k : Type} [Fintype k] (A : Matrix (Fin (Nx * Ny)) (Fin (Nx * Ny)) ℂ) (n : Nat) (k0 dx dy z0 : ℝ) (nin nout : ℂ) (m : Fin Ny → ℂ) (o : k → ℂ) (sel : k → Fin (Nx * Ny))
    {z w : ℂ} (hz : z ≠ 0) (hw : w ≠ 0) : loss A n k0 dx dy z0 nin nout (z • m) (w • o) sel = loss A n k0 dx dy z0 nin nout m o sel := by
  have hu : ‖z / ‖z‖‖ = 1 := by rw [norm_div, Complex.norm_real, norm_norm, div_self (norm_ne_zero_iff.2 hz)]
  have hv : ‖w / ‖w‖‖ = 1 := by rw [norm_div, Complex.norm_real, norm_norm, div_self (norm_ne_zero_iff.2 hw)]
  simp only [loss, normalized_scale _ _ _ _ hz, normalized_scale _ _ _ _ hw]
  have hs : (source (fun y => if h : y < Ny then ((z / ‖z‖) • normalized nin z0 dy m) ⟨y, h⟩ else 0) k0 dx nin : Fin (Nx * Ny) → ℂ) =
      (z / ‖z‖) • source (fun y => if h : y < Ny then normalized nin z0 dy m ⟨y, h⟩ else 0) k0 dx nin := by
    funext i
    simp only [source, flat, Pi.smul_apply, smul_eq_mul]
    split <;> ring
  rw [hs, rhs, mulVec_smul, mulVec_smul, ← rhs]
  simp only [Pi.smul_apply, smul_eq_mul]
  rw [s21_scale _ _ hu hv]

/-! ### The absorbing layers -/

theorem stretch_re (k n : Nat) : 1 ≤ (stretch k n).re ∧ (stretch k n).im ≤ 0 := by
  have hs : 0 ≤ Real.sin (1 / 2 * Real.pi * k / n) ^ 2 := by positivity
  have ha : 0 ≤ ((k : ℝ) / n) ^ 3 := by positivity
  have e : stretch k n = (((1 + (4 - 1) * ((k : ℝ) / n) ^ 3 : ℝ) : ℂ)) - ((60 * (1 + (4 - 1) * ((k : ℝ) / n) ^ 3) * Real.sin (1 / 2 * Real.pi * k / n) ^ 2 : ℝ) : ℂ) * Complex.I := by
    simp only [stretch]; push_cast; ring
  rw [e]
  simp only [Complex.sub_re, Complex.sub_im, Complex.ofReal_re, Complex.ofReal_im, Complex.re_ofReal_mul, Complex.im_ofReal_mul, Complex.I_re, Complex.I_im]
  constructor
  · linarith
  · have : 0 ≤ 60 * (1 + (4 - 1) * ((k : ℝ) / n) ^ 3) * Real.sin (1 / 2 * Real.pi * k / n) ^ 2 := by
      apply mul_nonneg _ hs; linarith
    linarith

theorem stretch_end {n : Nat} (h : 0 < n) : stretch n n = 4 * (1 - 60 * Complex.I) := by
  have hn : (n : ℝ) ≠ 0 := by positivity
  simp only [stretch]
  rw [div_self hn, mul_div_assoc, div_self hn, show (1 / 2 * Real.pi * 1 : ℝ) = Real.pi / 2 by ring, Real.sin_pi_div_two]
  push_cast; ring

theorem lower_spec (n : Nat) (s : Nat → ℂ) (i : Nat) : lower n s i = if i < n then stretch (n - i) n else s i := by
  have key : ∀ k, k ≤ n → ((List.range k).foldl (fun s k => Function.update s (n - (k + 1)) (stretch (k + 1) n)) s) i = if n - k ≤ i ∧ i < n then stretch (n - i) n else s i := by
    intro k
    induction k with
    | zero => intro _; rw [List.range_zero, List.foldl_nil, if_neg (by omega)]
    | succ k ih =>
      intro hk
      rw [List.range_succ, List.foldl_append, List.foldl_cons, List.foldl_nil, Function.update_apply, ih (by omega)]
      by_cases h : i = n - (k + 1)
      · rw [if_pos h, if_pos (by omega), show n - i = k + 1 by omega]
      · rw [if_neg h]
        by_cases h2 : n - k ≤ i ∧ i < n
        · rw [if_pos h2, if_pos (by omega)]
        · rw [if_neg h2, if_neg (by omega)]
  rw [lower, key n le_rfl]
  congr 1
  simp

theorem upper_spec (size n : Nat) (hn : n ≤ size) (s : Nat → ℂ) (i : Nat) : upper size n s i = if size - n ≤ i ∧ i < size then stretch (i - (size - n) + 1) n else s i := by
  have key : ∀ k, k ≤ n → ((List.range k).foldl (fun s k => Function.update s (size - n + (k + 1) - 1) (stretch (k + 1) n)) s) i =
      if size - n ≤ i ∧ i < size - n + k then stretch (i - (size - n) + 1) n else s i := by
    intro k
    induction k with
    | zero => intro _; rw [List.range_zero, List.foldl_nil, if_neg (by omega)]
    | succ k ih =>
      intro hk
      rw [List.range_succ, List.foldl_append, List.foldl_cons, List.foldl_nil, Function.update_apply, ih (by omega)]
      by_cases h : i = size - n + (k + 1) - 1
      · rw [if_pos h, if_pos (by omega), show i - (size - n) + 1 = k + 1 by omega]
      · rw [if_neg h]
        by_cases h2 : size - n ≤ i ∧ i < size - n + k
        · rw [if_pos h2, if_pos (by omega)]
        · rw [if_neg h2, if_neg (by omega)]
  rw [upper, key n le_rfl, show size - n + n = size by omega]

/-- **C142.** Inside of the grid nothing is stretched; towards both ends the layers absorb more and more, up to the same value. -/
theorem stretches_spec {size lo hi : Nat} (h : 2 * lo + 2 * hi ≤ size) (i : Nat) :
    stretches size lo hi i = if i < 2 * lo then stretch (2 * lo - i) (2 * lo) else if size - 2 * hi ≤ i ∧ i < size then stretch (i - (size - 2 * hi) + 1) (2 * hi) else 1 := by
  rw [stretches, upper_spec _ _ (by omega), lower_spec]
  by_cases h1 : i < 2 * lo
  · rw [if_neg (by omega), if_pos h1, if_pos h1]
  · rw [if_neg h1, if_neg h1]

/-- **C142.** All layers absorb: the real part is at least 1 and the imaginary part is not positive. -/
theorem stretches_absorb {size lo hi : Nat} (h : 2 * lo + 2 * hi ≤ size) (i : Nat) : 1 ≤ (stretches size lo hi i).re ∧ (stretches size lo hi i).im ≤ 0 := by
  rw [stretches_spec h]
  split
  · exact stretch_re _ _
  · split
    · exact stretch_re _ _
    · simp

/-- **C142.** With layers of one size the grid is symmetric. -/
theorem stretches_symm {size n i : Nat} (h : 4 * n ≤ size) (hi : i < size) : stretches size n n (size - 1 - i) = stretches size n n i := by
  rw [stretches_spec (by omega), stretches_spec (by omega)]
  by_cases h1 : i < 2 * n
  · rw [if_neg (by omega), if_pos (by omega), if_pos h1]
    congr 1; omega
  · rw [if_neg h1]
    by_cases h2 : size - 2 * n ≤ i
    · rw [if_pos (by omega), if_pos (by omega)]
      congr 1; omega
    · rw [if_neg (by omega), if_neg (by omega), if_neg (by omega)]

/-- **C142.** The outermost cells. -/
theorem stretches_ends {size lo hi : Nat} (hl : 0 < lo) (hh : 0 < hi) (h : 2 * lo + 2 * hi ≤ size) :
    stretches size lo hi 0 = 4 * (1 - 60 * Complex.I) ∧ stretches size lo hi (size - 1) = 4 * (1 - 60 * Complex.I) := by
  rw [stretches_spec h, stretches_spec h, if_pos (by omega), if_neg (by omega), if_pos (by omega), show size - 1 - (size - 2 * hi) + 1 = 2 * hi by omega, Nat.sub_zero]
  exact ⟨stretch_end (by omega), stretch_end (by omega)⟩

/-- **C142.** Between the layers the equation is the one of the materials. -/
theorem interior {Nx Ny lx hx ly hy x y : Nat} (er ur : Nat → Nat → ℂ) (h1 : lx ≤ x) (h2 : x + hx < Nx) (h3 : ly ≤ y) (h4 : y + hy < Ny) :
    invUryy (stretches (2 * Nx) lx hx) (stretches (2 * Ny) ly hy) ur x y = 1 / ur (2 * x + 1) (2 * y) ∧
    invUrxx (stretches (2 * Nx) lx hx) (stretches (2 * Ny) ly hy) ur x y = 1 / ur (2 * x) (2 * y + 1) ∧
    erzz (stretches (2 * Nx) lx hx) (stretches (2 * Ny) ly hy) er x y = er (2 * x) (2 * y) := by
  have sx : ∀ i, 2 * lx ≤ i → i < 2 * Nx - 2 * hx → stretches (2 * Nx) lx hx i = 1 := fun i a b => by
    rw [stretches_spec (by omega), if_neg (by omega), if_neg (by omega)]
  have sy : ∀ i, 2 * ly ≤ i → i < 2 * Ny - 2 * hy → stretches (2 * Ny) ly hy i = 1 := fun i a b => by
    rw [stretches_spec (by omega), if_neg (by omega), if_neg (by omega)]
  rw [invUryy, invUrxx, erzz, sx (2 * x) (by omega) (by omega), sx (2 * x + 1) (by omega) (by omega), sy (2 * y) (by omega) (by omega), sy (2 * y + 1) (by omega) (by omega)]
  simp

/-! ### Examples -/

/-- The differences on a grid of 2 by 2 cells. -/
example : dex 2 2 1 0 *ᵥ ![1, 2, 5, 9] = ![1, -2, 4, -9] ∧ dey 2 2 1 0 *ᵥ ![1, 2, 5, 9] = ![4, 7, -5, -9] ∧ dual (dex 2 2 1 0) *ᵥ ![1, 2, 5, 9] = ![1, 1, 5, 4] := by
  refine ⟨?_, ?_, ?_⟩ <;> funext i <;> fin_cases i <;>
    simp [dex, dey, dual, band, mulVec, dotProduct, Fin.sum_univ_four, diagonal_apply, conjTranspose_apply] <;> norm_num

/-- Absorbing layers of 1 and 2 cells around 2 cells of the grid. -/
example : stretches 10 1 2 0 = 4 * (1 - 60 * Complex.I) ∧ stretches 10 1 2 2 = 1 ∧ stretches 10 1 2 5 = 1 ∧ stretches 10 1 2 9 = 4 * (1 - 60 * Complex.I) := by
  refine ⟨(stretches_ends one_pos two_pos (by norm_num)).1, ?_, ?_, (stretches_ends one_pos two_pos (by norm_num)).2⟩ <;>
    rw [stretches_spec (by norm_num)] <;> simp

/-- A waveguide of one cell: the eigenvalue is the permittivity with the sign changed, and the index its root. -/
example : GoodIndex 4 (-4) ∧ neff (-4) = 2 := by
  refine ⟨good_index (by simp) (by simp), ?_⟩
  rw [neff, show ((-4 : ℂ)) = ((-4 : ℝ) : ℂ) by norm_num, Complex.ofReal_cpow_of_nonpos (by norm_num), ← Complex.ofReal_neg, NG.Solar.sqrt_real (by norm_num),
    show (Real.pi * Complex.I * (1 / 2 : ℂ) : ℂ) = Real.pi / 2 * Complex.I by ring, Complex.exp_pi_div_two_mul_I, show (- -4 : ℝ) = 2 * 2 by norm_num, Real.sqrt_mul_self (by norm_num)]
  push_cast
  linear_combination (-2 : ℂ) * Complex.I_mul_I

end NG.Fdfd
