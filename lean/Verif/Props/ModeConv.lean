import Verif.Model.ModeConv
import Verif.Props.Circuit
import Mathlib.Algebra.Order.Floor.Semifield

/-!
# C171: the material of the mode converter
-/

namespace NG
namespace Circuit

variable {K : Type*} [Field K] [LinearOrder K] [IsStrictOrderedRing K] [FloorRing K]

theorem axis_sum (d : K) : ∀ n : Nat, (axis n d).sum = n * ((n : K) + 1) / 2 * d
  | 0 => by simp [axis]
  | n + 1 => by
    have h := axis_sum d n
    unfold axis at h ⊢
    rw [List.range_succ, List.map_append, List.sum_append, h]
    simp only [List.map_cons, List.map_nil, List.sum_cons, List.sum_nil]
    push_cast
    ring

/-- **C171**: the nodes of the grid are symmetric about the origin. -/
theorem centred_get (n : Nat) (d : K) (i : Nat) (h : i < n) : (centred n d).getD i 0 = ((i : K) + 1 / 2 - n / 2) * d := by
  have hn : (n : K) ≠ 0 := by exact_mod_cast (by omega : n ≠ 0)
  have e : (centred n d).getD i 0 = (axis n d).getD i 0 - (axis n d).sum / n := by
    simp [centred, List.getElem?_map, List.getD_eq_getElem?_getD, List.getElem?_eq_getElem, axis_length, h]
  rw [e, axis_get n d i h, axis_sum]
  field_simp
  ring

/-- **C171**: the nodes of the grid are symmetric about the origin. -/
theorem centred_symmetric (n : Nat) (d : K) (i : Nat) (h : i < n) : (centred n d).getD (n - 1 - i) 0 = -(centred n d).getD i 0 := by
  rw [centred_get n d _ (by omega), centred_get n d i h, Nat.cast_sub (by omega), Nat.cast_sub (by omega)]
  push_cast
  ring

/-- A block on the centred grid is a block on the grid from zero, with its corner moved. -/
theorem block_centred (nx ny : Nat) (dx dy : K) (hx : 2 ≤ nx) (hy : 2 ≤ ny) (er : Nat → Nat → K) (px py lx ly n : K) :
    block (centred nx dx) (centred ny dy) er px py lx ly n
      = block (axis nx dx) (axis ny dy) er (px + ((nx : K) + 1) / 2 * dx) (py + ((ny : K) + 1) / 2 * dy) lx ly n := by
  have hl : ∀ (m : Nat) (d : K), (centred m d).length = (axis m d).length := fun m d => by simp [centred]
  have hd : ∀ (m : Nat) (d : K), 2 ≤ m → (centred m d).getD 1 0 - (centred m d).getD 0 0 = (axis m d).getD 1 0 - (axis m d).getD 0 0 := by
    intro m d hm
    rw [centred_get _ _ _ (by omega), centred_get _ _ _ (by omega), axis_get _ _ _ (by omega), axis_get _ _ _ (by omega)]
    push_cast
    ring
  have hn : ∀ (m : Nat) (d p : K), 2 ≤ m → nearest (centred m d) p = nearest (axis m d) (p + ((m : K) + 1) / 2 * d) := by
    intro m d p hm
    have hm' : (m : K) ≠ 0 := by exact_mod_cast (by omega : m ≠ 0)
    unfold nearest centred
    rw [List.map_map, axis_sum]
    congr 1
    refine List.map_congr_left fun x _ => ?_
    have : (m : K) * (m + 1) / 2 * d / m = (m + 1) / 2 * d := by field_simp
    simp only [Function.comp_apply, this]
    congr 1
    ring
  unfold block
  simp only [hl, hd nx dx hx, hd ny dy hy, hn nx dx px hx, hn ny dy py hy]

/-- The nearest node, the first one of two at the same distance. -/
theorem nearest_between (n : Nat) (d q : K) (hd : 0 < d) (a : Nat) (ha : a < n) (h1 : (a : K) + 1 / 2 < q) (h2 : q ≤ a + 3 / 2) : nearest (axis n d) (q * d) = a := by
  obtain ⟨-, h3, h4⟩ := nearest_spec n d (q * d) (by omega)
  generalize nearest (axis n d) (q * d) = k at h3 h4
  have e : ∀ i : Nat, |((i : K) + 1) * d - q * d| = |(i : K) + 1 - q| * d := by
    intro i; rw [← sub_mul, abs_mul, abs_of_pos hd]
  simp only [e] at h3 h4
  have ha' : |(a : K) + 1 - q| ≤ 1 / 2 := by rw [abs_le]; constructor <;> linarith
  have h5 : |(k : K) + 1 - q| ≤ |(a : K) + 1 - q| := le_of_mul_le_mul_right (h3 a ha) hd
  have h6 := abs_le.1 (h5.trans ha')
  rcases Nat.lt_trichotomy k a with hk | hk | hk
  · have : (k : K) + 1 ≤ a := by exact_mod_cast hk
    linarith [h6.1]
  · exact hk
  · have h7 : |(k : K) + 1 - q| < |(a : K) + 1 - q| := lt_of_mul_lt_mul_right (h4 a hk) hd.le
    have h8 := (abs_lt.1 (h7.trans_le ha')).2
    have : (a : K) + 1 ≤ k := by exact_mod_cast hk
    linarith

theorem nearest_first (n : Nat) (d : K) (hd : 0 < d) (hn : 0 < n) : nearest (axis n d) (d / 2) = 0 := by
  obtain ⟨-, h2, -⟩ := nearest_spec n d (d / 2) hn
  have h := h2 0 hn
  generalize nearest (axis n d) (d / 2) = k at h
  by_contra hk
  have hk' : (1 : K) ≤ k := by exact_mod_cast Nat.one_le_iff_ne_zero.2 hk
  rw [abs_of_nonneg (by nlinarith), abs_of_nonneg (by push_cast; linarith)] at h
  push_cast at h
  nlinarith

section
variable (c : Dims K) (h : c.Valid)
include h

theorem struct_le (l : K) (hl : 0 < l) (a : K) (ha : l ≤ a) : ⌊l / c.half⌋₊ ≤ 2 * ⌈a / c.step⌉₊ := by
  have hp := half_pos' c h
  have f : (⌊l / c.half⌋₊ : K) ≤ l / c.half := Nat.floor_le (div_nonneg hl.le hp.le)
  have g := Nat.le_ceil (a / c.step)
  have e : l / c.half = 2 * (l / c.step) := by unfold Dims.half; have := step_pos c h; field_simp
  have k : l / c.step ≤ a / c.step := div_le_div_of_nonneg_right ha (step_pos c h).le
  have : ((⌊l / c.half⌋₊ : Nat) : K) ≤ ((2 * ⌈a / c.step⌉₊ : Nat) : K) := by push_cast; linarith
  exact_mod_cast this

omit h in
theorem beg_eq (n s : Nat) (hs : s ≤ 2 * n) : ⌊(n : K) - s / 2⌋₊ = (2 * n - s) / 2 := by
  have e : (n : K) - s / 2 = ((2 * n - s : Nat) : K) / ((2 : Nat) : K) := by
    rw [Nat.cast_sub hs]; push_cast; ring
  rw [e, Nat.floor_div_eq_div]

/-- **C171**: the block in the middle lies inside the part of the grid without absorbing cells, and the rests on its two sides differ by one cell at most: by as many as its size is odd. -/
theorem mode_centre :
    (2 * c.npml ≤ c.modeBegX ∧ c.modeBegX + c.structX + 2 * c.npml ≤ 2 * c.modeNx ∧ 2 * c.modeNx - (c.modeBegX + c.structX) = c.modeBegX + c.structX % 2) ∧
      2 * c.npml ≤ c.modeBegY ∧ c.modeBegY + c.structY + 2 * c.npml ≤ 2 * c.modeNy ∧ 2 * c.modeNy - (c.modeBegY + c.structY) = c.modeBegY + c.structY % 2 := by
  have sx : c.structX ≤ 2 * ⌈(c.inL + c.centerL + c.outL) / c.step⌉₊ := struct_le c h _ h.centerL _ (by linarith [h.inL, h.outL])
  have sy : c.structY ≤ 2 * ⌈(c.lam + c.centerW + c.lam) / c.step⌉₊ := struct_le c h _ h.centerW _ (by linarith [h.lam])
  have ex : c.modeNx = c.npml + ⌈(c.inL + c.centerL + c.outL) / c.step⌉₊ + c.npml := rfl
  have ey : c.modeNy = c.npml + ⌈(c.lam + c.centerW + c.lam) / c.step⌉₊ + c.npml := rfl
  have bx : c.modeBegX = (2 * c.modeNx - c.structX) / 2 := beg_eq _ _ (by omega)
  have bY : c.modeBegY = (2 * c.modeNy - c.structY) / 2 := beg_eq _ _ (by omega)
  omega

/-- **C171**: the material is defined exactly for arrays of the size of the block. -/
theorem mode_defined (rows cols : Nat) (X : Nat → Nat → K) : (∃ er, c.modeMaterial rows cols X = some er) ↔ rows = c.structX ∧ cols = c.structY := by
  obtain ⟨⟨-, h1, -⟩, -, h2, -⟩ := mode_centre c h
  unfold Dims.modeMaterial
  constructor
  · rintro ⟨er, he⟩
    by_contra hn
    rw [if_neg hn] at he
    cases he
  · intro hs
    rw [if_pos hs, if_pos]
    · exact ⟨_, rfl⟩
    · unfold sliceLen
      omega

omit h in
theorem modeGuides_values (i j : Nat) : c.modeGuides i j = 1 ∨ c.modeGuides i j = c.inN ^ 2 ∨ c.modeGuides i j = c.outN ^ 2 := by
  unfold Dims.modeGuides block
  simp only
  split
  · exact Or.inr (Or.inr rfl)
  · split
    · exact Or.inr (Or.inl rfl)
    · exact Or.inl rfl

/-- **C171**: the array is copied to the block, from 0-1 to the permittivities from 1 to the square of the index, and all permittivities are between 1 and the largest square. -/
theorem mode_range (X : Nat → Nat → K) (er : Nat → Nat → K) (rows cols : Nat) (he : c.modeMaterial rows cols X = some er)
    (hX : ∀ i < rows, ∀ j < cols, 0 ≤ X i j ∧ X i j ≤ 1) (n1 : 1 ≤ c.inN) (n2 : 1 ≤ c.centerN) (n3 : 1 ≤ c.outN) :
    (∀ i < rows, ∀ j < cols, er (c.modeBegX + i) (c.modeBegY + j) = 1 + X i j * (c.centerN ^ 2 - 1))
      ∧ ∀ i j, 1 ≤ er i j ∧ er i j ≤ max (c.inN ^ 2) (max (c.centerN ^ 2) (c.outN ^ 2)) := by
  obtain ⟨hr, hc⟩ := (mode_defined c h rows cols X).1 ⟨er, he⟩
  unfold Dims.modeMaterial at he
  rw [if_pos ⟨hr, hc⟩] at he
  split at he
  case isFalse => cases he
  cases he
  have s1 : 1 ≤ c.inN ^ 2 := one_le_pow₀ n1
  have s2 : 1 ≤ c.centerN ^ 2 := one_le_pow₀ n2
  have s3 : 1 ≤ c.outN ^ 2 := one_le_pow₀ n3
  constructor
  · intro i hi j hj
    simp only
    rw [if_pos (by omega)]
    simp
  · intro i j
    simp only
    split
    · rename_i hin
      obtain ⟨x1, x2⟩ := hX (i - c.modeBegX) (by omega) (j - c.modeBegY) (by omega)
      have hnn : 0 ≤ c.centerN ^ 2 - 1 := by linarith
      refine ⟨by nlinarith, ?_⟩
      refine le_trans ?_ ((le_max_left _ _).trans (le_max_right _ _))
      nlinarith
    · rcases modeGuides_values c i j with e | e | e <;> rw [e]
      · exact ⟨le_refl _, s1.trans (le_max_left _ _)⟩
      · exact ⟨s1, le_max_left _ _⟩
      · exact ⟨s3, (le_max_right _ _).trans (le_max_right _ _)⟩

theorem mode_large : 2 * c.npml + 1 ≤ c.modeNx ∧ 2 * c.npml + 1 ≤ c.modeNy := by
  have hs := step_pos c h
  have h1 : 0 < ⌈(c.inL + c.centerL + c.outL) / c.step⌉₊ := Nat.ceil_pos.2 (div_pos (by linarith [h.inL, h.centerL, h.outL]) hs)
  have h2 : 0 < ⌈(c.lam + c.centerW + c.lam) / c.step⌉₊ := Nat.ceil_pos.2 (div_pos (by linarith [h.lam, h.centerW]) hs)
  unfold Dims.modeNx Dims.modeNy
  omega

/-- The thickness of the absorbing layers, one half step more on the right. -/
theorem mode_pml : c.modePml0 = ((2 * c.npml - 1 : Nat) : K) * c.half ∧ c.modePml1 = ((2 * c.npml : Nat) : K) * c.half := by
  have hp := half_pos' c h
  obtain ⟨hx, -⟩ := mode_large c h
  have hn := h.npml
  have k : ∀ m : Nat, |(m : K) * c.half| = m * c.half := fun m => abs_of_nonneg (mul_nonneg (Nat.cast_nonneg m) hp.le)
  constructor
  · unfold Dims.modePml0
    rw [centred_get _ _ _ (by omega), centred_get _ _ _ (by omega), ← k]
    congr 1
    push_cast
    ring
  · unfold Dims.modePml1
    rw [centred_get _ _ _ (by omega), centred_get _ _ _ (by omega), ← k]
    congr 1
    rw [Nat.cast_sub (show 2 * c.npml ≤ 2 * c.modeNx - 1 by omega)]
    push_cast
    ring

/-- The cells of the two waveguides: rectangles from the nearest nodes, over the rounded lengths. -/
theorem modeGuides_spec (i j : Nat) (hi : i < 2 * c.modeNx) (hj : j < 2 * c.modeNy) :
    c.modeGuides i j =
      if (nearest (axis (2 * c.modeNx) c.half) (c.half / 2 + c.modePml0 + c.inL + c.centerL) ≤ i ∧
          (i : Int) < nearest (axis (2 * c.modeNx) c.half) (c.half / 2 + c.modePml0 + c.inL + c.centerL) + pyRound ((c.outL + c.modePml1) / c.half)) ∧
        (nearest (axis (2 * c.modeNy) c.half) (-c.outW / 2 + (c.modeNy + 1 / 2) * c.half) ≤ j ∧
          (j : Int) < nearest (axis (2 * c.modeNy) c.half) (-c.outW / 2 + (c.modeNy + 1 / 2) * c.half) + pyRound (c.outW / c.half)) then c.outN ^ 2
      else if (i : Int) < pyRound ((c.modePml0 + c.inL + 1) / c.half) ∧
        (nearest (axis (2 * c.modeNy) c.half) (-c.inW / 2 + (c.modeNy + 1 / 2) * c.half) ≤ j ∧
          (j : Int) < nearest (axis (2 * c.modeNy) c.half) (-c.inW / 2 + (c.modeNy + 1 / 2) * c.half) + pyRound (c.inW / c.half)) then c.inN ^ 2
      else 1 := by
  have hp := half_pos' c h
  obtain ⟨hx, hy⟩ := mode_large c h
  have n0 : 0 ≤ c.modePml0 := abs_nonneg _
  have n1 : 0 ≤ c.modePml1 := abs_nonneg _
  have hs : c.step = 2 * c.half := by unfold Dims.half; ring
  unfold Dims.modeGuides
  rw [block_centred _ _ _ _ (by omega) (by omega), block_centred _ _ _ _ (by omega) (by omega),
    block_spec _ _ c.half c.half hp hp (by omega) (by omega) _ _ _ _ _ _ (add_nonneg h.outL.le n1) h.outW.le i j hi hj,
    block_spec _ _ c.half c.half hp hp (by omega) (by omega) _ _ _ _ _ _ (by linarith [h.inL]) h.inW.le i j hi hj]
  have e1 : -((c.modeNx : K) * c.step) / 2 + c.modePml0 + c.inL + c.centerL + (((2 * c.modeNx : Nat) : K) + 1) / 2 * c.half
      = c.half / 2 + c.modePml0 + c.inL + c.centerL := by rw [hs]; push_cast; ring
  have e2 : -((c.modeNx : K) * c.step) / 2 + (((2 * c.modeNx : Nat) : K) + 1) / 2 * c.half = c.half / 2 := by rw [hs]; push_cast; ring
  have e3 : ∀ w : K, w + (((2 * c.modeNy : Nat) : K) + 1) / 2 * c.half = w + (c.modeNy + 1 / 2) * c.half := by intro w; push_cast; ring
  rw [e1, e2, e3, e3, nearest_first _ _ hp (by omega)]
  simp

/-- **C171**: there is no gap between the first waveguide and the block, if the second one is not longer and the grid is fine enough for the added micrometer to be three half steps: on
the rows of the waveguide, all cells before the block belong to the waveguide (or to the second one). -/
theorem mode_no_gap_partial (hl : c.outL ≤ c.inL) (hf : 3 * c.half ≤ 1) (i j : Nat) (hi : i < c.modeBegX) (hj : j < 2 * c.modeNy)
    (hrow : nearest (axis (2 * c.modeNy) c.half) (-c.inW / 2 + (c.modeNy + 1 / 2) * c.half) ≤ j ∧
      (j : Int) < nearest (axis (2 * c.modeNy) c.half) (-c.inW / 2 + (c.modeNy + 1 / 2) * c.half) + pyRound (c.inW / c.half)) :
    c.modeGuides i j = c.inN ^ 2 ∨ c.modeGuides i j = c.outN ^ 2 := by
  have hp := half_pos' c h
  have hs := step_pos c h
  obtain ⟨⟨-, hc, -⟩, -⟩ := mode_centre c h
  rw [modeGuides_spec c h i j (by omega) hj]
  split
  · exact Or.inr rfl
  left
  rw [if_pos]
  refine ⟨?_, hrow⟩
  have f := floor_le_round ((c.modePml0 + c.inL + 1) / c.half)
  have g : ((i + 1 : Int) : K) ≤ (c.modePml0 + c.inL + 1) / c.half := by
    have b : (c.modeBegX : K) ≤ (c.modeNx : K) - c.structX / 2 := by
      refine Nat.floor_le ?_
      have : (c.structX : K) ≤ ((2 * c.modeNx : Nat) : K) := by exact_mod_cast (by omega : c.structX ≤ 2 * c.modeNx)
      push_cast at this
      linarith
    have s : c.centerL / c.half < c.structX + 1 := Nat.lt_floor_add_one _
    have n : (c.modeNx : K) < 2 * c.npml + ((c.inL + c.centerL + c.outL) / c.step + 1) := by
      have := Nat.ceil_lt_add_one (a := (c.inL + c.centerL + c.outL) / c.step) (div_nonneg (by linarith [h.inL, h.centerL, h.outL]) hs.le)
      unfold Dims.modeNx
      push_cast
      linarith
    have e : (c.inL + c.centerL + c.outL) / c.step = (c.inL / c.half + c.centerL / c.half + c.outL / c.half) / 2 := by
      unfold Dims.half; field_simp; try ring
    have o : c.outL / c.half ≤ c.inL / c.half := div_le_div_of_nonneg_right hl hp.le
    have t : 3 ≤ 1 / c.half := by rw [le_div_iff₀ hp]; exact hf
    have i1 : ((i + 1 : Nat) : K) ≤ c.modeBegX := by exact_mod_cast hi
    have e2 : (c.modePml0 + c.inL + 1) / c.half = ((2 * c.npml - 1 : Nat) : K) + c.inL / c.half + 1 / c.half := by
      rw [(mode_pml c h).1]; field_simp
    have hn := h.npml
    rw [Nat.cast_sub (by omega)] at e2
    rw [e2]
    rw [e] at n
    push_cast at i1 ⊢
    linarith
  have := Int.le_floor.2 g
  omega

end

/-! ### The dimensions in the source -/

theorem modeDims_half : modeDims.half = 1 / 20 := by decide +kernel

theorem modeDims_sizes : modeDims.modeNx = 70 ∧ modeDims.modeNy = 86 := by
  have hs : modeDims.step = 1 / 10 := by decide +kernel
  unfold Dims.modeNx Dims.modeNy
  rw [hs]
  have h1 : (modeDims.inL + modeDims.centerL + modeDims.outL) / (1 / 10) = ((30 : Nat) : ℚ) := by simp only [modeDims]; norm_num
  have h2 : (modeDims.lam + modeDims.centerW + modeDims.lam) / (1 / 10) = ((46 : Nat) : ℚ) := by simp only [modeDims]; norm_num
  rw [h1, h2, Nat.ceil_natCast, Nat.ceil_natCast]
  exact ⟨rfl, rfl⟩

/-- The waveguides of the source: the cells of both. -/
theorem mode_cells (i j : Nat) (hi : i < 140) (hj : j < 172) :
    modeDims.modeGuides i j = if (83 ≤ i ∧ i < 138) ∧ 81 ≤ j ∧ j < 89 then 49 / 4 else if i < 74 ∧ 83 ≤ j ∧ j < 87 then 49 / 4 else 1 := by
  obtain ⟨nx, ny⟩ := modeDims_sizes
  obtain ⟨p0, p1⟩ := mode_pml modeDims mode_valid
  have hh := modeDims_half
  have np : modeDims.npml = 20 := rfl
  rw [np, hh] at p0 p1
  rw [modeGuides_spec modeDims mode_valid i j (by omega) (by omega), nx, ny, hh, p0, p1]
  have a1 : (1 / 20 : ℚ) / 2 + ((2 * 20 - 1 : Nat) : ℚ) * (1 / 20) + modeDims.inL + modeDims.centerL = 169 / 2 * (1 / 20) := by simp only [modeDims]; norm_num
  have a2 : -modeDims.outW / 2 + (((86 : Nat) : ℚ) + 1 / 2) * (1 / 20) = 165 / 2 * (1 / 20) := by simp only [modeDims]; norm_num
  have a3 : -modeDims.inW / 2 + (((86 : Nat) : ℚ) + 1 / 2) * (1 / 20) = 169 / 2 * (1 / 20) := by simp only [modeDims]; norm_num
  have l1 : (modeDims.outL + ((2 * 20 : Nat) : ℚ) * (1 / 20)) / (1 / 20) = ((55 : Int) : ℚ) := by simp only [modeDims]; norm_num
  have l2 : modeDims.outW / (1 / 20) = ((8 : Int) : ℚ) := by simp only [modeDims]; norm_num
  have l3 : (((2 * 20 - 1 : Nat) : ℚ) * (1 / 20) + modeDims.inL + 1) / (1 / 20) = ((74 : Int) : ℚ) := by simp only [modeDims]; norm_num
  have l4 : modeDims.inW / (1 / 20) = ((4 : Int) : ℚ) := by simp only [modeDims]; norm_num
  have o : modeDims.outN ^ 2 = 49 / 4 := by simp only [modeDims]; norm_num
  have n : modeDims.inN ^ 2 = 49 / 4 := by simp only [modeDims]; norm_num
  rw [a1, a2, a3, l1, l2, l3, l4, o, n, pyRound_int, pyRound_int, pyRound_int, pyRound_int,
    nearest_between (2 * 70) (1 / 20) (169 / 2) (by norm_num) 83 (by omega) (by norm_num) (by norm_num),
    nearest_between (2 * 86) (1 / 20) (165 / 2) (by norm_num) 81 (by omega) (by norm_num) (by norm_num),
    nearest_between (2 * 86) (1 / 20) (169 / 2) (by norm_num) 83 (by omega) (by norm_num) (by norm_num)]
  refine if_congr ?_ rfl (if_congr ?_ rfl rfl) <;> omega

/-- Disagreement: the second waveguide does not go through the absorbing layer: it stops two cells before the end of the grid, where there is vacuum, although it is to be as long as its
length and the layer. -/
theorem guide_short : ∀ i j, 138 ≤ i → i < 140 → j < 172 → modeDims.modeGuides i j = 1 := by
  intro i j h1 h2 h3
  rw [mode_cells i j h2 h3, if_neg (by omega), if_neg (by omega)]

/-- Disagreement: the waveguides are not centred: the cell that mirrors their first row is not one of their cells, while the block in the middle is symmetric. -/
theorem guide_off : modeDims.modeGuides 0 83 = 49 / 4 ∧ modeDims.modeGuides 0 (171 - 83) = 1 ∧
    modeDims.modeGuides 100 81 = 49 / 4 ∧ modeDims.modeGuides 100 (171 - 81) = 1 ∧
    modeDims.modeBegY = 2 * modeDims.modeNy - (modeDims.modeBegY + modeDims.structY) := by
  refine ⟨?_, ?_, ?_, ?_, ?_⟩
  · rw [mode_cells _ _ (by omega) (by omega), if_neg (by omega), if_pos (by omega)]
  · rw [mode_cells _ _ (by omega) (by omega), if_neg (by omega), if_neg (by omega)]
  · rw [mode_cells _ _ (by omega) (by omega), if_pos (by omega)]
  · rw [mode_cells _ _ (by omega) (by omega), if_neg (by omega), if_neg (by omega)]
  · have := (mode_centre modeDims mode_valid).2.2.2
    have e := design_shapes.2.2
    omega

/-- The arrays accepted with the dimensions in the source. -/
theorem mode_takes (rows cols : Nat) (X : Nat → Nat → ℚ) : (∃ er, modeDims.modeMaterial rows cols X = some er) ↔ rows = 30 ∧ cols = 30 := by
  rw [mode_defined modeDims mode_valid, design_shapes.2.1, design_shapes.2.2]

/-- The condition of `mode_no_gap_partial` holds for the source. -/
example (i : Nat) (hi : i < 55) : modeDims.modeGuides i 83 = 49 / 4 := by
  rw [mode_cells i 83 (by omega) (by omega), if_neg (by omega), if_pos (by omega)]

example : modeDims.outL ≤ modeDims.inL ∧ 3 * modeDims.half ≤ 1 := by rw [modeDims_half]; simp only [modeDims]; norm_num

end Circuit
end NG
