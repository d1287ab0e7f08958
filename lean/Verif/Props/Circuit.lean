import Verif.Model.Circuit
import Mathlib.Tactic.Linarith
import Mathlib.Tactic.Ring
import Mathlib.Tactic.FieldSimp
import Mathlib.Data.Rat.Floor

/-!
# C169: the material of the integrated circuits
-/

namespace NG
namespace Circuit

variable {K : Type*} [Field K] [LinearOrder K] [IsStrictOrderedRing K] [FloorRing K]

theorem argmin_spec : ∀ (l : List K), l ≠ [] → argmin l < l.length ∧ (∀ i < l.length, l.getD (argmin l) 0 ≤ l.getD i 0) ∧ ∀ i < argmin l, l.getD (argmin l) 0 < l.getD i 0
  | [], h => absurd rfl h
  | [x], _ => by
    refine ⟨by simp [argmin], ?_, by simp [argmin]⟩
    intro i hi
    have : i = 0 := by simpa using hi
    subst this
    exact le_refl _
  | x :: y :: l, _ => by
    obtain ⟨h1, h2, h3⟩ := argmin_spec (y :: l) (by simp)
    rw [argmin]
    split
    · rename_i h
      refine ⟨by simp, ?_, by simp⟩
      intro i hi
      cases i with
      | zero => exact le_refl _
      | succ i =>
        rw [List.getD_cons_succ, List.getD_cons_zero]
        exact h.trans (h2 i (by simpa using hi))
    · rename_i h
      refine ⟨by simpa using h1, ?_, ?_⟩
      · intro i hi
        rw [List.getD_cons_succ]
        cases i with
        | zero => rw [List.getD_cons_zero]; exact le_of_lt (not_le.1 h)
        | succ i => rw [List.getD_cons_succ]; exact h2 i (by simpa using hi)
      · intro i hi
        rw [List.getD_cons_succ]
        cases i with
        | zero => rw [List.getD_cons_zero]; exact not_le.1 h
        | succ i => rw [List.getD_cons_succ]; exact h3 i (by omega)

theorem axis_length (n : Nat) (d : K) : (axis n d).length = n := by simp [axis]

theorem axis_get (n : Nat) (d : K) (i : Nat) (h : i < n) : (axis n d).getD i 0 = ((i : K) + 1) * d := by
  simp [axis, h]

/-- The node found is the nearest one, and the first of them. -/
theorem nearest_spec (n : Nat) (d p : K) (hn : 0 < n) :
    nearest (axis n d) p < n ∧ (∀ i < n, |((nearest (axis n d) p : Nat) + 1 : K) * d - p| ≤ |((i : K) + 1) * d - p|)
      ∧ ∀ i < nearest (axis n d) p, |((nearest (axis n d) p : Nat) + 1 : K) * d - p| < |((i : K) + 1) * d - p| := by
  have hne : (axis n d).map (fun x => |x - p|) ≠ [] := by
    intro h
    have := congrArg List.length h
    simp [axis_length] at this
    omega
  obtain ⟨h1, h2, h3⟩ := argmin_spec _ hne
  have hg : ∀ i < n, ((axis n d).map (fun x => |x - p|)).getD i 0 = |((i : K) + 1) * d - p| := by
    intro i hi
    simp [axis, hi]
  have hl : ((axis n d).map (fun x => |x - p|)).length = n := by simp [axis_length]
  rw [hl] at h1 h2
  change nearest (axis n d) p < n at h1
  refine ⟨h1, ?_, ?_⟩
  · intro i hi
    rw [← hg i hi, ← hg _ h1]
    exact h2 i hi
  · intro i hi
    rw [← hg i (hi.trans h1), ← hg _ h1]
    exact h3 i hi

/-- Inside the grid the nearest node is at half a step at most. -/
theorem nearest_close (n : Nat) (d p : K) (hd : 0 < d) (hn : 0 < n) (h1 : d / 2 ≤ p) (h2 : p ≤ n * d + d / 2) :
    |((nearest (axis n d) p : Nat) + 1 : K) * d - p| ≤ d / 2 := by
  obtain ⟨-, hs, -⟩ := nearest_spec n d p hn
  -- a node at half a step
  have : ∃ i < n, |((i : K) + 1) * d - p| ≤ d / 2 := by
    by_cases hp : p ≤ d + d / 2
    · exact ⟨0, hn, by rw [abs_le]; constructor <;> push_cast <;> linarith⟩
    · have hp' := not_lt.1 (fun h => hp (le_of_lt h))
      set q := p / d - 1 / 2 with hq
      have hq1 : 1 ≤ q := by rw [hq, le_sub_iff_add_le, le_div_iff₀ hd]; linarith
      have hf : (⌊q⌋₊ : K) ≤ q := Nat.floor_le (by linarith)
      have hf' : q < ⌊q⌋₊ + 1 := Nat.lt_floor_add_one q
      have hpd : p = (q + 1 / 2) * d := by rw [hq]; field_simp; ring
      have hk1 : 1 ≤ ⌊q⌋₊ := Nat.le_floor (by simpa using hq1)
      have hqn : q ≤ n := by
        have : p / d ≤ n + 1 / 2 := by rw [div_le_iff₀ hd]; linarith
        rw [hq]; linarith
      by_cases hb : ⌊q⌋₊ < n
      · refine ⟨⌊q⌋₊, hb, ?_⟩
        rw [hpd, abs_le]
        constructor <;> nlinarith
      · have hqn' : q = n := by
          apply le_antisymm hqn
          have : (n : K) ≤ ⌊q⌋₊ := by exact_mod_cast not_lt.1 hb
          linarith
        refine ⟨n - 1, by omega, ?_⟩
        have hc : ((n - 1 : Nat) : K) = n - 1 := by rw [Nat.cast_sub hn]; simp
        rw [hpd, hqn', hc, abs_le]
        constructor <;> nlinarith
  obtain ⟨i, hi, hd'⟩ := this
  exact (hs i hi).trans hd'

/-- Rounding gives a nearest integer. -/
theorem pyRound_close (x : K) : |x - pyRound x| ≤ 1 / 2 := by
  have h1 := Int.floor_le x
  have h2 := Int.lt_floor_add_one x
  unfold pyRound
  split
  · rw [abs_le]; constructor <;> linarith
  · split
    · rw [abs_le]; push_cast; constructor <;> linarith
    · split
      · rw [abs_le]; constructor <;> linarith
      · rw [abs_le]; push_cast; constructor <;> linarith

/-- Halves are rounded to even numbers. -/
theorem pyRound_even (x : K) (h : |x - pyRound x| = 1 / 2) : pyRound x % 2 = 0 := by
  have h1 := Int.floor_le x
  have h2 := Int.lt_floor_add_one x
  unfold pyRound at h ⊢
  split at h
  · exfalso; rw [abs_of_nonneg (by linarith)] at h; linarith
  · split at h
    · exfalso
      push_cast at h
      rw [abs_of_nonpos (by linarith)] at h; linarith
    · split at h
      · rename_i h3 h4 h5
        rw [if_neg h3, if_neg h4, if_pos h5]; exact h5
      · rename_i h3 h4 h5
        rw [if_neg h3, if_neg h4, if_neg h5]; omega

theorem floor_le_round (x : K) : ⌊x⌋ ≤ pyRound x := by
  unfold pyRound
  split
  · exact le_refl _
  · split
    · omega
    · split <;> omega

theorem round_nonneg (x : K) (h : 0 ≤ x) : 0 ≤ pyRound x := (Int.floor_nonneg.2 h).trans (floor_le_round x)

theorem pyRound_int (k : Int) : pyRound (k : K) = k := by
  unfold pyRound
  rw [if_pos (by simp)]
  simp

theorem inSlice_iff (n start : Nat) (r : Int) (hr : 0 ≤ r) (i : Nat) (hi : i < n) : inSlice n start (start + r) i = true ↔ start ≤ i ∧ (i : Int) < start + r := by
  unfold inSlice clip
  rw [if_neg (by omega), if_neg (by omega)]
  simp only [Bool.and_eq_true, decide_eq_true_eq]
  omega

/-- **C169**: for lengths that are not negative, `block` fills a rectangle of cells: from the node nearest to its corner, over the lengths rounded to steps, and cut at the end of the grid. The
other cells keep their values. -/
theorem block_spec (nx ny : Nat) (dx dy : K) (hx : 0 < dx) (hy : 0 < dy) (h2 : 2 ≤ nx) (h2' : 2 ≤ ny) (er : Nat → Nat → K) (px py lx ly n : K) (hlx : 0 ≤ lx) (hly : 0 ≤ ly)
    (i j : Nat) (hi : i < nx) (hj : j < ny) :
    block (axis nx dx) (axis ny dy) er px py lx ly n i j =
      if (nearest (axis nx dx) px ≤ i ∧ (i : Int) < nearest (axis nx dx) px + pyRound (lx / dx)) ∧
        (nearest (axis ny dy) py ≤ j ∧ (j : Int) < nearest (axis ny dy) py + pyRound (ly / dy)) then n ^ 2 else er i j := by
  have e1 : (axis nx dx).getD 1 0 - (axis nx dx).getD 0 0 = dx := by rw [axis_get _ _ _ (by omega), axis_get _ _ _ (by omega)]; push_cast; ring
  have e2 : (axis ny dy).getD 1 0 - (axis ny dy).getD 0 0 = dy := by rw [axis_get _ _ _ (by omega), axis_get _ _ _ (by omega)]; push_cast; ring
  unfold block
  simp only [e1, e2, axis_length, Bool.and_eq_true, inSlice_iff nx _ _ (round_nonneg _ (div_nonneg hlx hx.le)) i hi,
    inSlice_iff ny _ _ (round_nonneg _ (div_nonneg hly hy.le)) j hj]

theorem nearest_node (n : Nat) (d : K) (hd : 0 < d) (a : Nat) (ha : a < n) : nearest (axis n d) (((a : K) + 1) * d) = a := by
  obtain ⟨h1, h2, -⟩ := nearest_spec n d (((a : K) + 1) * d) (by omega)
  have := h2 a ha
  rw [sub_self, abs_zero] at this
  have h0 := abs_nonpos_iff.1 this
  have h3 : ((nearest (axis n d) (((a : K) + 1) * d) : Nat) : K) = a := by
    have : (((nearest (axis n d) (((a : K) + 1) * d) : Nat) : K) - a) * d = 0 := by linarith
    rcases mul_eq_zero.1 this with h | h
    · linarith
    · exact absurd h hd.ne'
  exact_mod_cast h3

/-- A block whose corner is a node and whose sides are whole numbers of steps is filled exactly. -/
theorem block_exact (nx ny : Nat) (dx dy : K) (hx : 0 < dx) (hy : 0 < dy) (h2 : 2 ≤ nx) (h2' : 2 ≤ ny) (er : Nat → Nat → K) (a b k l : Nat) (ha : a < nx) (hb : b < ny) (n : K)
    (i j : Nat) (hi : i < nx) (hj : j < ny) :
    block (axis nx dx) (axis ny dy) er (((a : K) + 1) * dx) (((b : K) + 1) * dy) (k * dx) (l * dy) n i j =
      if a ≤ i ∧ i < a + k ∧ b ≤ j ∧ j < b + l then n ^ 2 else er i j := by
  rw [block_spec nx ny dx dy hx hy h2 h2' er _ _ _ _ n (by positivity) (by positivity) i j hi hj, nearest_node nx dx hx a ha, nearest_node ny dy hy b hb,
    mul_div_cancel_right₀ _ hx.ne', mul_div_cancel_right₀ _ hy.ne']
  have r1 : pyRound (k : K) = k := by exact_mod_cast pyRound_int (K := K) (k : Int)
  have r2 : pyRound (l : K) = l := by exact_mod_cast pyRound_int (K := K) (l : Int)
  rw [r1, r2]
  congr 1
  apply propext
  omega

/-- **C169**: the step of the grid is the largest one, not above the one asked for, that divides the smallest width. -/
theorem snap_spec (a d : K) (ha : 0 < a) (hd : 0 < d) :
    0 < snap a d ∧ snap a d ≤ d ∧ (∃ m : Nat, 0 < m ∧ a = m * snap a d) ∧ ∀ e, 0 < e → e ≤ d → (∃ m : Nat, a = m * e) → e ≤ snap a d := by
  have hq : 0 < a / d := div_pos ha hd
  have hc : 0 < ⌈a / d⌉ := Int.ceil_pos.2 hq
  have hc' : (0 : K) < ⌈a / d⌉ := by exact_mod_cast hc
  have hle : a / d ≤ ⌈a / d⌉ := Int.le_ceil _
  refine ⟨div_pos ha hc', ?_, ?_, ?_⟩
  · unfold snap
    rw [div_le_iff₀ hc']
    rw [div_le_iff₀ hd] at hle
    linarith
  · refine ⟨⌈a / d⌉.toNat, by omega, ?_⟩
    unfold snap
    have : ((⌈a / d⌉.toNat : Nat) : K) = (⌈a / d⌉ : K) := by
      have h := Int.toNat_of_nonneg hc.le
      exact_mod_cast congrArg (Int.cast (R := K)) h
    rw [this]; field_simp
  · rintro e he hed ⟨m, hm⟩
    have h1 : a / d ≤ m := by
      rw [div_le_iff₀ hd, hm]
      exact mul_le_mul_of_nonneg_left hed (Nat.cast_nonneg _)
    have h2 : ⌈a / d⌉ ≤ (m : Int) := Int.ceil_le.2 (by exact_mod_cast h1)
    have h3 : (⌈a / d⌉ : K) ≤ m := by exact_mod_cast h2
    unfold snap
    rw [le_div_iff₀ hc']
    calc e * ⌈a / d⌉ ≤ e * m := mul_le_mul_of_nonneg_left h3 he.le
      _ = a := by rw [hm]; ring

/-- Dimensions that make sense. -/
structure Dims.Valid (c : Dims K) : Prop where
  lam : 0 < c.lam
  centerN : 0 < c.centerN
  centerW : 0 < c.centerW
  centerL : 0 < c.centerL
  inN : 0 < c.inN
  inL : 0 < c.inL
  inW : 0 < c.inW
  outN : 0 < c.outN
  outL : 0 < c.outL
  outW : 0 < c.outW
  nres : 0 < c.nres
  npml : 0 < c.npml

section
variable (c : Dims K) (h : c.Valid)
include h

theorem step_pos : 0 < c.step := by
  have h1 : 0 < min c.inW (min c.centerW c.outW) := lt_min h.inW (lt_min h.centerW h.outW)
  have h2 : 0 < max c.inN (max c.centerN c.outN) := lt_max_of_lt_left h.inN
  exact (snap_spec _ _ h1 (div_pos h.lam (mul_pos h2 h.nres))).1

theorem half_pos' : 0 < c.half := by
  have := step_pos c h
  unfold Dims.half; linarith

theorem nx2_large : 2 * c.npml + 2 * c.npml ≤ c.nx2 ∧ (c.inL + c.centerL + c.lam) / c.half ≤ ((c.nx2 - 4 * c.npml : Nat) : K) := by
  have hs := step_pos c h
  unfold Dims.nx2
  refine ⟨by omega, ?_⟩
  have e : 2 * (c.npml + ⌈(c.inL + c.centerL + c.lam) / c.step⌉₊ + c.npml) - 4 * c.npml = 2 * ⌈(c.inL + c.centerL + c.lam) / c.step⌉₊ := by omega
  rw [e]
  have := Nat.le_ceil ((c.inL + c.centerL + c.lam) / c.step)
  unfold Dims.half
  rw [div_div_eq_mul_div]
  push_cast
  rw [mul_div_right_comm]
  linarith

theorem ny2_large : 2 * c.npml + 2 * c.npml ≤ c.ny2 ∧ (c.lam + c.centerW + c.outL) / c.half ≤ ((c.ny2 - 4 * c.npml : Nat) : K) := by
  have hs := step_pos c h
  unfold Dims.ny2
  refine ⟨by omega, ?_⟩
  have e : 2 * (c.npml + ⌈(c.lam + c.centerW + c.outL) / c.step⌉₊ + c.npml) - 4 * c.npml = 2 * ⌈(c.lam + c.centerW + c.outL) / c.step⌉₊ := by omega
  rw [e]
  have := Nat.le_ceil ((c.lam + c.centerW + c.outL) / c.step)
  unfold Dims.half
  rw [div_div_eq_mul_div]
  push_cast
  rw [mul_div_right_comm]
  linarith

/-- The thickness of the absorbing layers, in half steps. -/
theorem pml_eq : c.pml0 = ((2 * c.npml - 1 : Nat) : K) * c.half ∧ c.pml1 = ((2 * c.npml : Nat) : K) * c.half := by
  have hp := half_pos' c h
  have hx := (nx2_large c h).1
  have hy := (ny2_large c h).1
  have hn := h.npml
  constructor
  · unfold Dims.pml0
    rw [axis_get _ _ _ (by omega), axis_get _ _ _ (by omega)]
    have : ((2 * c.npml - 1 : Nat) + 1 : K) * c.half - ((0 : Nat) + 1 : K) * c.half = ((2 * c.npml - 1 : Nat) : K) * c.half := by push_cast; ring
    rw [this, abs_of_nonneg (by positivity)]
  · unfold Dims.pml1
    rw [axis_get _ _ _ (by omega), axis_get _ _ _ (by omega)]
    have e : ((c.ny2 - 1 : Nat) : K) = ((c.ny2 - 1 - 2 * c.npml : Nat) : K) + ((2 * c.npml : Nat) : K) := by
      rw [← Nat.cast_add]; congr 1; omega
    have : ((c.ny2 - 1 : Nat) + 1 : K) * c.half - ((c.ny2 - 1 - 2 * c.npml : Nat) + 1 : K) * c.half = ((2 * c.npml : Nat) : K) * c.half := by rw [e]; ring
    rw [this, abs_of_nonneg (by positivity)]

/-- **C169**: the block in the middle lies inside the grid. -/
theorem center_inside : c.begX + c.structX ≤ c.nx2 ∧ c.begY + c.structY ≤ c.ny2 := by
  have hp := half_pos' c h
  obtain ⟨p0, p1⟩ := pml_eq c h
  obtain ⟨x1, x2⟩ := nx2_large c h
  obtain ⟨y1, y2⟩ := ny2_large c h
  have hn := h.npml
  have hdl : 0 ≤ c.lam / c.half := div_nonneg h.lam.le hp.le
  have hdo : 0 ≤ c.outL / c.half := div_nonneg h.outL.le hp.le
  constructor
  · have f1 : (c.begX : K) ≤ (c.inL + c.pml0) / c.half := Nat.floor_le (div_nonneg (add_nonneg h.inL.le (abs_nonneg _)) hp.le)
    have f2 : (c.structX : K) ≤ c.centerL / c.half := Nat.floor_le (div_nonneg h.centerL.le hp.le)
    have e1 : (c.inL + c.pml0) / c.half = c.inL / c.half + ((2 * c.npml - 1 : Nat) : K) := by rw [p0]; field_simp
    have e2 : (c.inL + c.centerL + c.lam) / c.half = c.inL / c.half + c.centerL / c.half + c.lam / c.half := by ring
    have : ((c.begX + c.structX : Nat) : K) ≤ ((c.nx2 - 4 * c.npml + (2 * c.npml - 1) : Nat) : K) := by
      rw [Nat.cast_add, Nat.cast_add]
      rw [e1] at f1
      rw [e2] at x2
      linarith
    have := Nat.cast_le.1 this
    omega
  · have f1 : (c.begY : K) ≤ (c.lam + c.pml1) / c.half := Nat.floor_le (div_nonneg (add_nonneg h.lam.le (abs_nonneg _)) hp.le)
    have f2 : (c.structY : K) ≤ c.centerW / c.half := Nat.floor_le (div_nonneg h.centerW.le hp.le)
    have e1 : (c.lam + c.pml1) / c.half = c.lam / c.half + ((2 * c.npml : Nat) : K) := by rw [p1]; field_simp
    have e2 : (c.lam + c.centerW + c.outL) / c.half = c.lam / c.half + c.centerW / c.half + c.outL / c.half := by ring
    have : ((c.begY + c.structY : Nat) : K) ≤ ((c.ny2 - 4 * c.npml + 2 * c.npml : Nat) : K) := by
      rw [Nat.cast_add, Nat.cast_add]
      rw [e1] at f1
      rw [e2] at y2
      linarith
    have := Nat.cast_le.1 this
    omega

/-- **C169**: the material is defined exactly for arrays of the size of the block. -/
theorem material_defined (rows cols : Nat) (X : Nat → Nat → K) : (∃ er, c.material rows cols X = some er) ↔ rows = c.structX ∧ cols = c.structY := by
  obtain ⟨h1, h2⟩ := center_inside c h
  unfold Dims.material
  constructor
  · rintro ⟨er, he⟩
    by_contra hn
    rw [if_neg hn] at he
    cases he
  · intro hs
    rw [if_pos hs, if_pos]
    · exact ⟨_, rfl⟩
    · unfold sliceLen
      omega

omit h in
/-- The cells of the waveguides hold their permittivity, the others 1. -/
theorem guides_values (i j : Nat) : c.guides i j = 1 ∨ c.guides i j = c.inN ^ 2 ∨ c.guides i j = c.outN ^ 2 := by
  unfold Dims.guides block
  simp only
  split
  · exact Or.inr (Or.inr rfl)
  · split
    · exact Or.inr (Or.inl rfl)
    · exact Or.inl rfl

/-- **C169**: the array fills the block in the middle, from 1 to the square of the index; everything stays between 1 and the largest of the three squares. -/
theorem material_range (X : Nat → Nat → K) (er : Nat → Nat → K) (rows cols : Nat) (he : c.material rows cols X = some er)
    (hX : ∀ i < rows, ∀ j < cols, 0 ≤ X i j ∧ X i j ≤ 1) (n1 : 1 ≤ c.inN) (n2 : 1 ≤ c.centerN) (n3 : 1 ≤ c.outN) :
    (∀ i < rows, ∀ j < cols, er (c.begX + i) (c.begY + j) = 1 + X i j * (c.centerN ^ 2 - 1))
      ∧ ∀ i j, 1 ≤ er i j ∧ er i j ≤ max (c.inN ^ 2) (max (c.centerN ^ 2) (c.outN ^ 2)) := by
  obtain ⟨hr, hc⟩ := (material_defined c h rows cols X).1 ⟨er, he⟩
  unfold Dims.material at he
  rw [if_pos ⟨hr, hc⟩] at he
  split at he
  case isFalse => cases he
  cases he
  have s1 : 1 ≤ c.inN ^ 2 := one_le_pow₀ n1
  have s2 : 1 ≤ c.centerN ^ 2 := one_le_pow₀ n2
  have s3 : 1 ≤ c.outN ^ 2 := one_le_pow₀ n3
  constructor
  · intro i hi j hj
    simp only
    rw [if_pos (by omega)]
    simp
  · intro i j
    simp only
    split
    · rename_i hin
      obtain ⟨x1, x2⟩ := hX (i - c.begX) (by omega) (j - c.begY) (by omega)
      have hnn : 0 ≤ c.centerN ^ 2 - 1 := by linarith
      refine ⟨by nlinarith, ?_⟩
      refine le_trans ?_ ((le_max_left _ _).trans (le_max_right _ _))
      nlinarith
    · rcases guides_values c i j with e | e | e <;> rw [e]
      · exact ⟨le_refl _, s1.trans (le_max_left _ _)⟩
      · exact ⟨s1, le_max_left _ _⟩
      · exact ⟨s3, (le_max_right _ _).trans (le_max_right _ _)⟩

theorem nearest_zero (n : Nat) (hn : 0 < n) : nearest (axis n c.half) 0 = 0 := by
  have hp := half_pos' c h
  obtain ⟨h1, h2, -⟩ := nearest_spec n c.half 0 hn
  have := h2 0 hn
  rw [sub_zero, sub_zero, abs_of_pos (by positivity), abs_of_pos (by positivity)] at this
  have h3 := le_of_mul_le_mul_right this hp
  have h4 : ((nearest (axis n c.half) 0 : Nat) : K) ≤ (0 : Nat) := by linarith
  have := Nat.cast_le.1 h4
  omega

/-- **C169**: there is no gap between the first waveguide and the block: on the rows of the waveguide, all cells before the block belong to the waveguide (or to the second one). -/
theorem no_gap_in (i j : Nat) (hi : i < c.begX) (hj : j < c.ny2)
    (hrow : nearest (axis c.ny2 c.half) (c.pml1 + c.lam + c.centerW / 2) ≤ j ∧
      (j : Int) < nearest (axis c.ny2 c.half) (c.pml1 + c.lam + c.centerW / 2) + pyRound (c.inW / c.half)) :
    c.guides i j = c.inN ^ 2 ∨ c.guides i j = c.outN ^ 2 := by
  have hp := half_pos' c h
  obtain ⟨x1, -⟩ := nx2_large c h
  obtain ⟨y1, -⟩ := ny2_large c h
  have hn := h.npml
  have hci := (center_inside c h).1
  have n0 : 0 ≤ c.pml0 := abs_nonneg _
  have n1 : 0 ≤ c.pml1 := abs_nonneg _
  unfold Dims.guides
  rw [block_spec c.nx2 c.ny2 c.half c.half hp hp (by omega) (by omega) _ _ _ _ _ _ h.outW.le (add_nonneg h.outL.le n1) i j (by omega) hj]
  split
  · exact Or.inr rfl
  · left
    rw [block_spec c.nx2 c.ny2 c.half c.half hp hp (by omega) (by omega) _ _ _ _ _ _ (add_nonneg n0 h.inL.le) h.inW.le i j (by omega) hj, if_pos]
    refine ⟨⟨?_, ?_⟩, hrow⟩
    · rw [nearest_zero c h _ (by omega)]; exact Nat.zero_le _
    · rw [nearest_zero c h _ (by omega)]
      have f := floor_le_round ((c.pml0 + c.inL) / c.half)
      have hq : 0 ≤ (c.pml0 + c.inL) / c.half := div_nonneg (add_nonneg n0 h.inL.le) hp.le
      have e : (c.begX : Int) = ⌊(c.pml0 + c.inL) / c.half⌋ := by
        unfold Dims.begX
        rw [add_comm c.inL]
        exact Int.natCast_floor_eq_floor hq
      omega

omit h in
/-- The node nearest to `q` steps is one of the two around it. -/
theorem nearest_around (n : Nat) (d q : K) (hd : 0 < d) (hq : 1 ≤ q) (hn : ⌊q⌋₊ < n) : nearest (axis n d) (q * d) ≤ ⌊q⌋₊ ∧ ⌊q⌋₊ ≤ nearest (axis n d) (q * d) + 1 := by
  obtain ⟨-, h2, -⟩ := nearest_spec n d (q * d) (by omega)
  have f1 : (⌊q⌋₊ : K) ≤ q := Nat.floor_le (by linarith)
  have f2 : q < ⌊q⌋₊ + 1 := Nat.lt_floor_add_one q
  have hk1 : 1 ≤ ⌊q⌋₊ := Nat.le_floor (by simpa using hq)
  generalize nearest (axis n d) (q * d) = k at *
  have e : ∀ i : Nat, |((i : K) + 1) * d - q * d| = |(i : K) + 1 - q| * d := by
    intro i
    rw [← sub_mul, abs_mul, abs_of_pos hd]
  constructor
  · by_contra hc
    have hc' : (⌊q⌋₊ : K) + 1 ≤ k := by exact_mod_cast not_le.1 hc
    have := h2 ⌊q⌋₊ hn
    rw [e, e] at this
    have := le_of_mul_le_mul_right this hd
    rw [abs_of_nonneg (by linarith), abs_of_nonneg (by linarith)] at this
    linarith
  · by_contra hc
    have hc' : (k : K) + 2 ≤ ⌊q⌋₊ := by
      have : k + 2 ≤ ⌊q⌋₊ := by omega
      exact_mod_cast this
    have := h2 (⌊q⌋₊ - 1) (by omega)
    rw [e, e] at this
    have := le_of_mul_le_mul_right this hd
    have hc2 : ((⌊q⌋₊ - 1 : Nat) : K) = ⌊q⌋₊ - 1 := by rw [Nat.cast_sub hk1]; simp
    rw [hc2, abs_of_nonpos (by linarith), abs_of_nonpos (by linarith)] at this
    linarith

/-- **C169**: there is no gap between the block and the second waveguide, if the block is a whole number of half steps wide: on the columns of the waveguide, the first cell after the block belongs
to the waveguide. -/
theorem no_gap_out (m : Nat) (hm : c.centerW = m * c.half) (i : Nat) (hi : i < c.nx2)
    (hcol : nearest (axis c.nx2 c.half) (c.pml0 + c.inL + c.centerL / 2) ≤ i ∧
      (i : Int) < nearest (axis c.nx2 c.half) (c.pml0 + c.inL + c.centerL / 2) + pyRound (c.outW / c.half)) :
    c.begY + c.structY < c.ny2 ∧ c.guides i (c.begY + c.structY) = c.outN ^ 2 := by
  have hp := half_pos' c h
  obtain ⟨x1, -⟩ := nx2_large c h
  obtain ⟨y1, y2⟩ := ny2_large c h
  obtain ⟨-, p1⟩ := pml_eq c h
  have hn := h.npml
  have n1 : 0 ≤ c.pml1 := abs_nonneg _
  have e1 : c.structY = m := by
    unfold Dims.structY
    rw [hm, mul_div_cancel_right₀ _ hp.ne']
    exact Nat.floor_natCast m
  -- the position of the second waveguide in half steps
  have hq : c.pml1 + c.lam + c.centerW = ((c.lam + c.pml1) / c.half + m) * c.half := by
    rw [add_mul, div_mul_cancel₀ _ hp.ne', ← hm]; ring
  have hq0 : 0 ≤ (c.lam + c.pml1) / c.half := div_nonneg (add_nonneg h.lam.le n1) hp.le
  have hfl : ⌊(c.lam + c.pml1) / c.half + m⌋₊ = c.begY + c.structY := by
    rw [Nat.floor_add_natCast hq0, e1]; rfl
  have hin : c.begY + c.structY < c.ny2 := by
    have hle := (Nat.floor_le (a := (c.lam + c.pml1) / c.half + m) (by positivity))
    rw [hfl] at hle
    have e2 : (c.lam + c.pml1) / c.half + m = c.lam / c.half + ((2 * c.npml : Nat) : K) + m := by rw [p1]; field_simp
    have e3 : (c.lam + c.centerW + c.outL) / c.half = c.lam / c.half + m + c.outL / c.half := by rw [hm]; field_simp
    have ho : 0 < c.outL / c.half := div_pos h.outL hp
    have : ((c.begY + c.structY : Nat) : K) < ((c.ny2 - 4 * c.npml + 2 * c.npml : Nat) : K) := by
      rw [Nat.cast_add (c.ny2 - 4 * c.npml)]
      rw [e2] at hle
      rw [e3] at y2
      linarith
    have := Nat.cast_lt.1 this
    omega
  refine ⟨hin, ?_⟩
  have h1q : 1 ≤ (c.lam + c.pml1) / c.half + m := by
    have : 1 ≤ (c.lam + c.pml1) / c.half := by
      rw [le_div_iff₀ hp, p1]
      have : (1 : K) ≤ ((2 * c.npml : Nat) : K) := by exact_mod_cast (by omega : 1 ≤ 2 * c.npml)
      nlinarith [h.lam]
    have hm0 : (0 : K) ≤ m := Nat.cast_nonneg m
    linarith
  obtain ⟨k1, k2⟩ := nearest_around c.ny2 c.half _ hp h1q (by rw [hfl]; exact hin)
  rw [hfl] at k1 k2
  unfold Dims.guides
  rw [block_spec c.nx2 c.ny2 c.half c.half hp hp (by omega) (by omega) _ _ _ _ _ _ h.outW.le (add_nonneg h.outL.le n1) i _ hi hin, if_pos]
  refine ⟨hcol, ?_⟩
  rw [hq]
  refine ⟨k1, ?_⟩
  have hr : (2 : Int) ≤ pyRound ((c.outL + c.pml1) / c.half) := by
    refine le_trans ?_ (floor_le_round _)
    rw [Int.le_floor, le_div_iff₀ hp, p1]
    have : (2 : K) ≤ ((2 * c.npml : Nat) : K) := by exact_mod_cast (by omega : 2 ≤ 2 * c.npml)
    push_cast at this ⊢
    nlinarith [h.outL]
  omega
end

/-- **Against the code**: a block to the left of the grid is moved into it: the block from -6 to -4 does not touch the nodes 2, 4, …, 20, but one cell is filled. -/
theorem block_moved : ∃ (er : Nat → Nat → ℚ), block (axis 10 (2 : ℚ)) (axis 10 (2 : ℚ)) er (-6) 2 2 2 3 0 0 ≠ er 0 0 := by
  refine ⟨fun _ _ => 1, ?_⟩
  decide +kernel

/-- A negative length fills cells counted from the end of the grid. -/
theorem block_negative : block (axis 10 (2 : ℚ)) (axis 10 (2 : ℚ)) (fun _ _ => 1) 2 2 (-4) 2 3 7 0 = 9 := by decide +kernel

theorem bender_valid : benderDims.Valid := by
  constructor <;> simp only [benderDims] <;> norm_num

theorem mode_valid : modeDims.Valid := by
  constructor <;> simp only [modeDims] <;> norm_num

/-- The sizes of the arrays in the source, `(45, 45)` for `bender` and `(30, 30)` for `mode_converter` (gambas.py 42-47). -/
theorem design_shapes : (benderDims.structX = 45 ∧ benderDims.structY = 45) ∧ modeDims.structX = 30 ∧ modeDims.structY = 30 := by
  have hb : benderDims.half = 1 / 30 := by decide +kernel
  have hm : modeDims.half = 1 / 20 := by decide +kernel
  unfold Dims.structX Dims.structY
  rw [hb, hm]
  have h1 : benderDims.centerL / (1 / 30) = 45 ∧ benderDims.centerW / (1 / 30) = 45 := by simp only [benderDims]; norm_num
  have h2 : modeDims.centerL / (1 / 20) = 30 ∧ modeDims.centerW / (1 / 20) = 30 := by simp only [modeDims]; norm_num
  rw [h1.1, h1.2, h2.1, h2.2]
  exact ⟨⟨Nat.floor_ofNat 45, Nat.floor_ofNat 45⟩, Nat.floor_ofNat 30, Nat.floor_ofNat 30⟩

/-- **C169**: `bender` takes exactly the arrays of 45 rows and columns, whatever their values. -/
theorem bender_takes (rows cols : Nat) (X : Nat → Nat → ℚ) : (∃ er, benderDims.material rows cols X = some er) ↔ rows = 45 ∧ cols = 45 := by
  rw [material_defined benderDims bender_valid, design_shapes.1.1, design_shapes.1.2]

/-- The part which holds: a block with its corner inside the grid starts at half a step at most from its corner, and its sides are wrong by half a step at most. -/
theorem block_place_partial (n : Nat) (d p l : K) (hd : 0 < d) (hn : 0 < n) (h1 : d / 2 ≤ p) (h2 : p ≤ n * d + d / 2) :
    |((nearest (axis n d) p : Nat) + 1 : K) * d - p| ≤ d / 2 ∧ |pyRound (l / d) * d - l| ≤ d / 2 := by
  refine ⟨nearest_close n d p hd hn h1 h2, ?_⟩
  have := pyRound_close (l / d)
  rw [abs_le] at this ⊢
  have e : l = l / d * d := by field_simp
  constructor
  · nlinarith [this.2]
  · nlinarith [this.1]

end Circuit
end NG
