import Verif.Model.Discrete
import Verif.Props.IntModulo
import Verif.Props.Gaussian
import Mathlib.Tactic.Linarith
import Mathlib.Tactic.FieldSimp
import Mathlib.Tactic.Ring
import Mathlib.Data.Rat.Floor

/-!
# C30: threshold discretization
-/

namespace NG
namespace Disc

section threshold
variable {α : Type} [Field α] [LinearOrder α] [IsStrictOrderedRing α] [FloorRing α]

/-- What is assumed of the cumulative distribution function and of its inverse: values strictly between 0 and 1,
increasing, inverse on the open unit interval, median at zero. -/
structure Cdf (cdf ppf : α → α) : Prop where
  pos : ∀ x, 0 < cdf x
  lt_one : ∀ x, cdf x < 1
  mono : StrictMono cdf
  right_inv : ∀ q, 0 < q → q < 1 → cdf (ppf q) = q
  median : cdf 0 = 1 / 2

/-- The order of floats, with nan processed as minus infinity. -/
def W.LE : W α → W α → Prop
  | .nan, _ => True
  | .neg, _ => True
  | .fin x, .fin y => x ≤ y
  | .fin _, .pos => True
  | .pos, .pos => True
  | _, _ => False

/-- Categories are characterised by the cdf: the category of `x` is `k` exactly when the cdf of `x` lies in the `k`-th of
`arity` equal intervals; closed on the right for two categories, on the left otherwise. -/
theorem threshold_fin {cdf ppf : α → α} (h : Cdf cdf ppf) {arity : ℕ} (ha : 1 ≤ arity) (x : α) (k : ℕ) (hk : k < arity) :
    threshold cdf arity (.fin x) = k ↔
      if arity = 2 then (k : α) / arity < cdf x ∧ cdf x ≤ (k + 1) / arity ∨ k = 0 ∧ cdf x ≤ 1 / 2
      else (k : α) / arity ≤ cdf x ∧ cdf x < (k + 1) / arity := by
  have hpos := h.pos x
  have hlt := h.lt_one x
  have hap : (0 : α) < arity := by exact_mod_cast ha
  by_cases h2 : arity = 2
  · subst h2
    have hx : 0 < x ↔ 1 / 2 < cdf x := by rw [← h.median]; exact (h.mono.lt_iff_lt).symm
    have hk' : k = 0 ∨ k = 1 := by omega
    unfold threshold W.clean
    simp only [if_true]
    rcases hk' with rfl | rfl
    · by_cases h0 : 0 < x
      · have := hx.mp h0
        simp only [if_pos h0]
        constructor
        · intro hh; norm_num at hh
        · rintro (⟨_, h3⟩ | ⟨_, h3⟩)
          · norm_num at h3; linarith
          · linarith
      · have : cdf x ≤ 1 / 2 := not_lt.mp (fun h3 => h0 (hx.mpr h3))
        simp only [if_neg h0]
        simp only [Nat.cast_zero, true_iff]
        right; exact ⟨trivial, this⟩
    · by_cases h0 : 0 < x
      · have := hx.mp h0
        simp only [if_pos h0]
        simp only [Nat.cast_one, true_iff]
        left; push_cast; constructor
        · linarith
        · norm_num; linarith
      · have : cdf x ≤ 1 / 2 := not_lt.mp (fun h3 => h0 (hx.mpr h3))
        simp only [if_neg h0]
        constructor
        · intro hh; norm_num at hh
        · rintro (⟨h3, _⟩ | ⟨h3, _⟩)
          · push_cast at h3; linarith
          · omega
  · unfold threshold W.clean
    simp only [if_neg h2]
    have e1 : max ((arity : α) * cdfW cdf (.fin x)) 0 = arity * cdf x := by
      unfold cdfW; exact max_eq_left (by positivity)
    have hkk : (k : α) ≤ arity - 1 := by
      have : k + 1 ≤ arity := hk
      have : ((k + 1 : ℕ) : α) ≤ arity := by exact_mod_cast this
      push_cast at this; linarith
    rw [e1, Int.floor_eq_iff, div_le_iff₀ hap, lt_div_iff₀ hap]
    simp only [Int.cast_natCast]
    have hup : (arity : α) * cdf x < arity := by nlinarith
    constructor
    · rintro ⟨h3, h4⟩
      have h5 : (k : α) ≤ arity * cdf x := le_trans h3 (min_le_left _ _)
      refine ⟨by linarith, ?_⟩
      rcases min_lt_iff.mp h4 with h6 | h6
      · linarith
      · have h7 : arity < k + 2 := by
          have : (arity : α) < ((k + 2 : ℕ) : α) := by push_cast; linarith
          exact_mod_cast this
        have h8 : arity = k + 1 := by omega
        have : (arity : α) = k + 1 := by exact_mod_cast h8
        linarith
    · rintro ⟨h3, h4⟩
      exact ⟨le_min (by linarith) hkk, lt_of_le_of_lt (min_le_left _ _) (by linarith)⟩

/-- Every float gets a category in `[0, arity)`. -/
theorem threshold_range {cdf : α → α} {arity : ℕ} (ha : 1 ≤ arity) (x : W α) :
    0 ≤ threshold cdf arity x ∧ threshold cdf arity x < arity := by
  by_cases h2 : arity = 2
  · subst h2
    unfold threshold
    simp only [if_true]
    cases x with
    | nan => simp [W.clean]
    | neg => simp [W.clean]
    | pos => simp [W.clean]
    | fin y => simp only [W.clean]; split <;> simp
  · unfold threshold
    simp only [if_neg h2]
    have hap : (1 : α) ≤ arity := by exact_mod_cast ha
    constructor
    · rw [Int.floor_nonneg]
      exact le_min (le_max_right _ _) (by linarith)
    · rw [Int.floor_lt]
      simp only [Int.cast_natCast]
      exact lt_of_le_of_lt (min_le_right _ _) (by linarith)

/-- Nan and minus infinity give 0, plus infinity the last category. -/
theorem threshold_extremes {cdf : α → α} {arity : ℕ} (ha : 1 ≤ arity) :
    threshold cdf arity .nan = 0 ∧ threshold cdf arity .neg = 0 ∧ threshold cdf arity .pos = arity - 1 := by
  have hap : (1 : α) ≤ arity := by exact_mod_cast ha
  by_cases h2 : arity = 2
  · subst h2; simp [threshold, W.clean]
  · refine ⟨?_, ?_, ?_⟩
    · simp only [threshold, if_neg h2, W.clean, cdfW, mul_zero, max_self]
      rw [min_eq_left (by linarith)]; simp
    · simp only [threshold, if_neg h2, W.clean, cdfW, mul_zero, max_self]
      rw [min_eq_left (by linarith)]; simp
    · simp only [threshold, if_neg h2, W.clean, cdfW, mul_one]
      rw [max_eq_left (by linarith), min_eq_right (by linarith)]
      have : ((arity : α) - 1) = ((arity - 1 : ℤ) : α) := by push_cast; ring
      rw [this, Int.floor_intCast]

/-- The discretization is monotone, infinities and nan included. -/
theorem threshold_mono {cdf ppf : α → α} (h : Cdf cdf ppf) {arity : ℕ} (ha : 1 ≤ arity) (x y : W α) (hxy : W.LE x y) :
    threshold cdf arity x ≤ threshold cdf arity y := by
  obtain ⟨e1, e2, e3⟩ := threshold_extremes (cdf := cdf) ha
  have rx := threshold_range (cdf := cdf) ha x
  have ry := threshold_range (cdf := cdf) ha y
  cases x with
  | nan => omega
  | neg => omega
  | pos => cases y <;> simp_all [W.LE]
  | fin x =>
    cases y with
    | nan => simp [W.LE] at hxy
    | neg => simp [W.LE] at hxy
    | pos => omega
    | fin y =>
      have hxy : x ≤ y := hxy
      by_cases h2 : arity = 2
      · subst h2
        simp only [threshold, if_true, W.clean]
        by_cases h0 : 0 < x
        · rw [if_pos h0, if_pos (lt_of_lt_of_le h0 hxy)]
        · rw [if_neg h0]; split <;> simp
      · simp only [threshold, if_neg h2, W.clean, cdfW]
        apply Int.floor_le_floor
        apply min_le_min_right
        apply max_le_max_right
        exact mul_le_mul_of_nonneg_left (h.mono.monotone hxy) (by positivity)

omit [FloorRing α] in
theorem binMiddle_eq {arity : ℕ} (ha : 1 ≤ arity) (k : ℕ) : (binMiddle arity k : α) = ((k : α) + 1 / 2) / arity := by
  have hap : (arity : α) ≠ 0 := by
    have : (0 : α) < arity := by exact_mod_cast ha
    exact this.ne'
  unfold binMiddle; field_simp

omit [FloorRing α] in
theorem binDraw_eq {arity : ℕ} (ha : 1 ≤ arity) (k : ℕ) (u : α) : binDraw arity k u = ((k : α) + u) / arity := by
  have hap : (arity : α) ≠ 0 := by
    have : (0 : α) < arity := by exact_mod_cast ha
    exact this.ne'
  unfold binDraw; field_simp

/-- Any point drawn strictly inside the bin of `k` is sent back to `k`. -/
theorem threshold_noisy_inverse {cdf ppf : α → α} (h : Cdf cdf ppf) {arity : ℕ} (k : ℕ) (hk : k < arity) (u : α)
    (h0 : 0 < u) (h1 : u < 1) : threshold cdf arity (.fin (ppf (binDraw arity k u))) = k := by
  have ha : 1 ≤ arity := by omega
  have hap : (0 : α) < arity := by exact_mod_cast ha
  have hk0 : (0 : α) ≤ k := Nat.cast_nonneg k
  have hkk : (k : α) + 1 ≤ arity := by exact_mod_cast hk
  rw [binDraw_eq ha]
  have q0 : 0 < ((k : α) + u) / arity := by positivity
  have q1 : ((k : α) + u) / arity < 1 := by rw [div_lt_one hap]; linarith
  rw [threshold_fin h ha _ _ hk, h.right_inv _ q0 q1]
  split
  · left
    exact ⟨(div_lt_div_iff_of_pos_right hap).mpr (by linarith), (div_le_div_iff_of_pos_right hap).mpr (by linarith)⟩
  · exact ⟨(div_le_div_iff_of_pos_right hap).mpr (by linarith), (div_lt_div_iff_of_pos_right hap).mpr (by linarith)⟩

/-- **C30**: the discretization undoes its inverse. -/
theorem threshold_inverse {cdf ppf : α → α} (h : Cdf cdf ppf) {arity : ℕ} (k : ℕ) (hk : k < arity) :
    threshold cdf arity (.fin (ppf (binMiddle arity k))) = k := by
  have e : (binMiddle arity k : α) = binDraw arity k (1 / 2) := by
    rw [binMiddle_eq (by omega), binDraw_eq (by omega)]
  rw [e]
  exact threshold_noisy_inverse h k hk _ (by norm_num) (by norm_num)

/-- Every category is reached, by a number. -/
theorem threshold_onto {cdf ppf : α → α} (h : Cdf cdf ppf) {arity : ℕ} (k : ℕ) (hk : k < arity) :
    ∃ x : α, threshold cdf arity (.fin x) = k := ⟨_, threshold_inverse h k hk⟩

/-- **Against the code**: the draw of `noisy_inverse_threshold_discretization` lies in `[0, 1)`. With two categories the
draw 0 for category 1 yields the median, which is in category 0. -/
theorem noisy_inverse_zero {cdf ppf : α → α} (h : Cdf cdf ppf) :
    threshold cdf 2 (.fin (ppf (binDraw 2 1 0))) = 0 := by
  have e : (binDraw 2 1 0 : α) = 1 / 2 := by unfold binDraw; push_cast; ring
  rw [e]
  have hm : ppf (1 / 2) = 0 := by
    apply h.mono.injective
    rw [h.right_inv _ (by norm_num) (by norm_num), h.median]
  rw [hm]; simp [threshold, W.clean]

end threshold

/-! ### The normal distribution -/

section normal
open MeasureTheory ProbabilityTheory Set

theorem normCdf_zero : Tr.normCdf 0 = 1 / 2 := by
  have hneg : (gaussianReal 0 1).real (Iic 0) = (gaussianReal 0 1).real (Ici 0) := by
    have hm : (gaussianReal 0 1).map (fun x => -x) = gaussianReal 0 1 := by
      have := gaussianReal_map_neg (μ := 0) (v := 1)
      simpa using this
    conv_lhs => rw [← hm]
    rw [map_measureReal_apply measurable_neg measurableSet_Iic]
    congr 1
    ext x; simp
  have hsum : (gaussianReal 0 1).real (Iic 0) + (gaussianReal 0 1).real (Ioi 0) = 1 := by
    have := probReal_add_probReal_compl (μ := gaussianReal 0 1) (s := Iic (0:ℝ)) measurableSet_Iic
    rwa [compl_Iic] at this
  have hIci : (gaussianReal 0 1).real (Ici 0) = (gaussianReal 0 1).real (Ioi 0) := by
    have := nullSingletonClass_gaussianReal (μ := 0) (v := 1) one_ne_zero
    rw [measureReal_def, measureReal_def, measure_congr Ioi_ae_eq_Ici]
  unfold Tr.normCdf
  rw [cdf_eq_real]
  linarith

/-- The normal distribution fulfils the assumptions. -/
theorem normal_cdf : Cdf Tr.normCdf Tr.normPpf where
  pos := Tr.normal_spec.pos
  lt_one := Tr.normal_spec.lt_one
  mono := Tr.normCdf_strictMono
  right_inv := Tr.normal_spec.right_inv
  median := normCdf_zero

/-- A set of numbers characterised by a cdf in an interval has the length of the interval as probability. -/
theorem normal_interval (a b : ℝ) (h0 : 0 ≤ a) (hab : a < b) (h1 : b ≤ 1) (S : Set ℝ)
    (hS : ∀ x, x ∈ S → a ≤ Tr.normCdf x ∧ Tr.normCdf x ≤ b) (hS' : ∀ x, a < Tr.normCdf x → Tr.normCdf x < b → x ∈ S) :
    (gaussianReal 0 1) S = ENNReal.ofReal (b - a) := by
  have hna := nullSingletonClass_gaussianReal (μ := 0) (v := 1) one_ne_zero
  have hcdf : ∀ x, (gaussianReal 0 1) (Iic x) = ENNReal.ofReal (Tr.normCdf x) := by
    intro x; unfold Tr.normCdf; rw [cdf_eq_real, ofReal_measureReal]
  have hlow : ∀ q, 0 ≤ q → q ≤ 1 → (gaussianReal 0 1) {x | Tr.normCdf x ≤ q} = ENNReal.ofReal q := by
    intro q hq0 hq1
    rcases hq0.eq_or_lt with rfl | hq0
    · have : {x | Tr.normCdf x ≤ 0} = ∅ := by
        ext x; simp only [mem_ofPred_eq, mem_empty_iff_false, iff_false, not_le]; exact Tr.normal_spec.pos x
      rw [this]; simp
    rcases hq1.eq_or_lt with rfl | hq1
    · have : {x | Tr.normCdf x ≤ 1} = univ := by
        ext x; simp only [mem_ofPred_eq, mem_univ, iff_true]; exact (Tr.normal_spec.lt_one x).le
      rw [this]; simp
    · have : {x | Tr.normCdf x ≤ q} = Iic (Tr.normPpf q) := by
        ext x
        simp only [mem_ofPred_eq, mem_Iic]
        rw [← Tr.normCdf_strictMono.le_iff_le (a := x), Tr.normal_spec.right_inv q hq0 hq1]
      rw [this, hcdf, Tr.normal_spec.right_inv q hq0 hq1]
  have hlow' : ∀ q, 0 ≤ q → q ≤ 1 → (gaussianReal 0 1) {x | Tr.normCdf x < q} = ENNReal.ofReal q := by
    intro q hq0 hq1
    rw [← hlow q hq0 hq1]
    apply measure_congr
    have hz : (gaussianReal 0 1) {x | Tr.normCdf x = q} = 0 := by
      apply Set.Subsingleton.measure_zero
      intro x hx y hy
      exact Tr.normCdf_strictMono.injective (hx.trans hy.symm)
    have : {x | Tr.normCdf x ≤ q} = {x | Tr.normCdf x < q} ∪ {x | Tr.normCdf x = q} := by
      ext x; simp only [mem_ofPred_eq, mem_union]; exact le_iff_lt_or_eq
    rw [this]
    exact (union_ae_eq_left_of_ae_eq_empty (by rw [ae_eq_empty]; exact hz)).symm
  have hmeas : ∀ q, MeasurableSet {x | Tr.normCdf x ≤ q} := fun q =>
    measurableSet_le Tr.normCdf_strictMono.monotone.measurable measurable_const
  have hmeas' : ∀ q, MeasurableSet {x | Tr.normCdf x < q} := fun q =>
    measurableSet_lt Tr.normCdf_strictMono.monotone.measurable measurable_const
  have hsub : {x | Tr.normCdf x < a} ⊆ {x | Tr.normCdf x ≤ b} := fun x (hx : _ < a) => (hx.trans hab).le
  have hsub' : {x | Tr.normCdf x ≤ a} ⊆ {x | Tr.normCdf x < b} := fun x (hx : _ ≤ a) => lt_of_le_of_lt hx hab
  apply le_antisymm
  · calc (gaussianReal 0 1) S ≤ (gaussianReal 0 1) ({x | Tr.normCdf x ≤ b} \ {x | Tr.normCdf x < a}) := by
          apply measure_mono; intro x hx; obtain ⟨p, q⟩ := hS x hx; exact ⟨q, not_lt.mpr p⟩
      _ = ENNReal.ofReal (b - a) := by
          rw [measure_sdiff hsub (hmeas' a).nullMeasurableSet (measure_ne_top _ _),
            hlow b (by linarith) h1, hlow' a h0 (by linarith), ENNReal.ofReal_sub _ h0]
  · calc ENNReal.ofReal (b - a) = (gaussianReal 0 1) ({x | Tr.normCdf x < b} \ {x | Tr.normCdf x ≤ a}) := by
          rw [measure_sdiff hsub' (hmeas a).nullMeasurableSet (measure_ne_top _ _),
            hlow' b (by linarith) h1, hlow a h0 (by linarith), ENNReal.ofReal_sub _ h0]
      _ ≤ _ := by
          apply measure_mono; rintro x ⟨p, q⟩; exact hS' x (not_le.mp q) p

/-- For an input following the standard normal distribution all categories have the same probability. -/
theorem threshold_uniform (arity k : ℕ) (hk : k < arity) :
    (gaussianReal 0 1) {x | threshold Tr.normCdf arity (.fin x) = k} = ENNReal.ofReal (1 / arity) := by
  have ha : 1 ≤ arity := by omega
  have hap : (0 : ℝ) < arity := by exact_mod_cast ha
  have hkk : (k : ℝ) + 1 ≤ arity := by exact_mod_cast hk
  have e : (1 : ℝ) / arity = (k + 1) / arity - k / arity := by ring
  rw [e]
  apply normal_interval
  · positivity
  · exact (div_lt_div_iff_of_pos_right hap).mpr (by linarith)
  · rw [div_le_one hap]; linarith
  · intro x hx
    have := (threshold_fin normal_cdf ha x k hk).mp hx
    split at this
    · rename_i h2
      rcases this with ⟨p, q⟩ | ⟨rfl, q⟩
      · exact ⟨p.le, q⟩
      · subst h2; refine ⟨?_, ?_⟩
        · simpa using (Tr.normal_spec.pos x).le
        · push_cast; linarith
    · exact ⟨this.1, this.2.le⟩
  · intro x p q
    apply (threshold_fin normal_cdf ha x k hk).mpr
    split
    · exact Or.inl ⟨p, q.le⟩
    · exact ⟨p.le, q⟩

end normal

/-- Three categories for the normal distribution: zero is in the middle one. -/
example : threshold Tr.normCdf 3 (.fin (Tr.normPpf (binMiddle 3 1))) = 1 := threshold_inverse normal_cdf 1 (by norm_num)

end Disc
end NG
