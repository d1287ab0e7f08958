import Verif.Model.Transforms
import Mathlib.Tactic.Linarith
import Mathlib.Tactic.Ring
import Mathlib.Tactic.FieldSimp
import Mathlib.Data.Fin.VecNotation
import Mathlib.Data.Rat.Floor
import Mathlib.Algebra.Order.Floor.Ring

/-!
# C20, C21: transforms
-/

set_option linter.unusedSectionVars false
namespace NG
namespace Tr

section order
variable {α : Type} [LinearOrder α] {ι : Type} [Fintype ι]

/-- Specification: within the given bounds (a missing bound is no constraint). -/
def Within (lo hi : Option (ι → α)) (x : ι → α) : Prop :=
  (∀ l, lo = some l → ∀ i, l i ≤ x i) ∧ (∀ u, hi = some u → ∀ i, x i ≤ u i)

theorem checker_iff (lo hi : Option (ι → α)) (x : ι → α) : checker lo hi x = true ↔ Within lo hi x := by
  unfold checker Within
  cases lo <;> cases hi <;> simp

/-- C20: constructors accept exactly the bounds with at least one side, every lower bound strictly below its upper bound. -/
theorem initBounds_ok_iff (lo hi : Option (ι → α)) :
    initBounds lo hi = .ok () ↔ (lo ≠ none ∨ hi ≠ none) ∧ ∀ l u, lo = some l → hi = some u → ∀ i, l i < u i := by
  unfold initBounds
  cases lo with
  | none => cases hi <;> simp
  | some l =>
    cases hi with
    | none => simp
    | some u =>
      simp only
      by_cases h : ∃ i, u i ≤ l i
      · obtain ⟨i, hi⟩ := h
        simp only [ne_eq, reduceCtorEq, not_false_eq_true, true_or, true_and]
        rw [if_pos (by simpa using ⟨i, hi⟩)]
        simp only [reduceCtorEq, false_iff]
        intro hh
        exact absurd (hh l u rfl rfl i) (not_lt.2 hi)
      · push Not at h
        rw [if_neg (by simpa using h)]
        simp only [ne_eq, reduceCtorEq, not_false_eq_true, true_or, true_and, true_iff]
        rintro _ _ ⟨⟩ ⟨⟩ i
        exact h i

/-- Clipping lands within the bounds. -/
theorem clip_within (lo hi : Option (ι → α)) (h : initBounds lo hi = .ok ()) (x : ι → α) : Within lo hi (clip lo hi x) := by
  obtain ⟨_, h2⟩ := (initBounds_ok_iff lo hi).1 h
  unfold clip
  constructor
  · intro l hl i
    subst hl
    cases hi with
    | none => exact le_max_right _ _
    | some u => exact le_min (le_max_right _ _) (h2 l u rfl rfl i).le
  · intro u hu i
    subst hu
    exact min_le_right _ _

theorem clip_id (lo hi : Option (ι → α)) (x : ι → α) (hx : Within lo hi x) : clip lo hi x = x := by
  funext i
  unfold clip
  cases lo with
  | none =>
    cases hi with
    | none => rfl
    | some u => exact min_eq_left (hx.2 u rfl i)
  | some l =>
    have h1 : max (x i) (l i) = x i := max_eq_left (hx.1 l rfl i)
    cases hi with
    | none => exact h1
    | some u => simp only [h1]; exact min_eq_left (hx.2 u rfl i)

/-- C21: `Clipping.backward` accepts exactly the values within the bounds and returns them unchanged. -/
theorem clipBackward_iff (lo hi : Option (ι → α)) (x y : ι → α) : clipBackward lo hi x = .ok y ↔ Within lo hi x ∧ y = x := by
  unfold clipBackward
  by_cases h : checker lo hi x = true
  · rw [if_pos h]
    have := (checker_iff lo hi x).1 h
    simp only [Res.ok.injEq, this, true_and]
    exact eq_comm
  · rw [if_neg h]
    have : ¬ Within lo hi x := fun hw => h ((checker_iff lo hi x).2 hw)
    simp [this]

end order

section field
variable {α : Type} [LinearOrder α] [Field α] [IsStrictOrderedRing α] {ι : Type} [Fintype ι]

/-- C20: clipping and bouncing always end within the bounds. -/
theorem clipForward_within (bounce : Bool) (lo hi : Option (ι → α)) (h : initBounds lo hi = .ok ()) (x : ι → α) :
    Within lo hi (clipForward bounce lo hi x) := by
  unfold clipForward
  split
  · rename_i hc; exact (checker_iff lo hi x).1 hc
  · simp only
    split
    · exact clip_within lo hi h _
    · exact clip_within lo hi h _

/-- C20: values within the bounds are left unchanged. -/
theorem clipForward_id (bounce : Bool) (lo hi : Option (ι → α)) (x : ι → α) (hx : Within lo hi x) : clipForward bounce lo hi x = x := by
  unfold clipForward
  rw [if_pos ((checker_iff lo hi x).2 hx)]

/-- C20: applying the transform twice is the same as once. -/
theorem clipForward_idem (bounce : Bool) (lo hi : Option (ι → α)) (h : initBounds lo hi = .ok ()) (x : ι → α) :
    clipForward bounce lo hi (clipForward bounce lo hi x) = clipForward bounce lo hi x :=
  clipForward_id bounce lo hi _ (clipForward_within bounce lo hi h x)

/-- C20: each entry only depends on the same entry of the input, whether or not other entries are out of bounds. -/
theorem clipForward_entry (bounce : Bool) (lo hi : Option (ι → α)) (x x' : ι → α) (i : ι) (h : x i = x' i) :
    clipForward bounce lo hi x i = clipForward bounce lo hi x' i := by
  have key : ∀ y : ι → α, clipForward bounce lo hi y i =
      if bounce then clip lo hi (fun i => 2 * clip lo hi y i - y i) i else clip lo hi y i := by
    intro y
    unfold clipForward
    split
    · rename_i hc
      have hw := (checker_iff lo hi y).1 hc
      have e1 := clip_id lo hi y hw
      have e2 : (fun i => 2 * clip lo hi y i - y i) = y := by funext j; rw [e1]; ring
      rw [e2, e1]; simp
    · simp only; cases bounce <;> simp
  have hclip : ∀ y y' : ι → α, y i = y' i → clip lo hi y i = clip lo hi y' i := by
    intro y y' h; unfold clip; rw [h]
  rw [key x, key x']
  cases bounce
  · exact hclip x x' h
  · simp only [if_true]
    exact hclip _ _ (by rw [hclip x x' h, h])

/-- C20: bouncing reflects: a value beyond the upper bound by at most the width is mirrored at it (and likewise below). -/
theorem bounce_reflects (l u x : ι → α) (hlu : ∀ i, l i < u i) (i : ι) :
    (u i < x i → x i ≤ 2 * u i - l i → clipForward true (some l) (some u) x i = 2 * u i - x i) ∧
    (x i < l i → 2 * l i - u i ≤ x i → clipForward true (some l) (some u) x i = 2 * l i - x i) := by
  have h := hlu i
  constructor
  · intro h1 h2
    unfold clipForward
    rw [if_neg (by rw [checker_iff]; intro hw; exact absurd (hw.2 u rfl i) (not_le.2 h1))]
    simp only [if_true, clip]
    rw [max_eq_left (by linarith : l i ≤ x i), min_eq_right h1.le]
    rw [max_eq_left (by linarith), min_eq_left (by linarith)]
  · intro h1 h2
    unfold clipForward
    rw [if_neg (by rw [checker_iff]; intro hw; exact absurd (hw.1 l rfl i) (not_le.2 h1))]
    simp only [if_true, clip]
    rw [max_eq_right h1.le, min_eq_left h.le]
    rw [max_eq_left (by linarith), min_eq_left (by linarith)]

/-- C21: forward after backward for clipping. -/
theorem clip_roundtrip (bounce : Bool) (lo hi : Option (ι → α)) (x y : ι → α) (h : clipBackward lo hi y = .ok x) :
    clipForward bounce lo hi x = y := by
  obtain ⟨h1, rfl⟩ := (clipBackward_iff lo hi y x).1 h
  exact clipForward_id bounce lo hi _ h1

/-- C21: affine transforms whose slopes are all non-zero are bijective. -/
theorem affine_roundtrip (a b x : ι → α) (ha : ∀ i, a i ≠ 0) :
    affineBackward a b (affineForward a b x) = x ∧ affineForward a b (affineBackward a b x) = x := by
  constructor
  · funext i
    have := ha i
    simp only [affineBackward, affineForward]
    field_simp
    ring
  · funext i
    have := ha i
    simp only [affineBackward, affineForward]
    field_simp
    ring

/-- C21: a slope with a zero entry is accepted when another entry is not zero, and the transform then loses information. -/
theorem affine_zero_accepted :
    affineInit (![1, 0] : Fin 2 → ℚ) = .ok () ∧
    affineForward (![1, 0] : Fin 2 → ℚ) ![0, 0] ![3, 4] = affineForward ![1, 0] ![0, 0] ![3, 5] := by
  decide +kernel

/-- Normalized values: `[0, 1]` corresponds to the bounds, and both directions are inverse of each other. -/
theorem normalized_roundtrip (l u v : ι → α) (hlu : ∀ i, l i < u i) :
    valueToNormalized l u (normalizedToValue l u v) = v ∧ normalizedToValue l u (valueToNormalized l u v) = v ∧
    ((∀ i, 0 ≤ v i ∧ v i ≤ 1) ↔ Within (some l) (some u) (normalizedToValue l u v)) := by
  have hne : ∀ i, u i - l i ≠ 0 := fun i => (sub_pos.2 (hlu i)).ne'
  refine ⟨(affine_roundtrip _ _ v hne).1, (affine_roundtrip _ _ v hne).2, ?_⟩
  unfold Within normalizedToValue affineForward
  constructor
  · intro h
    constructor
    · rintro _ ⟨⟩ i
      have h1 := h i; have h2 := sub_pos.2 (hlu i)
      have := mul_nonneg h2.le h1.1
      linarith
    · rintro _ ⟨⟩ i
      have h1 := h i; have h2 := sub_pos.2 (hlu i)
      have := mul_le_of_le_one_right h2.le h1.2
      linarith
  · rintro ⟨h1, h2⟩ i
    have g1 := h1 l rfl i
    have g2 := h2 u rfl i
    simp only at g1 g2
    have h3 := sub_pos.2 (hlu i)
    constructor
    · by_contra hn
      push Not at hn
      have := mul_neg_of_pos_of_neg h3 hn
      linarith
    · by_contra hn
      push Not at hn
      have := mul_lt_mul_of_pos_left hn h3
      linarith

end field

section real
variable {ι : Type} [Fintype ι]

/-- C20/C21: the exponential transform is positive and bijective onto the positive reals, for a positive base other
than 1 and a non-zero coefficient. -/
theorem exp_roundtrip (base coeff : ℝ) (hb : 0 < base) (hb1 : base ≠ 1) (hc : coeff ≠ 0) (x y : ι → ℝ) :
    (∀ i, 0 < expForward base coeff x i) ∧ expBackward base coeff (expForward base coeff x) = x ∧
    ((∀ i, 0 < y i) → expForward base coeff (expBackward base coeff y) = y) := by
  have hlog : Real.log base ≠ 0 := Real.log_ne_zero_of_pos_of_ne_one hb hb1
  refine ⟨fun i => Real.rpow_pos_of_pos hb _, ?_, ?_⟩
  · funext i
    simp only [expBackward, expForward]
    rw [Real.log_rpow hb]
    field_simp
  · intro hy
    funext i
    simp only [expBackward, expForward]
    rw [Real.rpow_def_of_pos hb]
    have : Real.log base * (coeff * (Real.log (y i) / (coeff * Real.log base))) = Real.log (y i) := by field_simp
    rw [this, Real.exp_log (hy i)]

/-- With base 1 every input gives 1 (the constructor does not refuse it). -/
theorem exp_base_one (coeff : ℝ) (x : ι → ℝ) : expForward 1 coeff x = fun _ => 1 := by
  funext i; simp [expForward]

/-- C20: the tanh transform lands strictly within the bounds and is strictly increasing. -/
theorem tanh_within (lo hi x : ι → ℝ) (h : ∀ i, lo i < hi i) (i : ι) :
    lo i < tanhForward lo hi x i ∧ tanhForward lo hi x i < hi i := by
  have h1 := Real.tanh_lt_one (x i)
  have h2 := Real.neg_one_lt_tanh (x i)
  have h3 := sub_pos.2 (h i)
  unfold tanhForward
  constructor <;> nlinarith

/-- C21: tanh round trips. -/
theorem tanh_roundtrip (lo hi x : ι → ℝ) (h : ∀ i, lo i < hi i) : tanhBackward lo hi (tanhForward lo hi x) = .ok x := by
  unfold tanhBackward
  rw [if_neg]
  · congr 1
    funext i
    have h3 := (sub_pos.2 (h i)).ne'
    have : (tanhForward lo hi x i - 1 / 2 * (hi i + lo i)) / (1 / 2 * (hi i - lo i)) = Real.tanh (x i) := by
      unfold tanhForward; field_simp; ring
    rw [this, Real.artanh_tanh]
  · push Not
    exact ⟨fun i => (tanh_within lo hi x h i).2.le, fun i => (tanh_within lo hi x h i).1.le⟩

/-- C21: and in the other direction, strictly within the bounds. -/
theorem tanh_roundtrip' (lo hi y : ι → ℝ) (h : ∀ i, lo i < y i ∧ y i < hi i) :
    ∃ x, tanhBackward lo hi y = .ok x ∧ tanhForward lo hi x = y := by
  unfold tanhBackward
  rw [if_neg (by push Not; exact ⟨fun i => (h i).2.le, fun i => (h i).1.le⟩)]
  refine ⟨_, rfl, ?_⟩
  funext i
  obtain ⟨h1, h2⟩ := h i
  have h3 : 0 < hi i - lo i := by linarith
  unfold tanhForward
  rw [Real.tanh_artanh]
  · field_simp; ring
  · constructor
    · rw [lt_div_iff₀ (by linarith)]; linarith
    · rw [div_lt_iff₀ (by linarith)]; linarith

/-- C20: the arctan transform lands strictly within the bounds. -/
theorem arctan_within (lo hi x : ι → ℝ) (h : ∀ i, lo i < hi i) (i : ι) :
    lo i < arctanForward lo hi x i ∧ arctanForward lo hi x i < hi i := by
  have h1 := Real.arctan_lt_pi_div_two (x i)
  have h2 := Real.neg_pi_div_two_lt_arctan (x i)
  have h3 := sub_pos.2 (h i)
  have hp := Real.pi_pos
  have h4 : 0 < (hi i - lo i) / Real.pi := div_pos h3 hp
  have h5 : (hi i - lo i) / Real.pi * (Real.pi / 2) = (hi i - lo i) / 2 := by field_simp
  have h6 := mul_lt_mul_of_pos_left h1 h4
  have h7 := mul_lt_mul_of_pos_left h2 h4
  have h8 : (hi i - lo i) / Real.pi * (-(Real.pi / 2)) = -((hi i - lo i) / 2) := by field_simp
  unfold arctanForward
  constructor <;> linarith

/-- C21: arctan round trips. -/
theorem arctan_roundtrip (lo hi x : ι → ℝ) (h : ∀ i, lo i < hi i) : arctanBackward lo hi (arctanForward lo hi x) = .ok x := by
  unfold arctanBackward
  rw [if_neg]
  · congr 1
    funext i
    have h3 := (sub_pos.2 (h i)).ne'
    have hp := Real.pi_pos.ne'
    have : (arctanForward lo hi x i - 1 / 2 * (hi i + lo i)) / ((hi i - lo i) / Real.pi) = Real.arctan (x i) := by
      unfold arctanForward; field_simp; ring
    rw [this, Real.tan_arctan]
  · push Not
    exact ⟨fun i => (arctan_within lo hi x h i).2.le, fun i => (arctan_within lo hi x h i).1.le⟩

/-- C21: and in the other direction, strictly within the bounds. -/
theorem arctan_roundtrip' (lo hi y : ι → ℝ) (h : ∀ i, lo i < y i ∧ y i < hi i) :
    ∃ x, arctanBackward lo hi y = .ok x ∧ arctanForward lo hi x = y := by
  unfold arctanBackward
  rw [if_neg (by push Not; exact ⟨fun i => (h i).2.le, fun i => (h i).1.le⟩)]
  refine ⟨_, rfl, ?_⟩
  funext i
  obtain ⟨h1, h2⟩ := h i
  have hp := Real.pi_pos
  have h3 : 0 < hi i - lo i := by linarith
  have h4 : 0 < (hi i - lo i) / Real.pi := div_pos h3 hp
  have h5 : (hi i - lo i) / Real.pi * (Real.pi / 2) = (hi i - lo i) / 2 := by field_simp
  unfold arctanForward
  rw [Real.arctan_tan]
  · field_simp; ring
  · rw [lt_div_iff₀ h4]
    have : -(Real.pi / 2) * ((hi i - lo i) / Real.pi) = -((hi i - lo i) / 2) := by field_simp
    linarith
  · rw [div_lt_iff₀ h4]
    have : (Real.pi / 2) * ((hi i - lo i) / Real.pi) = (hi i - lo i) / 2 := by field_simp
    linarith

/-- C21: `backward` of the bounded transforms refuses exactly the arrays with an entry out of the bounds. -/
theorem backward_rejects (lo hi y : ι → ℝ) :
    (tanhBackward lo hi y = .error ↔ ¬ Within (some lo) (some hi) y) ∧
    (arctanBackward lo hi y = .error ↔ ¬ Within (some lo) (some hi) y) := by
  have key : ((∃ i, hi i < y i) ∨ (∃ i, y i < lo i)) ↔ ¬ Within (some lo) (some hi) y := by
    unfold Within
    constructor
    · rintro (⟨i, h⟩ | ⟨i, h⟩) ⟨h1, h2⟩
      · exact absurd (h2 hi rfl i) (not_le.2 h)
      · exact absurd (h1 lo rfl i) (not_le.2 h)
    · intro h
      by_contra hn
      push Not at hn
      apply h
      refine ⟨?_, ?_⟩
      · rintro _ ⟨⟩; exact hn.2
      · rintro _ ⟨⟩; exact hn.1
  constructor
  · unfold tanhBackward
    rw [← key]
    split <;> simp_all
  · unfold arctanBackward
    rw [← key]
    split <;> simp_all

/-- What is assumed of a distribution: its cdf takes values in (0, 1) and `ppf` is its inverse. -/
structure CdfSpec (cdf ppf : ℝ → ℝ) : Prop where
  pos : ∀ x, 0 < cdf x
  lt_one : ∀ x, cdf x < 1
  left_inv : ∀ x, ppf (cdf x) = x
  right_inv : ∀ q, 0 < q → q < 1 → cdf (ppf q) = q

/-- The Cauchy distribution satisfies the assumptions. -/
theorem cauchy_spec : CdfSpec cauchyCdf cauchyPpf where
  pos x := by
    unfold cauchyCdf
    have h := Real.neg_pi_div_two_lt_arctan x
    have hp := Real.pi_pos
    have : -(1 / 2) < Real.arctan x / Real.pi := by rw [lt_div_iff₀ hp]; linarith
    linarith
  lt_one x := by
    unfold cauchyCdf
    have h := Real.arctan_lt_pi_div_two x
    have hp := Real.pi_pos
    have : Real.arctan x / Real.pi < 1 / 2 := by rw [div_lt_iff₀ hp]; linarith
    linarith
  left_inv x := by
    unfold cauchyCdf cauchyPpf
    have hp := Real.pi_pos.ne'
    have : Real.pi * (1 / 2 + Real.arctan x / Real.pi) - Real.pi / 2 = Real.arctan x := by field_simp; ring
    rw [this, Real.tan_arctan]
  right_inv q h0 h1 := by
    unfold cauchyCdf cauchyPpf
    have hp := Real.pi_pos
    rw [Real.arctan_tan]
    · field_simp; ring
    · nlinarith
    · nlinarith

/-- C20: the cumulative-density transform lands strictly within the bounds. -/
theorem cdf_within (cdf ppf : ℝ → ℝ) (hs : CdfSpec cdf ppf) (lo hi scale : ℝ) (h : lo < hi) (x : ι → ℝ) (i : ι) :
    lo < cdfForward cdf lo hi scale x i ∧ cdfForward cdf lo hi scale x i < hi := by
  have h1 := hs.pos (x i / scale)
  have h2 := hs.lt_one (x i / scale)
  unfold cdfForward
  constructor <;> nlinarith

/-- C21 (partial for this transform): the round trip of the cumulative-density transform is exact as long as the
quantile is not closer than `eps` to 0 or 1; beyond, `backward` clips and the round trip fails (`cdf_roundtrip_fails`). -/
theorem cdf_roundtrip_partial (cdf ppf : ℝ → ℝ) (hs : CdfSpec cdf ppf) (lo hi eps scale : ℝ) (h : lo < hi) (hsc : scale ≠ 0)
    (x : ι → ℝ) (hx : ∀ i, eps ≤ cdf (x i / scale) ∧ cdf (x i / scale) ≤ 1 - eps) :
    cdfBackward ppf lo hi eps scale (cdfForward cdf lo hi scale x) = .ok x := by
  unfold cdfBackward
  rw [if_neg]
  · congr 1
    funext i
    have h3 : hi - lo ≠ 0 := (sub_pos.2 h).ne'
    have : (cdfForward cdf lo hi scale x i - lo) / (hi - lo) = cdf (x i / scale) := by
      unfold cdfForward; field_simp; ring
    rw [this, max_eq_left (hx i).1, min_eq_left (hx i).2, hs.left_inv]
    field_simp
  · push Not
    exact ⟨fun i => (cdf_within cdf ppf hs lo hi scale h x i).2.le, fun i => (cdf_within cdf ppf hs lo hi scale h x i).1.le⟩

/-- C21: in the other direction the error is at most `eps` times the width, for every value within the bounds. -/
theorem cdf_roundtrip' (cdf ppf : ℝ → ℝ) (hs : CdfSpec cdf ppf) (lo hi eps scale : ℝ) (h : lo < hi) (hsc : scale ≠ 0)
    (he : 0 < eps) (he2 : eps ≤ 1 / 2) (y : ι → ℝ) (hy : ∀ i, lo ≤ y i ∧ y i ≤ hi) :
    ∃ x, cdfBackward ppf lo hi eps scale y = .ok x ∧ ∀ i, |cdfForward cdf lo hi scale x i - y i| ≤ eps * (hi - lo) := by
  unfold cdfBackward
  rw [if_neg (by push Not; exact ⟨fun i => (hy i).2, fun i => (hy i).1⟩)]
  refine ⟨_, rfl, ?_⟩
  intro i
  obtain ⟨h1, h2⟩ := hy i
  have h3 : 0 < hi - lo := sub_pos.2 h
  unfold cdfForward
  set q := (y i - lo) / (hi - lo) with hq
  have hq0 : 0 ≤ q := div_nonneg (by linarith) h3.le
  have hq1 : q ≤ 1 := by rw [hq, div_le_one h3]; linarith
  have hqy : y i = q * (hi - lo) + lo := by rw [hq]; field_simp; ring
  set q' := min (max q eps) (1 - eps) with hq'
  have hq'0 : 0 < q' := lt_min (lt_max_of_lt_right he) (by linarith)
  have hq'1 : q' < 1 := lt_of_le_of_lt (min_le_right _ _) (by linarith)
  have hs' : scale * ppf q' / scale = ppf q' := by field_simp
  rw [hs', hs.right_inv q' hq'0 hq'1]
  have hd : |q' - q| ≤ eps := by
    rw [abs_le, hq']
    rcases le_total q eps with h4 | h4
    · rw [max_eq_right h4]
      rcases le_total eps (1 - eps) with h5 | h5
      · rw [min_eq_left h5]; constructor <;> linarith
      · rw [min_eq_right h5]; constructor <;> linarith
    · rw [max_eq_left h4]
      rcases le_total q (1 - eps) with h5 | h5
      · rw [min_eq_left h5]; constructor <;> linarith
      · rw [min_eq_right h5]; constructor <;> linarith
  have : (hi - lo) * q' + lo - y i = (q' - q) * (hi - lo) := by rw [hqy]; ring
  rw [this, abs_mul, abs_of_pos h3]
  exact mul_le_mul_of_nonneg_right hd h3.le

/-- The exact round trip fails for every input whose quantile is below `eps`. -/
theorem cdf_roundtrip_fails (cdf ppf : ℝ → ℝ) (hs : CdfSpec cdf ppf) (lo hi eps scale : ℝ) (h : lo < hi) (hsc : scale ≠ 0)
    (he : 0 < eps) (he2 : eps ≤ 1 / 2) (x : Fin 1 → ℝ) (hx : cdf (x 0 / scale) < eps) :
    cdfBackward ppf lo hi eps scale (cdfForward cdf lo hi scale x) ≠ .ok x := by
  unfold cdfBackward
  rw [if_neg]
  · intro hh
    have h0 := congrFun (Res.ok.inj hh) 0
    have h3 : hi - lo ≠ 0 := (sub_pos.2 h).ne'
    have : (cdfForward cdf lo hi scale x 0 - lo) / (hi - lo) = cdf (x 0 / scale) := by
      unfold cdfForward; field_simp; ring
    rw [this, max_eq_right hx.le, min_eq_left (by linarith)] at h0
    have h4 : x 0 / scale = ppf eps := by rw [← h0]; field_simp
    rw [h4, hs.right_inv eps he (by linarith)] at hx
    exact lt_irrefl _ hx
  · push Not
    exact ⟨fun i => (cdf_within cdf ppf hs lo hi scale h x i).2.le, fun i => (cdf_within cdf ppf hs lo hi scale h x i).1.le⟩

/-- Concrete: the median of the Cauchy distribution is in the domain of exactness for `eps = 1e-9`. -/
example : cdfBackward (ι := Fin 1) cauchyPpf 0 1 (1 / 10 ^ 9) 1 (cdfForward cauchyCdf 0 1 1 (fun _ => 0)) = .ok (fun _ => 0) := by
  apply cdf_roundtrip_partial cauchyCdf cauchyPpf cauchy_spec 0 1 _ 1 one_pos one_ne_zero
  intro i
  simp only [cauchyCdf, zero_div, Real.arctan_zero, add_zero]
  norm_num

end real

/-- Concrete: bouncing on [0, 1]. -/
example : clipForward true (some (fun _ => 0)) (some (fun _ => 1)) (![-1 / 4, 1 / 2, 3 / 2, 7] : Fin 4 → ℚ) = ![1 / 4, 1 / 2, 1 / 2, 0] := by
  decide +kernel

end Tr
end NG
