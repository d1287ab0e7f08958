/-
C127: the mirrors of the photonics problems.
-/
import Verif.Model.Photonics
import Mathlib.Analysis.SpecialFunctions.Trigonometric.Deriv
import Mathlib.Analysis.SpecialFunctions.Trigonometric.Arctan
import Mathlib.Analysis.Complex.Norm
import Mathlib.Topology.Algebra.Field
import Mathlib.Analysis.Real.Pi.Bounds
import Mathlib.Tactic.Linarith
import Mathlib.Tactic.Ring
import Mathlib.Tactic.FieldSimp
import Mathlib.Tactic.NormNum
import Mathlib.Tactic.Positivity

set_option linter.unusedSectionVars false

namespace NG.Photonics

open Complex

/-! ### The discs of admittances -/

/-- The disc with the real segment from `a` to `b` as a diameter. -/
def InDisc (a b : ℝ) (Z : ℂ) : Prop := (Z.re - a) * (Z.re - b) + Z.im ^ 2 ≤ 0

theorem disc_re (a b : ℝ) (Z : ℂ) (hab : a ≤ b) (h : InDisc a b Z) : a ≤ Z.re ∧ Z.re ≤ b := by
  unfold InDisc at h
  have h1 : (Z.re - a) * (Z.re - b) ≤ 0 := by nlinarith [sq_nonneg Z.im]
  constructor
  · by_contra hc; push Not at hc; nlinarith
  · by_contra hc; push Not at hc; nlinarith

theorem disc_mono (a b a' b' : ℝ) (Z : ℂ) (hab : a ≤ b) (ha : a' ≤ a) (hb : b ≤ b') (h : InDisc a b Z) : InDisc a' b' Z := by
  obtain ⟨h1, h2⟩ := disc_re a b Z hab h
  unfold InDisc at h ⊢
  nlinarith [mul_nonneg (sub_nonneg.2 ha) (sub_nonneg.2 h2), mul_nonneg (sub_nonneg.2 hb) (sub_nonneg.2 h1), mul_nonneg (sub_nonneg.2 ha) (sub_nonneg.2 hb)]

theorem layer_den (n t : ℝ) (hn : 0 < n) (Z : ℂ) (hZ : 0 < Z.re) : (1 - I * t * Z / n : ℂ) ≠ 0 := by
  intro h
  have hre := congrArg Complex.re h
  have him := congrArg Complex.im h
  have e : (1 - I * t * Z / n : ℂ) = ((1 + t * Z.im / n : ℝ) : ℂ) + ((-(t * Z.re / n) : ℝ) : ℂ) * I := by
    apply Complex.ext <;> simp [Complex.div_ofReal_re, Complex.div_ofReal_im]
    ring
  rw [e] at hre him
  simp at hre him
  rcases him with (h0 | h0) | h0
  · rw [h0] at hre; simp at hre
  · linarith
  · linarith

theorem layer_parts (n t : ℝ) (hn : 0 < n) (Z : ℂ) (hZ : 0 < Z.re) :
    ∃ D : ℝ, 0 < D ∧ (layer n t Z).re * D = n ^ 2 * Z.re * (1 + t ^ 2) ∧ ((layer n t Z).re ^ 2 + (layer n t Z).im ^ 2 + n ^ 2) * D = n ^ 2 * (Z.re ^ 2 + Z.im ^ 2 + n ^ 2) * (1 + t ^ 2) := by
  have hden := layer_den n t hn Z hZ
  have hn' : (n : ℂ) ≠ 0 := by exact_mod_cast hn.ne'
  have e : layer n t Z = (n * (Z - I * n * t)) / (n - I * t * Z) := by
    unfold layer
    have h2 : (n - I * t * Z : ℂ) = n * (1 - I * t * Z / n) := by field_simp
    rw [h2, mul_div_mul_left _ _ hn']
  have hd2 : (n - I * t * Z : ℂ) ≠ 0 := by
    have h2 : (n - I * t * Z : ℂ) = n * (1 - I * t * Z / n) := by field_simp
    rw [h2]; exact mul_ne_zero hn' hden
  refine ⟨normSq (n - I * t * Z), normSq_pos.2 hd2, ?_, ?_⟩
  · rw [e, Complex.div_re]
    rw [← add_div, div_mul_cancel₀ _ (normSq_pos.2 hd2).ne']
    simp
    ring
  · have h1 : (layer n t Z).re ^ 2 + (layer n t Z).im ^ 2 = normSq (layer n t Z) := by rw [normSq_apply]; ring
    rw [h1, e, normSq_div, add_mul, div_mul_cancel₀ _ (normSq_pos.2 hd2).ne', normSq_mul]
    simp [normSq_apply]
    ring

theorem layer_re_pos (n t : ℝ) (hn : 0 < n) (Z : ℂ) (hZ : 0 < Z.re) : 0 < (layer n t Z).re := by
  obtain ⟨D, hD, h1, -⟩ := layer_parts n t hn Z hZ
  by_contra hc
  push Not at hc
  have : 0 < n ^ 2 * Z.re * (1 + t ^ 2) := by positivity
  nlinarith

/-- A layer turns the discs around its own index. -/
theorem layer_disc (n t s : ℝ) (hn : 0 < n) (hs : 1 ≤ s) (Z : ℂ) (h : InDisc (n / s) (n * s) Z) : InDisc (n / s) (n * s) (layer n t Z) := by
  have hs0 : 0 < s := by linarith
  have hns : n / s ≤ n * s := by
    rw [div_le_iff₀ hs0]
    nlinarith [mul_pos hn hs0]
  have hZ : 0 < Z.re := lt_of_lt_of_le (by positivity) (disc_re _ _ Z hns h).1
  obtain ⟨D, hD, h1, h2⟩ := layer_parts n t hn Z hZ
  have e : ∀ x y : ℝ, (x - n / s) * (x - n * s) + y ^ 2 = x ^ 2 + y ^ 2 + n ^ 2 - (1 / s + s) * n * x := by
    intro x y; field_simp; ring
  unfold InDisc at h ⊢
  rw [e] at h ⊢
  have h3 : ((layer n t Z).re ^ 2 + (layer n t Z).im ^ 2 + n ^ 2 - (1 / s + s) * n * (layer n t Z).re) * D =
      n ^ 2 * (1 + t ^ 2) * (Z.re ^ 2 + Z.im ^ 2 + n ^ 2 - (1 / s + s) * n * Z.re) := by
    rw [sub_mul, h2, mul_assoc ((1 / s + s) * n), h1]; ring
  by_contra hc
  push Not at hc
  have h4 : 0 < n ^ 2 * (1 + t ^ 2) := by positivity
  nlinarith [mul_pos hc hD]

/-- The ratio of two positive numbers, the larger by the smaller. -/
noncomputable def ratio (a b : ℝ) : ℝ := max (a / b) (b / a)

theorem ratio_ge_one (a b : ℝ) (ha : 0 < a) (hb : 0 < b) : 1 ≤ ratio a b := by
  unfold ratio
  rcases le_total a b with h | h
  · exact le_max_of_le_right ((one_le_div ha).2 h)
  · exact le_max_of_le_left ((one_le_div hb).2 h)

theorem disc_change (m n s : ℝ) (hm : 0 < m) (hn : 0 < n) (hs : 1 ≤ s) (Z : ℂ) (h : InDisc (n / s) (n * s) Z) : InDisc (m / (ratio m n * s)) (m * (ratio m n * s)) Z := by
  have hs0 : 0 < s := by linarith
  have hr := ratio_ge_one m n hm hn
  have hr0 : 0 < ratio m n := by linarith
  have h1 : m / n ≤ ratio m n := le_max_left _ _
  have h2 : n / m ≤ ratio m n := le_max_right _ _
  rw [div_le_iff₀ hn] at h1
  rw [div_le_iff₀ hm] at h2
  refine disc_mono _ _ _ _ Z ?_ ?_ ?_ h
  · rw [div_le_iff₀ hs0]; nlinarith [mul_pos hn hs0]
  · rw [div_le_div_iff₀ (by positivity) hs0]; nlinarith
  · nlinarith

/-! ### The contrast of a stack -/

/-- The product of the ratios of neighbours. -/
noncomputable def contrast : List ℝ → ℝ
  | [] => 1
  | [_] => 1
  | a :: b :: l => ratio a b * contrast (b :: l)

theorem contrast_ge_one (l : List ℝ) (h : ∀ n ∈ l, 0 < n) : 1 ≤ contrast l := by
  induction l with
  | nil => exact le_rfl
  | cons a l ih =>
    cases l with
    | nil => exact le_rfl
    | cons b l =>
      simp only [contrast]
      have h1 := ratio_ge_one a b (h a (by simp)) (h b (by simp))
      have h2 := ih (fun n hn => h n (List.mem_cons_of_mem _ hn))
      nlinarith

/-- The fold of the loops. -/
noncomputable def fold (ts : ℝ × ℝ → ℝ) (ls : List (ℝ × ℝ)) (Z : ℂ) : ℂ := ls.foldr (fun l Z => layer l.1 (ts l) Z) Z

theorem fold_disc (ts : ℝ × ℝ → ℝ) (m w : ℝ) (hm : 0 < m) (hw : 0 < w) (ls : List (ℝ × ℝ)) (hls : ∀ l ∈ ls, 0 < l.1) :
    InDisc (m / contrast (m :: (ls.map (·.1) ++ [w]))) (m * contrast (m :: (ls.map (·.1) ++ [w]))) (fold ts ls w) := by
  induction ls generalizing m with
  | nil =>
    have := disc_change m w 1 hm hw le_rfl (w : ℂ) (by simp [InDisc])
    simpa [contrast, fold] using this
  | cons l ls ih =>
    have hl := hls l (by simp)
    have hpos : ∀ n ∈ (l :: ls).map (·.1) ++ [w], 0 < n := by
      intro n hn
      rcases List.mem_append.1 hn with hn | hn
      · obtain ⟨q, hq, rfl⟩ := List.mem_map.1 hn; exact hls q hq
      · simp only [List.mem_singleton] at hn; rw [hn]; exact hw
    have hc := contrast_ge_one _ hpos
    have h1 := ih l.1 hl (fun q hq => hls q (List.mem_cons_of_mem _ hq))
    have h2 := layer_disc l.1 (ts l) _ hl hc _ h1
    exact disc_change m l.1 _ hm hl hc _ h2

/-! ### The transmitted share -/

theorem transmitted (Z : ℂ) (hZ : 0 < Z.re) : (1 - reflected Z * (starRingEnd ℂ) (reflected Z)).re = 4 * Z.re / ((1 + Z.re) ^ 2 + Z.im ^ 2) := by
  have hd : (1 + Z : ℂ) ≠ 0 := by
    intro h
    have := congrArg Complex.re h
    simp at this
    linarith
  have hn : normSq (1 + Z) = (1 + Z.re) ^ 2 + Z.im ^ 2 := by
    rw [normSq_apply]
    simp only [add_re, one_re, add_im, one_im, zero_add]
    ring
  have hpos : 0 < (1 + Z.re) ^ 2 + Z.im ^ 2 := by positivity
  rw [mul_conj, reflected, normSq_div, hn]
  rw [Complex.sub_re, Complex.one_re, Complex.ofReal_re]
  have hn2 : normSq (1 - Z) = (1 - Z.re) ^ 2 + Z.im ^ 2 := by
    rw [normSq_apply]
    simp only [sub_re, one_re, sub_im, one_im, zero_sub]
    ring
  rw [hn2]
  field_simp
  ring

theorem transmitted_range (Z : ℂ) (hZ : 0 < Z.re) : 0 < (1 - reflected Z * (starRingEnd ℂ) (reflected Z)).re ∧ (1 - reflected Z * (starRingEnd ℂ) (reflected Z)).re ≤ 1 := by
  rw [transmitted Z hZ]
  have hpos : 0 < (1 + Z.re) ^ 2 + Z.im ^ 2 := by positivity
  refine ⟨by positivity, ?_⟩
  rw [div_le_one hpos]
  nlinarith [sq_nonneg (1 - Z.re), sq_nonneg Z.im]

theorem transmitted_disc (s : ℝ) (hs : 1 ≤ s) (Z : ℂ) (h : InDisc (1 / s) (1 * s) Z) : 4 * s / (s + 1) ^ 2 ≤ (1 - reflected Z * (starRingEnd ℂ) (reflected Z)).re := by
  have hs0 : 0 < s := by linarith
  have hss : 1 / s ≤ 1 * s := by rw [div_le_iff₀ hs0]; nlinarith
  have hZ : 0 < Z.re := lt_of_lt_of_le (by positivity) (disc_re _ _ Z hss h).1
  rw [transmitted Z hZ]
  have hpos : 0 < (1 + Z.re) ^ 2 + Z.im ^ 2 := by positivity
  rw [div_le_div_iff₀ (by positivity) hpos]
  unfold InDisc at h
  have e : (Z.re - 1 / s) * (Z.re - 1 * s) + Z.im ^ 2 = Z.re ^ 2 + Z.im ^ 2 + 1 - (1 / s + s) * Z.re := by field_simp; ring
  rw [e] at h
  have h2 : s * (Z.re ^ 2 + Z.im ^ 2 + 1) ≤ (1 + s ^ 2) * Z.re := by
    have h3 := mul_le_mul_of_nonneg_left h hs0.le
    have h4 : s * (Z.re ^ 2 + Z.im ^ 2 + 1 - (1 / s + s) * Z.re) = s * (Z.re ^ 2 + Z.im ^ 2 + 1) - (1 + s ^ 2) * Z.re := by field_simp
    rw [h4] at h3
    linarith
  nlinarith

/-- The layers of the Bragg mirror. -/
noncomputable def braggLayers (X : List ℝ) : List (ℝ × ℝ) := ((X.take (X.length / 2)).map Real.sqrt).zip ((X.drop (X.length / 2)).take (X.length / 2))

theorem layer_zero (n : ℝ) (Z : ℂ) : layer n 0 Z = Z := by simp [layer]

theorem admittance_ends (lam w a : ℝ) (ls : List (ℝ × ℝ)) :
    admittance lam ((a, 0) :: (ls ++ [(w, 0)])) (w : ℂ) = fold (fun l => Real.tan (2 * Real.pi * l.1 * l.2 / lam)) ls w := by
  simp [admittance, fold, List.foldr_append, layer_zero]

theorem bragg_eq (X : List ℝ) :
    bragg X = (1 - reflected (fold (fun l => Real.tan (2 * Real.pi * l.1 * l.2 / 600)) (braggLayers X) (Real.sqrt 3 : ℝ)) *
      (starRingEnd ℂ) (reflected (fold (fun l => Real.tan (2 * Real.pi * l.1 * l.2 / 600)) (braggLayers X) (Real.sqrt 3 : ℝ)))).re := by
  have hlen : ((X.take (X.length / 2)).map Real.sqrt).length = ((X.drop (X.length / 2)).take (X.length / 2)).length := by
    simp only [List.length_map, List.length_take, List.length_drop]; omega
  have e : ([1] ++ (X.take (X.length / 2)).map Real.sqrt ++ [Real.sqrt 3]).zip ([0] ++ (X.drop (X.length / 2)).take (X.length / 2) ++ [0]) =
      ((1 : ℝ), (0 : ℝ)) :: (braggLayers X ++ [(Real.sqrt 3, 0)]) := by
    rw [List.append_assoc, List.append_assoc, List.singleton_append, List.singleton_append, List.zip_cons_cons, List.zip_append hlen]
    rfl
  simp only [bragg, e, admittance_ends]

theorem sqrt3_pos : 0 < Real.sqrt 3 := Real.sqrt_pos.2 (by norm_num)

theorem braggLayers_fst (X : List ℝ) : (braggLayers X).map (·.1) = (X.take (X.length / 2)).map Real.sqrt := by
  unfold braggLayers
  rw [show ((fun x : ℝ × ℝ => x.1)) = Prod.fst from rfl, List.map_fst_zip]
  simp only [List.length_map, List.length_take, List.length_drop]; omega

theorem braggLayers_pos (X : List ℝ) (h : ∀ e ∈ X.take (X.length / 2), 0 < e) : ∀ l ∈ braggLayers X, 0 < l.1 := by
  intro l hl
  have : l.1 ∈ (braggLayers X).map (·.1) := List.mem_map_of_mem hl
  rw [braggLayers_fst] at this
  obtain ⟨e, he, hel⟩ := List.mem_map.1 this
  rw [← hel]
  exact Real.sqrt_pos.2 (h e he)

/-- **The Bragg mirror reflects at most what the contrasts of its layers allow**: the transmitted share is at least `4 s / (s + 1) ^ 2` for the product `s` of the ratios of the neighbouring
indices, from air to the substrate; it is positive and at most 1. -/
theorem bragg_bound (X : List ℝ) (h : ∀ e ∈ X.take (X.length / 2), 0 < e) :
    let s := contrast (1 :: ((X.take (X.length / 2)).map Real.sqrt ++ [Real.sqrt 3]))
    1 ≤ s ∧ 4 * s / (s + 1) ^ 2 ≤ bragg X ∧ 0 < bragg X ∧ bragg X ≤ 1 := by
  have hls := braggLayers_pos X h
  have hpos : ∀ n ∈ (1 : ℝ) :: ((X.take (X.length / 2)).map Real.sqrt ++ [Real.sqrt 3]), 0 < n := by
    intro n hn
    rcases List.mem_cons.1 hn with rfl | hn
    · norm_num
    · rcases List.mem_append.1 hn with hn | hn
      · obtain ⟨e, he, rfl⟩ := List.mem_map.1 hn
        exact Real.sqrt_pos.2 (h e he)
      · simp only [List.mem_singleton] at hn; rw [hn]; exact sqrt3_pos
  have hs := contrast_ge_one _ hpos
  have hd := fold_disc (fun l => Real.tan (2 * Real.pi * l.1 * l.2 / 600)) 1 (Real.sqrt 3) one_pos sqrt3_pos (braggLayers X) hls
  rw [braggLayers_fst] at hd
  intro s
  have hss : 1 / s ≤ 1 * s := by
    have : 0 < s := lt_of_lt_of_le one_pos hs
    rw [div_le_iff₀ this]; nlinarith
  have hZ : 0 < (fold (fun l => Real.tan (2 * Real.pi * l.1 * l.2 / 600)) (braggLayers X) (Real.sqrt 3 : ℝ)).re :=
    lt_of_lt_of_le (by have : 0 < s := lt_of_lt_of_le one_pos hs
                       positivity) (disc_re _ _ _ hss hd).1
  rw [bragg_eq]
  exact ⟨hs, transmitted_disc s hs _ hd, transmitted_range _ hZ⟩

/-! ### The optimum of the Bragg mirror -/

theorem share_anti (s s' : ℝ) (hs : 1 ≤ s) (h : s ≤ s') : 4 * s' / (s' + 1) ^ 2 ≤ 4 * s / (s + 1) ^ 2 := by
  have hs1 : 0 < s + 1 := by linarith
  have hs2 : 0 < s' + 1 := by linarith
  rw [div_le_div_iff₀ (by positivity) (by positivity)]
  nlinarith [mul_nonneg (sub_nonneg.2 h) (sub_nonneg.2 hs), mul_nonneg (sub_nonneg.2 h) (mul_nonneg (sub_nonneg.2 hs) (sub_nonneg.2 hs)),
    mul_nonneg (sub_nonneg.2 h) (mul_nonneg (by linarith : (0 : ℝ) ≤ s' ) (by linarith : (0 : ℝ) ≤ s - 1)), mul_nonneg (sub_nonneg.2 h) (by nlinarith : (0 : ℝ) ≤ s * s' - 1)]

theorem ratio_le (a b : ℝ) (ha : Real.sqrt 2 ≤ a) (ha' : a ≤ Real.sqrt 3) (hb : Real.sqrt 2 ≤ b) (hb' : b ≤ Real.sqrt 3) : ratio a b ≤ Real.sqrt 3 / Real.sqrt 2 := by
  have h2 : 0 < Real.sqrt 2 := Real.sqrt_pos.2 (by norm_num)
  have h3 := sqrt3_pos
  unfold ratio
  refine max_le ?_ ?_
  · exact div_le_div₀ h3.le ha' h2 hb
  · exact div_le_div₀ h3.le hb' h2 ha

theorem contrast_le (a : ℝ) (l : List ℝ) (h : ∀ n ∈ a :: l, Real.sqrt 2 ≤ n ∧ n ≤ Real.sqrt 3) : contrast (a :: l) ≤ (Real.sqrt 3 / Real.sqrt 2) ^ l.length := by
  induction l generalizing a with
  | nil => simp [contrast]
  | cons b l ih =>
    have h2 : 0 < Real.sqrt 2 := Real.sqrt_pos.2 (by norm_num)
    have ha := h a (by simp)
    have hb := h b (by simp)
    have h1 := ratio_le a b ha.1 ha.2 hb.1 hb.2
    have hr := ratio_ge_one a b (h2.trans_le ha.1) (h2.trans_le hb.1)
    have h3 := ih b (fun n hn => h n (List.mem_cons_of_mem _ hn))
    have hc := contrast_ge_one (b :: l) (fun n hn => h2.trans_le (h n (List.mem_cons_of_mem _ hn)).1)
    simp only [contrast, List.length_cons, pow_succ]
    rw [mul_comm ((Real.sqrt 3 / Real.sqrt 2) ^ l.length)]
    exact mul_le_mul h1 h3 (by linarith) (by linarith)

/-- The best contrast of `N` layers with permittivities between 2 and 3. -/
noncomputable def best (N : Nat) : ℝ := Real.sqrt 3 * (Real.sqrt 3 / Real.sqrt 2) ^ N

theorem contrast_air (l : List ℝ) (h : ∀ n ∈ l, Real.sqrt 2 ≤ n ∧ n ≤ Real.sqrt 3) : contrast (1 :: (l ++ [Real.sqrt 3])) ≤ best l.length := by
  have h2 : 0 < Real.sqrt 2 := Real.sqrt_pos.2 (by norm_num)
  have h12 : 1 ≤ Real.sqrt 2 := Real.one_le_sqrt.2 (by norm_num)
  have h23 : Real.sqrt 2 ≤ Real.sqrt 3 := Real.sqrt_le_sqrt (by norm_num)
  have hall : ∀ n ∈ l ++ [Real.sqrt 3], Real.sqrt 2 ≤ n ∧ n ≤ Real.sqrt 3 := by
    intro n hn
    rcases List.mem_append.1 hn with hn | hn
    · exact h n hn
    · simp only [List.mem_singleton] at hn; rw [hn]; exact ⟨h23, le_rfl⟩
  obtain ⟨a, q, e⟩ : ∃ a q, l ++ [Real.sqrt 3] = a :: q := by
    cases l with
    | nil => exact ⟨_, _, rfl⟩
    | cons a l => exact ⟨_, _, rfl⟩
  have hlen : q.length = l.length := by
    have := congrArg List.length e
    simp at this
    omega
  rw [e] at hall ⊢
  have ha := hall a (by simp)
  have hc := contrast_le a q hall
  have hc1 := contrast_ge_one (a :: q) (fun n hn => h2.trans_le (hall n hn).1)
  have hr : ratio 1 a ≤ Real.sqrt 3 := by
    have hapos : 0 < a := h2.trans_le ha.1
    unfold ratio
    refine max_le ?_ ?_
    · rw [div_le_iff₀ hapos]; nlinarith
    · rw [div_one]; exact ha.2
  simp only [contrast, best]
  rw [← hlen]
  exact mul_le_mul hr hc (by linarith) sqrt3_pos.le

/-- **No Bragg mirror of the problem transmits less than `4 s / (s + 1) ^ 2` with `s = √3 √(3/2) ^ N`, `N` the number of layers.** -/
theorem bragg_optimum (X : List ℝ) (h : ∀ e ∈ X.take (X.length / 2), 2 ≤ e ∧ e ≤ 3) : 4 * best (X.length / 2) / (best (X.length / 2) + 1) ^ 2 ≤ bragg X := by
  obtain ⟨h1, h2, -, -⟩ := bragg_bound X (fun e he => by have := h e he; linarith)
  have hl : ((X.take (X.length / 2)).map Real.sqrt).length = X.length / 2 := by simp; omega
  have hc := contrast_air ((X.take (X.length / 2)).map Real.sqrt) (by
    intro n hn
    obtain ⟨e, he, rfl⟩ := List.mem_map.1 hn
    exact ⟨Real.sqrt_le_sqrt (h e he).1, Real.sqrt_le_sqrt (h e he).2⟩)
  rw [hl] at hc
  exact (share_anti _ _ h1 hc).trans h2

/-- The indices of the quarter wave stack: `2 M` layers, alternately 3 and 2. -/
def quarterEps : Nat → List ℝ
  | 0 => []
  | M + 1 => 3 :: 2 :: quarterEps M

/-- Layers that are a little thinner than a quarter of the wave length. -/
noncomputable def thin (θ : ℝ) (eps : List ℝ) : List ℝ := eps.map fun e => 600 / (2 * Real.pi * Real.sqrt e) * θ

theorem quarter_length (M : Nat) : (quarterEps M).length = 2 * M := by
  induction M with
  | zero => rfl
  | succ M ih => simp only [quarterEps, List.length_cons, ih]; omega

theorem quarter_mem (M : Nat) : ∀ e ∈ quarterEps M, e = 3 ∨ e = 2 := by
  induction M with
  | zero => simp [quarterEps]
  | succ M ih =>
    intro e he
    simp only [quarterEps, List.mem_cons] at he
    rcases he with rfl | rfl | he
    · exact Or.inl rfl
    · exact Or.inr rfl
    · exact ih e he

open Filter Topology in
theorem layer_tendsto (n w : ℝ) (hn : 0 < n) (hw : 0 < w) (t : ℝ → ℝ) (l : Filter ℝ) (ht : Tendsto t l atTop) (Z : ℝ → ℂ) (hZ : Tendsto Z l (𝓝 (w : ℂ))) :
    Tendsto (fun θ => layer n (t θ) (Z θ)) l (𝓝 ((n ^ 2 / w : ℝ) : ℂ)) := by
  have hn' : (n : ℂ) ≠ 0 := by exact_mod_cast hn.ne'
  have hw' : (w : ℂ) ≠ 0 := by exact_mod_cast hw.ne'
  have hinv : Tendsto (fun θ => (((t θ)⁻¹ : ℝ) : ℂ)) l (𝓝 0) := by
    have := (Complex.continuous_ofReal.tendsto 0).comp (tendsto_inv_atTop_zero.comp ht)
    simpa [Function.comp_def] using this
  have hev : ∀ᶠ θ in l, layer n (t θ) (Z θ) = (Z θ * (((t θ)⁻¹ : ℝ) : ℂ) - I * n) / ((((t θ)⁻¹ : ℝ) : ℂ) - I * Z θ / n) := by
    filter_upwards [ht.eventually_gt_atTop 0] with θ hθ
    have ht' : ((t θ : ℝ) : ℂ) ≠ 0 := by exact_mod_cast hθ.ne'
    unfold layer
    rw [← mul_div_mul_right _ _ (inv_ne_zero ht')]
    push_cast
    congr 1
    · field_simp
    · field_simp
  have hlim : Tendsto (fun θ => (Z θ * (((t θ)⁻¹ : ℝ) : ℂ) - I * n) / ((((t θ)⁻¹ : ℝ) : ℂ) - I * Z θ / n)) l (𝓝 (((w : ℂ) * 0 - I * n) / (0 - I * w / n))) := by
    refine Tendsto.div ((hZ.mul hinv).sub_const _) (hinv.sub ((hZ.const_mul I).div_const _)) ?_
    rw [zero_sub]
    exact neg_ne_zero.2 (div_ne_zero (mul_ne_zero I_ne_zero hw') hn')
  have heq : ((w : ℂ) * 0 - I * n) / (0 - I * w / n) = ((n ^ 2 / w : ℝ) : ℂ) := by
    push_cast
    have hI := I_ne_zero
    field_simp
    ring
  rw [heq] at hlim
  exact hlim.congr' (hev.mono fun θ h => h.symm)

theorem braggLayers_quarter (M : Nat) (θ : ℝ) :
    braggLayers (quarterEps M ++ thin θ (quarterEps M)) = (quarterEps M).map fun e => (Real.sqrt e, 600 / (2 * Real.pi * Real.sqrt e) * θ) := by
  have hl : (quarterEps M ++ thin θ (quarterEps M)).length / 2 = (quarterEps M).length := by simp [thin]; omega
  have ht : (thin θ (quarterEps M)).take (quarterEps M).length = thin θ (quarterEps M) := List.take_of_length_le (by simp [thin])
  unfold braggLayers
  rw [hl, List.take_left, List.drop_left, ht]
  generalize quarterEps M = l
  induction l with
  | nil => rfl
  | cons e l ih => simp only [thin, List.map_cons, List.zip_cons_cons] at ih ⊢; rw [ih]

open Filter Topology in
theorem fold_quarter (M : Nat) : Tendsto (fun θ => fold (fun l => Real.tan (2 * Real.pi * l.1 * l.2 / 600)) (braggLayers (quarterEps M ++ thin θ (quarterEps M))) (Real.sqrt 3 : ℝ))
    (𝓝[<] (Real.pi / 2)) (𝓝 ((best (2 * M) : ℝ) : ℂ)) := by
  have htan : Tendsto Real.tan (𝓝[<] (Real.pi / 2)) atTop := Real.tendsto_tan_pi_div_two
  have hang : ∀ e θ : ℝ, 0 < e → 2 * Real.pi * Real.sqrt e * (600 / (2 * Real.pi * Real.sqrt e) * θ) / 600 = θ := by
    intro e θ he
    have := Real.sqrt_pos.2 he
    have := Real.pi_pos
    field_simp
  simp only [braggLayers_quarter]
  induction M with
  | zero =>
    simp only [quarterEps, List.map_nil, fold, List.foldr_nil, best, Nat.mul_zero, pow_zero, mul_one]
    exact tendsto_const_nhds
  | succ M ih =>
    have hb : 0 < best (2 * M) := by
      unfold best
      have := sqrt3_pos
      have : 0 < Real.sqrt 2 := Real.sqrt_pos.2 (by norm_num)
      positivity
    have h2 : 0 < Real.sqrt 2 := Real.sqrt_pos.2 (by norm_num)
    have h3 := sqrt3_pos
    have s1 := layer_tendsto (Real.sqrt 2) _ h2 hb _ _ htan _ ih
    have s2 := layer_tendsto (Real.sqrt 3) _ h3 (by positivity) _ _ htan _ s1
    have e : Real.sqrt 3 ^ 2 / (Real.sqrt 2 ^ 2 / best (2 * M)) = best (2 * (M + 1)) := by
      unfold best
      rw [show 2 * (M + 1) = 2 * M + 2 by ring, pow_add, div_pow (Real.sqrt 3) (Real.sqrt 2) 2]
      field_simp
    rw [e] at s2
    refine s2.congr fun θ => ?_
    simp only [quarterEps, List.map_cons, fold, List.foldr_cons]
    rw [hang 3 θ (by norm_num), hang 2 θ (by norm_num)]

/-- **The bound is the infimum**: with an even number of layers there are points of the domain, as thick as asked for, with values as close to it as one wants. -/
theorem bragg_reached (M : Nat) (ε : ℝ) (hε : 0 < ε) : ∃ X : List ℝ, X.length = 2 * (2 * M) ∧ (∀ e ∈ X.take (2 * M), 2 ≤ e ∧ e ≤ 3) ∧ (∀ h ∈ X.drop (2 * M), 30 ≤ h ∧ h ≤ 180) ∧
    bragg X < 4 * best (2 * M) / (best (2 * M) + 1) ^ 2 + ε := by
  have hb : 0 < best (2 * M) := by
    unfold best
    have := sqrt3_pos
    have : 0 < Real.sqrt 2 := Real.sqrt_pos.2 (by norm_num)
    positivity
  have hcont : ContinuousAt (fun Z : ℂ => (1 - reflected Z * (starRingEnd ℂ) (reflected Z)).re) ((best (2 * M) : ℝ) : ℂ) := by
    have hr : ContinuousAt reflected ((best (2 * M) : ℝ) : ℂ) := by
      unfold reflected
      refine ContinuousAt.div (by fun_prop) (by fun_prop) ?_
      have : (1 + ((best (2 * M) : ℝ) : ℂ)) = ((1 + best (2 * M) : ℝ) : ℂ) := by push_cast; rfl
      rw [this]
      exact_mod_cast (by linarith : (1 + best (2 * M) : ℝ) ≠ 0)
    have hc : ContinuousAt (fun Z : ℂ => (starRingEnd ℂ) (reflected Z)) ((best (2 * M) : ℝ) : ℂ) := Complex.continuous_conj.continuousAt.comp hr
    exact Complex.continuous_re.continuousAt.comp (continuousAt_const.sub (hr.mul hc))
  have hlim := hcont.tendsto.comp (fold_quarter M)
  have hval : (1 - reflected ((best (2 * M) : ℝ) : ℂ) * (starRingEnd ℂ) (reflected ((best (2 * M) : ℝ) : ℂ))).re = 4 * best (2 * M) / (best (2 * M) + 1) ^ 2 := by
    rw [transmitted _ (by simpa using hb)]
    simp only [Complex.ofReal_re, Complex.ofReal_im]
    ring
  rw [hval] at hlim
  have h1 := hlim.eventually (gt_mem_nhds (by linarith : 4 * best (2 * M) / (best (2 * M) + 1) ^ 2 < 4 * best (2 * M) / (best (2 * M) + 1) ^ 2 + ε))
  have h2 : ∀ᶠ θ in nhdsWithin (Real.pi / 2) (Set.Iio (Real.pi / 2)), 1 < θ ∧ θ < Real.pi / 2 := by
    have hpi := Real.pi_gt_three
    filter_upwards [nhdsWithin_le_nhds (lt_mem_nhds (by linarith : (1 : ℝ) < Real.pi / 2)), self_mem_nhdsWithin] with θ ha hb
    exact ⟨ha, hb⟩
  obtain ⟨θ, hθ, hθ1, hθ2⟩ := (h1.and h2).exists
  refine ⟨quarterEps M ++ thin θ (quarterEps M), ?_, ?_, ?_, ?_⟩
  · simp [thin, quarter_length]; omega
  · rw [← quarter_length M, List.take_left]
    intro e he
    rcases quarter_mem M e he with rfl | rfl <;> norm_num
  · rw [← quarter_length M, List.drop_left]
    intro h hh
    obtain ⟨e, he, rfl⟩ := List.mem_map.1 hh
    have hpi := Real.pi_gt_three
    have hpi' := Real.pi_lt_d2
    have hq : 1 ≤ Real.sqrt e ∧ Real.sqrt e ≤ 2 := by
      rcases quarter_mem M e he with rfl | rfl
      · exact ⟨Real.one_le_sqrt.2 (by norm_num), Real.sqrt_le_iff.2 (by norm_num)⟩
      · exact ⟨Real.one_le_sqrt.2 (by norm_num), Real.sqrt_le_iff.2 (by norm_num)⟩
    have hpos : 0 < 2 * Real.pi * Real.sqrt e := by nlinarith
    rw [div_mul_eq_mul_div, le_div_iff₀ hpos, div_le_iff₀ hpos]
    constructor
    · nlinarith
    · nlinarith
  · rw [bragg_eq]
    exact hθ

theorem half_wave_tan (lam n h : ℝ) (hn : 0 < n) (hl : 0 < lam) : Real.tan (2 * Real.pi * n * (h + lam / (2 * n)) / lam) = Real.tan (2 * Real.pi * n * h / lam) := by
  have : 2 * Real.pi * n * (h + lam / (2 * n)) / lam = 2 * Real.pi * n * h / lam + Real.pi := by field_simp
  rw [this, Real.tan_add_pi]

/-- **Half a wave length more of a layer has no effect.** -/
theorem half_wave (lam n h : ℝ) (hn : 0 < n) (hl : 0 < lam) (first : ℝ × ℝ) (pre post : List (ℝ × ℝ)) (Z : ℂ) :
    admittance lam (first :: (pre ++ (n, h + lam / (2 * n)) :: post)) Z = admittance lam (first :: (pre ++ (n, h) :: post)) Z := by
  simp only [admittance, List.tail_cons, List.foldr_append, List.foldr_cons, half_wave_tan lam n h hn hl]

theorem layer_merge (n a b : ℝ) (hn : 0 < n) (ha : Real.cos a ≠ 0) (hb : Real.cos b ≠ 0) (hab : Real.cos (a + b) ≠ 0) (Z : ℂ) (hZ : 0 < Z.re) :
    layer n (Real.tan a) (layer n (Real.tan b) Z) = layer n (Real.tan (a + b)) Z := by
  have hd1 := layer_den n (Real.tan b) hn Z hZ
  have hZ1 := layer_re_pos n (Real.tan b) hn Z hZ
  have hd2 := layer_den n (Real.tan a) hn _ hZ1
  have hd3 := layer_den n (Real.tan (a + b)) hn Z hZ
  have hn' : (n : ℂ) ≠ 0 := by exact_mod_cast hn.ne'
  have htan : Real.tan (a + b) * (1 - Real.tan a * Real.tan b) = Real.tan a + Real.tan b := by
    rw [Real.tan_eq_sin_div_cos, Real.tan_eq_sin_div_cos, Real.tan_eq_sin_div_cos]
    rw [Real.sin_add]
    rw [Real.cos_add] at hab ⊢
    have hab' : Real.cos b * Real.cos a - Real.sin a * Real.sin b ≠ 0 := by rwa [mul_comm (Real.cos b)]
    field_simp
  have hne : 1 - Real.tan a * Real.tan b ≠ 0 := by
    intro h0
    apply hab
    rw [Real.cos_add]
    rw [Real.tan_eq_sin_div_cos, Real.tan_eq_sin_div_cos] at h0
    field_simp at h0
    linarith
  generalize Real.tan a = x at *
  generalize Real.tan b = y at *
  generalize Real.tan (a + b) = z at *
  have hne' : (1 - x * y : ℂ) ≠ 0 := by exact_mod_cast hne
  have hz : (z : ℂ) * (1 - x * y) = x + y := by exact_mod_cast htan
  have hform : ∀ (t : ℝ) (W : ℂ), layer n t W = n * (W - I * n * t) / (n - I * t * W) ∧ (n - I * t * W : ℂ) = n * (1 - I * t * W / n) := by
    intro t W
    have h2 : (n - I * t * W : ℂ) = n * (1 - I * t * W / n) := by field_simp
    exact ⟨by unfold layer; rw [h2, mul_div_mul_left _ _ hn'], h2⟩
  have hD : (n - I * y * Z : ℂ) ≠ 0 := by rw [(hform y Z).2]; exact mul_ne_zero hn' hd1
  have hQ : (n - I * z * Z : ℂ) ≠ 0 := by rw [(hform z Z).2]; exact mul_ne_zero hn' hd3
  have A0 : (Z - I * n * y) - I * x * (n - I * y * Z) = (1 - x * y) * (Z - I * n * z) := by linear_combination (I * n) * hz + x * y * Z * I_sq
  have B0 : (n - I * y * Z) - I * x * (Z - I * n * y) = (1 - x * y) * (n - I * z * Z) := by linear_combination (I * Z) * hz + x * y * n * I_sq
  rw [(hform x _).1, (hform y Z).1, (hform z Z).1]
  generalize (n - I * y * Z : ℂ) = D at *
  generalize (Z - I * n * y : ℂ) = N at *
  have A1 : n * N / D - I * n * x = n * (N - I * x * D) / D := by field_simp
  have B1 : n - I * x * (n * N / D) = n * (D - I * x * N) / D := by field_simp
  rw [A1, B1, A0, B0]
  generalize (n - I * z * Z : ℂ) = Q at *
  generalize (Z - I * n * z : ℂ) = R at *
  generalize (1 - x * y : ℂ) = u at *
  field_simp

/-- **Two neighbouring layers of the same material are one layer** with the sum of their heights, where the tangents are finite. -/
theorem merged (lam n h h' w : ℝ) (hn : 0 < n) (hw : 0 < w) (first : ℝ × ℝ) (pre post : List (ℝ × ℝ)) (hpost : ∀ l ∈ post, 0 < l.1)
    (h1 : Real.cos (2 * Real.pi * n * h / lam) ≠ 0) (h2 : Real.cos (2 * Real.pi * n * h' / lam) ≠ 0) (h3 : Real.cos (2 * Real.pi * n * (h + h') / lam) ≠ 0) :
    admittance lam (first :: (pre ++ (n, h) :: (n, h') :: post)) (w : ℂ) = admittance lam (first :: (pre ++ (n, h + h') :: post)) (w : ℂ) := by
  have hre : ∀ post : List (ℝ × ℝ), (∀ l ∈ post, 0 < l.1) → 0 < (post.foldr (fun l Z => layer l.1 (Real.tan (2 * Real.pi * l.1 * l.2 / lam)) Z) (w : ℂ)).re := by
    intro post
    induction post with
    | nil => intro _; simpa using hw
    | cons l post ih =>
      intro hp
      rw [List.foldr_cons]
      exact layer_re_pos _ _ (hp l (by simp)) _ (ih fun q hq => hp q (List.mem_cons_of_mem _ hq))
  have e : 2 * Real.pi * n * (h + h') / lam = 2 * Real.pi * n * h / lam + 2 * Real.pi * n * h' / lam := by ring
  rw [e] at h3
  simp only [admittance, List.tail_cons, List.foldr_append, List.foldr_cons]
  rw [layer_merge n _ _ hn h1 h2 h3 _ (hre post hpost), e]

/-! ### The chirped mirror -/

theorem chirped_none (X : List ℝ) : chirped X = none ↔ X.length % 2 = 1 := by
  simp only [chirped]
  have : ([0] ++ (List.replicate (X.length / 2) [2, 1]).flatten ++ [2] : List Nat).length = 2 * (X.length / 2) + 2 := by simp; omega
  rw [this]
  have h2 : ([0] ++ X ++ [0]).length = X.length + 2 := by simp
  rw [h2]
  split
  · simp only [true_iff]; omega
  · simp only [reduceCtorEq, false_iff]; omega

/-- The indices of the layers of the chirped mirror. -/
noncomputable def chirpedIdx (M : Nat) : List ℝ := (quarterEps M).map Real.sqrt

theorem chirped_types (M : Nat) : ((List.replicate M [2, 1]).flatten).map index = chirpedIdx M := by
  induction M with
  | zero => rfl
  | succ M ih =>
    simp only [List.replicate_succ, List.flatten_cons, List.map_append, ih]
    simp [chirpedIdx, quarterEps, index]

theorem chirped_eq (X : List ℝ) (M : Nat) (hX : X.length = 2 * M) :
    ∃ c : ℝ → ℝ, chirped X = some ((lambdas.map c).sum / 50) ∧
      ∀ lam, c lam = (1 - reflected (fold (fun l => Real.tan (2 * Real.pi * l.1 * l.2 / lam)) ((chirpedIdx M).zip X) (Real.sqrt 3 : ℝ)) *
        (starRingEnd ℂ) (reflected (fold (fun l => Real.tan (2 * Real.pi * l.1 * l.2 / lam)) ((chirpedIdx M).zip X) (Real.sqrt 3 : ℝ)))).re := by
  refine ⟨_, ?_, fun lam => rfl⟩
  have hlen : (chirpedIdx M).length = X.length := by simp [chirpedIdx, quarter_length, hX]
  have hz : (([0] ++ (List.replicate (X.length / 2) [2, 1]).flatten ++ [2] : List Nat).map index).zip ([0] ++ X ++ [0]) = ((1 : ℝ), (0 : ℝ)) :: ((chirpedIdx M).zip X ++ [(Real.sqrt 3, 0)]) := by
    have e : X.length / 2 = M := by omega
    rw [e, List.map_append, List.map_append, chirped_types, List.append_assoc, List.append_assoc]
    simp only [List.map_cons, List.map_nil, List.singleton_append, List.zip_cons_cons]
    rw [List.zip_append hlen]
    simp [index]
  have hl : ([0] ++ (List.replicate (X.length / 2) [2, 1]).flatten ++ [2] : List Nat).length = ([0] ++ X ++ [0]).length := by simp; omega
  simp only [chirped, hz, admittance_ends]
  rw [if_neg (by rw [hl]; simp)]
  have hfold : ∀ (l : List ℂ) (a : ℂ), l.foldl (· + ·) a = a + l.sum := by
    intro l
    induction l with
    | nil => simp
    | cons x l ih => intro a; rw [List.foldl_cons, ih, List.sum_cons]; ring
  rw [hfold, zero_add]
  have hll : lambdas.length = 50 := by simp [lambdas]
  have hll' : ((lambdas.length : ℕ) : ℂ) = ((50 : ℝ) : ℂ) := by rw [hll]; norm_num
  rw [hll', Complex.div_ofReal_re]
  have hsum : ∀ (l : List ℝ) (r : ℝ → ℂ), 1 * (l.length : ℝ) - (((l.map r).map fun z => z * (starRingEnd ℂ) z).sum).re = (l.map fun lam => (1 - r lam * (starRingEnd ℂ) (r lam)).re).sum := by
    intro l r
    induction l with
    | nil => simp
    | cons x l ih =>
      simp only [List.map_cons, List.sum_cons, List.length_cons, Complex.add_re, Complex.sub_re, Complex.one_re]
      simp only [Complex.sub_re, Complex.one_re] at ih
      rw [← ih]
      push_cast
      ring
  have := hsum lambdas (fun lam => reflected (fold (fun l => Real.tan (2 * Real.pi * l.1 * l.2 / lam)) ((chirpedIdx M).zip X) (Real.sqrt 3 : ℝ)))
  rw [← this, hll]
  norm_num
  ring

/-- **The chirped mirror of an even number of layers transmits between `4 s / (s + 1) ^ 2` with `s = √3 √(3/2) ^ N` and everything**; for an odd number there is an error. -/
theorem chirped_range (X : List ℝ) (hX : X.length % 2 = 0) : ∃ c, chirped X = some c ∧ 4 * best X.length / (best X.length + 1) ^ 2 ≤ c ∧ 0 < c ∧ c ≤ 1 := by
  obtain ⟨M, hM⟩ : ∃ M, X.length = 2 * M := ⟨X.length / 2, by omega⟩
  obtain ⟨c, hc, hcl⟩ := chirped_eq X M hM
  refine ⟨_, hc, ?_⟩
  have h2 : 0 < Real.sqrt 2 := Real.sqrt_pos.2 (by norm_num)
  have h23 : Real.sqrt 2 ≤ Real.sqrt 3 := Real.sqrt_le_sqrt (by norm_num)
  have hfst : ((chirpedIdx M).zip X).map (·.1) = chirpedIdx M := by
    rw [show ((fun x : ℝ × ℝ => x.1)) = Prod.fst from rfl, List.map_fst_zip]
    simp [chirpedIdx, quarter_length, hM]
  have hidx : ∀ n ∈ chirpedIdx M, Real.sqrt 2 ≤ n ∧ n ≤ Real.sqrt 3 := by
    intro n hn
    obtain ⟨e, he, rfl⟩ := List.mem_map.1 hn
    rcases quarter_mem M e he with rfl | rfl
    · exact ⟨h23, le_rfl⟩
    · exact ⟨le_rfl, h23⟩
  have hpos : ∀ l ∈ (chirpedIdx M).zip X, 0 < l.1 := by
    intro l hl
    have : l.1 ∈ ((chirpedIdx M).zip X).map (·.1) := List.mem_map_of_mem hl
    rw [hfst] at this
    exact h2.trans_le (hidx _ this).1
  have hall : ∀ n ∈ (1 : ℝ) :: (chirpedIdx M ++ [Real.sqrt 3]), 0 < n := by
    intro n hn
    rcases List.mem_cons.1 hn with rfl | hn
    · norm_num
    · rcases List.mem_append.1 hn with hn | hn
      · exact h2.trans_le (hidx n hn).1
      · simp only [List.mem_singleton] at hn; rw [hn]; exact sqrt3_pos
  have hs := contrast_ge_one _ hall
  have hle := contrast_air (chirpedIdx M) hidx
  have hlen : (chirpedIdx M).length = X.length := by simp [chirpedIdx, quarter_length, hM]
  rw [hlen] at hle
  have hb1 : 1 ≤ best X.length := hs.trans hle
  have key : ∀ lam, 4 * best X.length / (best X.length + 1) ^ 2 ≤ c lam ∧ c lam ≤ 1 := by
    intro lam
    have hd := fold_disc (fun l => Real.tan (2 * Real.pi * l.1 * l.2 / lam)) 1 (Real.sqrt 3) one_pos sqrt3_pos ((chirpedIdx M).zip X) hpos
    rw [hfst] at hd
    have hs0 := lt_of_lt_of_le one_pos hs
    have hss : 1 / contrast (1 :: (chirpedIdx M ++ [Real.sqrt 3])) ≤ 1 * contrast (1 :: (chirpedIdx M ++ [Real.sqrt 3])) := by
      rw [div_le_iff₀ hs0]; nlinarith
    have hZ := lt_of_lt_of_le (by positivity) (disc_re _ _ _ hss hd).1
    rw [hcl]
    exact ⟨(share_anti _ _ hs hle).trans (transmitted_disc _ hs _ hd), (transmitted_range _ hZ).2⟩
  have hsum : ∀ l : List ℝ, 4 * best X.length / (best X.length + 1) ^ 2 * l.length ≤ (l.map c).sum ∧ (l.map c).sum ≤ l.length := by
    intro l
    induction l with
    | nil => simp
    | cons x l ih =>
      simp only [List.map_cons, List.sum_cons, List.length_cons]
      push_cast
      have := key x
      constructor <;> nlinarith [ih.1, ih.2]
  have h50 := hsum lambdas
  have hll : ((lambdas.length : ℕ) : ℝ) = 50 := by simp [lambdas]
  rw [hll] at h50
  have hposb : 0 < 4 * best X.length / (best X.length + 1) ^ 2 := by positivity
  refine ⟨?_, ?_, ?_⟩
  · rw [le_div_iff₀ (by norm_num)]; exact h50.1
  · have : 0 < (lambdas.map c).sum := by nlinarith [h50.1]
    positivity
  · rw [div_le_one (by norm_num)]; exact h50.2

/-! ### The parametrization -/

/-- **The parametrization exists exactly for the dimensions that are multiples of 2 and of the number of rows**; the array has one row for each kind of variable and starts in the middle of
the bounds. -/
theorem makeInit_spec (p : Name) (dimension : Nat) :
    ((makeInit p dimension).isSome ↔ dimension % 2 = 0 ∧ dimension % p.bounds.length = 0) ∧
    ∀ m, makeInit p dimension = some m → m.length = p.bounds.length ∧ (∀ row ∈ m, row.length * p.bounds.length = dimension) ∧
      ∀ (k : Nat) (row : List ℚ) (b : ℚ × ℚ), m[k]? = some row → p.bounds[k]? = some b → ∀ v ∈ row, b.1 < v ∧ v < b.2 ∧ v - b.1 = b.2 - v := by
  have key : ∀ c : Nat, (p.bounds.map fun b => List.replicate c ((b.1 + b.2) / 2)).length = p.bounds.length ∧
      (∀ row ∈ p.bounds.map fun b => List.replicate c ((b.1 + b.2) / 2), row.length = c) ∧
      ∀ (k : Nat) (row : List ℚ) (b : ℚ × ℚ), (p.bounds.map fun b => List.replicate c ((b.1 + b.2) / 2))[k]? = some row → p.bounds[k]? = some b → ∀ v ∈ row, b.1 < v ∧ v < b.2 ∧ v - b.1 = b.2 - v := by
    intro c
    refine ⟨by simp, ?_, ?_⟩
    · intro row hrow
      obtain ⟨b, -, rfl⟩ := List.mem_map.1 hrow
      simp
    · intro k row b hrow hb v hv
      rw [List.getElem?_map, hb] at hrow
      simp only [Option.map_some, Option.some.injEq] at hrow
      subst hrow
      rw [List.mem_replicate] at hv
      have hlt : b.1 < b.2 := by
        have hm := List.mem_of_getElem? hb
        revert hm
        cases p <;> simp only [Name.bounds, List.mem_cons, List.not_mem_nil, or_false] <;> (try rintro (rfl | rfl | rfl | rfl)) <;> (try rintro (rfl | rfl)) <;> (try rintro rfl) <;> norm_num
      rw [hv.2]
      refine ⟨by linarith, by linarith, by linarith⟩
  have hlen : p.bounds.length = (p.shape dimension).1 := by cases p <;> rfl
  have hform : makeInit p dimension = if dimension % 2 = 0 ∧ dimension % p.bounds.length = 0 then some (p.bounds.map fun b => List.replicate (dimension / p.bounds.length) ((b.1 + b.2) / 2)) else none := by
    cases p <;> simp only [makeInit, Name.shape, Name.bounds, List.length_cons, List.length_nil] <;> norm_num <;> (repeat' split) <;> first | rfl | omega
  rw [hform]
  constructor
  · split <;> simp_all
  · intro m hm
    split at hm
    · rename_i hd
      have hm := Option.some.inj hm
      subst hm
      obtain ⟨k1, k2, k3⟩ := key (dimension / p.bounds.length)
      refine ⟨k1, fun row hrow => ?_, k3⟩
      rw [k2 row hrow]
      exact Nat.div_mul_cancel (Nat.dvd_of_mod_eq_zero hd.2)
    · cases hm

theorem ravel_get {α : Type} (r c : Nat) (M : Nat → Nat → α) (i j : Nat) (hi : i < r) (hj : j < c) : (ravel r c M)[i * c + j]? = some (M i j) := by
  unfold ravel
  induction r generalizing i M with
  | zero => omega
  | succ r ih =>
    rw [List.range_succ_eq_map, List.map_cons, List.flatten_cons, List.map_map]
    rcases i with _ | i
    · rw [List.getElem?_append_left (by simpa using hj)]
      simp [hj]
    · rw [List.getElem?_append_right (by simp; nlinarith)]
      have := ih (fun a b => M (a + 1) b) i (by omega)
      have e : (i + 1) * c + j - ((List.range c).map fun j => M 0 j).length = i * c + j := by
        simp only [List.length_map, List.length_range]
        rw [Nat.add_mul]; omega
      rw [e]
      exact this

theorem ravel_length {α : Type} (r c : Nat) (M : Nat → Nat → α) : (ravel r c M).length = r * c := by
  unfold ravel
  rw [List.length_flatten, List.map_map]
  simp [Function.comp_def, List.map_const']

/-- **Without tuples every problem receives its variables in the slices it reads**: the row `i` of the array is the slice number `i`, of equal lengths. -/
theorem slices {α : Type} (r c : Nat) (M : Nat → Nat → α) (i : Nat) (hi : i < r) : ((ravel r c M).drop (i * c)).take c = (List.range c).map (M i) := by
  apply List.ext_getElem?
  intro j
  by_cases hj : j < c
  · rw [List.getElem?_take_of_lt hj, List.getElem?_drop, ravel_get r c M i j hi hj]
    simp [hj]
  · rw [List.getElem?_eq_none (by simp; omega), List.getElem?_eq_none (by simp; omega)]

theorem ravelTuple_eq {α : Type} (r c : Nat) (M : Nat → Nat → α) : ravelTuple r c M = ravel c r fun j i => M i j := rfl

/-- With `as_tuple` the same holds for the problems with one kind of variables. Missing: the problems with several kinds, for which it is false (`tuple_mixed`). -/
theorem tuple_partial {α : Type} (c : Nat) (M : Nat → Nat → α) : ravelTuple 1 c M = ravel 1 c M := by
  unfold ravelTuple ravel
  simp only [List.range_one, List.map_cons, List.map_nil, List.flatten_cons, List.flatten_nil, List.append_nil]
  generalize List.range c = l
  induction l with
  | nil => rfl
  | cons a l ih => simp only [List.map_cons, List.flatten_cons, ih]; rfl

/-- C127 fails with `as_tuple`: the variables of a layer follow each other, so that in the Bragg problem, with two layers or more and for every point of the domain, the height of the first layer
is taken as the permittivity of the second one, and the array is never the one without tuples. -/
theorem tuple_mixed (c : Nat) (hc : 2 ≤ c) (M : Nat → Nat → ℝ) (h0 : ∀ j < c, 2 ≤ M 0 j ∧ M 0 j ≤ 3) (h1 : ∀ j < c, 30 ≤ M 1 j ∧ M 1 j ≤ 180) :
    ((ravelTuple 2 c M).take c)[1]? = some (M 1 0) ∧ ((ravel 2 c M).take c)[1]? = some (M 0 1) ∧ ravelTuple 2 c M ≠ ravel 2 c M := by
  have a : (ravelTuple 2 c M)[1]? = some (M 1 0) := by
    have := ravel_get c 2 (fun j i => M i j) 0 1 (by omega) (by omega)
    simpa [ravelTuple_eq] using this
  have b : (ravel 2 c M)[1]? = some (M 0 1) := by
    have := ravel_get 2 c M 0 1 (by omega) (by omega)
    simpa using this
  refine ⟨by rw [List.getElem?_take_of_lt (by omega)]; exact a, by rw [List.getElem?_take_of_lt (by omega)]; exact b, fun h => ?_⟩
  rw [h, b] at a
  have := Option.some.inj a
  have h2 := (h0 1 (by omega)).2
  have h3 := (h1 0 (by omega)).1
  linarith

/-- **Errors and `nan` are infinite losses**, other values are unchanged. -/
theorem compute_spec (f : List ℝ → Option (Option ℝ)) (x : List ℝ) : (∀ y : ℝ, compute f x = y ↔ f x = some (some y)) ∧ (compute f x = ⊤ ↔ f x = none ∨ f x = some none) := by
  unfold compute
  rcases f x with _ | _ | y
  · simp
  · simp
  · simp

/-- The fifty wave lengths go from 500 to 800 by equal steps. -/
theorem lambdas_spec : lambdas.length = 50 ∧ lambdas[0]? = some 500 ∧ lambdas[49]? = some 800 ∧
    ∃ step : ℝ, ∀ (k : Nat) (a b : ℝ), lambdas[k]? = some a → lambdas[k + 1]? = some b → b - a = step := by
  refine ⟨by simp [lambdas], by simp [lambdas, List.getElem?_map, List.getElem?_range], ?_, 300 / 49, ?_⟩
  · simp only [lambdas, List.getElem?_map]
    rw [List.getElem?_range (by norm_num)]
    norm_num
  · intro k a b ha hb
    simp only [lambdas, List.getElem?_map, Option.map_eq_some_iff] at ha hb
    obtain ⟨i, hi, rfl⟩ := ha
    obtain ⟨j, hj, rfl⟩ := hb
    rw [List.getElem?_eq_some_iff] at hi hj
    obtain ⟨_, hi⟩ := hi
    obtain ⟨_, hj⟩ := hj
    rw [List.getElem_range] at hi hj
    subst hi hj
    push_cast
    ring

/-- The ranges: thicknesses of layers from 30 to 180 in the four problems of layers, permittivities from 2 to 3 for the mirror and from 1 to 9 for the realistic cell, and the four rows of the morpho problem. -/
theorem bounds_spec : (∀ p : Name, p ≠ .morpho → p.bounds.getLast? = some (30, 180)) ∧
    Name.bragg.bounds.head? = some (2, 3) ∧ Name.realistic.bounds.head? = some (1, 9) ∧
    Name.morpho.bounds = [(0, 300), (0, 600), (30, 600), (0, 300)] ∧
    ∀ p : Name, p.bounds.length = match p with | .bragg | .realistic => 2 | .reference | .chirped => 1 | .morpho => 4 := by
  refine ⟨?_, rfl, rfl, rfl, ?_⟩
  · intro p hp; cases p <;> first | rfl | exact absurd rfl hp
  · intro p; cases p <;> rfl

/-! ### The calls of `ceviche` -/

section
variable {α D S : Type} [Field α] [LinearOrder α] [IsStrictOrderedRing α] [DecidableEq S]
variable (shapeOf : Nat → S) (shape : D → S) (power : Nat → D → Nat → Nat → Nat → Option α)

/-- The losses are between 0 and 1 when the powers are those of a passive device. -/
theorem loss_range (b m : Nat) (x : D) (y : α) (h : loss power b m x = some y)
    (hp : ∀ i j k p, power m x i j k = some p → 0 ≤ p ∧ p ≤ 1) : 0 ≤ y ∧ y ≤ 1 := by
  unfold loss at h
  split at h
  · obtain ⟨p, hp1, rfl⟩ := Option.map_eq_some_iff.1 h
    have := hp _ _ _ _ hp1
    constructor <;> linarith
  · split at h
    · simp only [Option.bind_eq_bind, Option.bind_eq_some_iff, Option.pure_def, Option.some.injEq] at h
      obtain ⟨p, hp1, q, hq, rfl⟩ := h
      have h1 := hp _ _ _ _ hp1
      have h2 := hp _ _ _ _ hq
      refine ⟨by positivity, ?_⟩
      have a : |p - 1 / 2| ≤ 1 / 2 := abs_le.2 ⟨by linarith, by linarith⟩
      have b : |q - 1 / 2| ≤ 1 / 2 := abs_le.2 ⟨by linarith, by linarith⟩
      linarith
    · split at h
      · simp only [Option.bind_eq_bind, Option.bind_eq_some_iff, Option.pure_def, Option.some.injEq] at h
        obtain ⟨p, hp1, q, hq, rfl⟩ := h
        have h1 := hp _ _ _ _ hp1
        have h2 := hp _ _ _ _ hq
        constructor <;> linarith
      · simp at h

/-- The loss of each problem is zero exactly for a device that sends all the power where it should go: all to the port 1 (problems 0 and 2), half to each of the ports 1 and 2 (problem 1), and all of the first wave length to the port 1 and of the second one to the port 2 (problem 3). -/
theorem loss_zero (m : Nat) (x : D) (hp : ∀ i j k p, power m x i j k = some p → 0 ≤ p ∧ p ≤ 1) :
    (loss power 0 m x = some 0 ↔ power m x 0 0 1 = some 1) ∧
    (loss power 2 m x = some 0 ↔ power m x 0 0 1 = some 1) ∧
    (loss power 1 m x = some 0 ↔ power m x 0 0 1 = some (1 / 2) ∧ power m x 0 0 2 = some (1 / 2)) ∧
    (loss power 3 m x = some 0 ↔ power m x 0 0 1 = some 1 ∧ power m x 1 0 2 = some 1) := by
  have one : (power m x 0 0 1).map (fun p => 1 - p) = some 0 ↔ power m x 0 0 1 = some 1 := by
    rw [Option.map_eq_some_iff]
    constructor
    · rintro ⟨p, h1, h2⟩
      rw [h1, show p = 1 by linarith]
    · intro h
      exact ⟨1, h, by ring⟩
  refine ⟨one, one, ?_, ?_⟩
  · show ((power m x 0 0 1).bind fun p => (power m x 0 0 2).bind fun q => some (|p - 1 / 2| + |q - 1 / 2|)) = some 0 ↔ _
    simp only [Option.bind_eq_some_iff, Option.some.injEq]
    constructor
    · rintro ⟨p, h1, q, h2, h⟩
      have a := abs_nonneg (p - 1 / 2)
      have b := abs_nonneg (q - 1 / 2)
      have a' : p - 1 / 2 = 0 := abs_eq_zero.1 (by linarith)
      have b' : q - 1 / 2 = 0 := abs_eq_zero.1 (by linarith)
      rw [h1, h2, show p = 1 / 2 by linarith, show q = 1 / 2 by linarith]
      exact ⟨rfl, rfl⟩
    · rintro ⟨h1, h2⟩
      exact ⟨_, h1, _, h2, by simp⟩
  · show ((power m x 0 0 1).bind fun p => (power m x 1 0 2).bind fun q => some (1 - (p + q) / 2)) = some 0 ↔ _
    simp only [Option.bind_eq_some_iff, Option.some.injEq]
    constructor
    · rintro ⟨p, h1, q, h2, h⟩
      have a := hp _ _ _ _ h1
      have b := hp _ _ _ _ h2
      rw [h1, h2, show p = 1 by linarith, show q = 1 by linarith]
      exact ⟨rfl, rfl⟩
    · rintro ⟨h1, h2⟩
      exact ⟨_, h1, _, h2, by norm_num⟩

/-- What a call should give, whatever was called before. -/
def spec (b : Nat) (x : Arg D) : Res α S :=
  if b < 4 then
    match x with
    | .nothing => .shape (shapeOf b)
    | .name => .label b
    | .design d => if shape d = shapeOf b then (match loss power b b d with
      | none => .error
      | some y => .value y) else .error
  else .error

/-- A call is right if it asks for a shape or a name, if nothing was evaluated before, or if the last model is the one of the problem. -/
theorem call_right (g : Globals) (b : Nat) (hb : b < 4) (x : Arg D) (h : g.first = true ∨ g.model = some b ∨ x = .nothing ∨ x = .name) :
    (ceviche shapeOf shape power g b x).2 = spec shapeOf shape power b x := by
  obtain ⟨first, model⟩ := g
  cases x with
  | nothing => simp [ceviche, spec, hb]
  | name => simp [ceviche, spec, hb]
  | design d =>
    have hm : (if (first || false) && decide (b < 4) then some b else model) = some b := by
      rcases h with h | h | h | h
      · simp only at h; simp [h, hb]
      · simp only at h; rw [h]; split <;> rfl
      · cases h
      · cases h
    simp only [ceviche, spec]
    rw [hm, if_pos hb]
    simp only
    by_cases hs : shape d = shapeOf b
    · simp only [hs, ne_eq, not_true_eq_false, if_false, if_true]
      cases loss power b b d <;> rfl
    · simp only [hs, ne_eq, not_false_eq_true, if_true, if_false]

theorem call_model (g : Globals) (b : Nat) (hb : b < 4) (x : Arg D) (h : g.first = true ∨ g.model = some b ∨ x = .nothing) : (ceviche shapeOf shape power g b x).1.model = some b := by
  obtain ⟨first, model⟩ := g
  have hm : ∀ q : Bool, (first = true ∨ model = some b ∨ q = true) → (if (first || q) && decide (b < 4) then some b else model) = some b := by
    intro q hq
    rcases hq with h | h | h
    · simp [h, hb]
    · rw [h]; split <;> rfl
    · simp [h, hb]
  cases x with
  | nothing => exact hm true (Or.inr (Or.inr rfl))
  | name => exact hm false (by rcases h with h | h | h; exacts [Or.inl h, Or.inr (Or.inl h), by cases h])
  | design d =>
    have := hm false (by rcases h with h | h | h; exacts [Or.inl h, Or.inr (Or.inl h), by cases h])
    simp only [ceviche]
    rw [this]
    simp only
    split
    · rfl
    · split <;> rfl

/-- C127, as far as it holds: **as long as all calls are about one problem, all results are those of this problem**, also when other problems were evaluated before, provided that the first call asks for
the shape. Missing: evaluations of another problem, for which it is false (`stale`). -/
theorem one_problem_partial (g : Globals) (b : Nat) (hb : b < 4) (h : g.first = true ∨ g.model = some b) (xs : List (Arg D)) :
    (calls shapeOf shape power g (xs.map fun x => (b, x))).2 = xs.map (spec shapeOf shape power b) := by
  induction xs generalizing g with
  | nil => rfl
  | cons x xs ih =>
    have hr := call_right shapeOf shape power g b hb x (by tauto)
    have hm := call_model shapeOf shape power g b hb x (by tauto)
    simp only [List.map_cons, calls]
    rw [hr, ih _ (Or.inr hm)]

theorem after_shape (g : Globals) (b : Nat) (hb : b < 4) (xs : List (Arg D)) :
    (calls shapeOf shape power g (((Arg.nothing : Arg D) :: xs).map fun x => (b, x))).2 = (Arg.nothing :: xs).map (spec shapeOf shape power b) := by
  have hr := call_right shapeOf shape power g b hb Arg.nothing (by tauto)
  have hm := call_model shapeOf shape power g b hb Arg.nothing (by tauto)
  simp only [List.map_cons, calls]
  rw [hr]
  have := one_problem_partial shapeOf shape power (ceviche shapeOf shape power g b Arg.nothing).1 b hb (Or.inr hm) xs
  rw [this]

/-- C127 fails for a second problem: after an evaluation of the problem `b`, an evaluation of another problem `b'` takes the formula of `b'` with the device of `b`. -/
theorem stale (b b' : Nat) (hb : b < 4) (d d' : D) (y y' : α) (hd : shape d = shapeOf b) (hy : loss power b b d = some y) (hd' : shape d' = shapeOf b) (hy' : loss power b' b d' = some y') :
    (calls shapeOf shape power ⟨true, none⟩ [(b, .design d), (b', .design d')]).2 = [Res.value y, Res.value y'] := by
  simp [calls, ceviche, hb, hd, hy, hd', hy']

end

/-- A device of problem 2 that sends everything to the right port, evaluated after one of problem 0 that does not: the loss is 1 and not 0. -/
example : let shapeOf : Nat → Nat := fun _ => 4
    let power : Nat → Nat → Nat → Nat → Nat → Option ℚ := fun m _ _ _ _ => if m = 2 then some 1 else some 0
    (calls shapeOf id power ⟨true, none⟩ [(0, .design 4), (2, .design 4)]).2 = [Res.value 1, Res.value 1] ∧ (spec shapeOf id power 2 (.design 4) : Res ℚ Nat) = .value 0 := by decide +kernel

example : ravelTuple 2 2 (fun i j => 10 * i + j) = [0, 10, 1, 11] ∧ ravel 2 2 (fun i j => 10 * i + j) = [0, 1, 10, 11] := by decide
example : makeInit .bragg 4 = some [[5 / 2, 5 / 2], [105, 105]] ∧ makeInit .morpho 6 = none := by decide +kernel
example : bragg [] = 4 * Real.sqrt 3 / (Real.sqrt 3 + 1) ^ 2 := by
  have h := transmitted (Real.sqrt 3 : ℝ) (by simpa using sqrt3_pos)
  rw [bragg_eq]
  simp only [braggLayers, fold, List.length_nil, Nat.zero_div, List.take_nil, List.drop_nil, List.map_nil, List.zip_nil_left, List.foldr_nil]
  rw [h]
  simp only [Complex.ofReal_re, Complex.ofReal_im]
  ring

end NG.Photonics
