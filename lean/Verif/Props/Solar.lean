/-
C128: the solar cell problems: the absorbed share of the light and the cost are numbers between 0 and 1, and the energy is conserved.
-/
import Verif.Lemmas.Solar
import Mathlib.Analysis.Real.Pi.Bounds
import Mathlib.LinearAlgebra.Matrix.SchurComplement
import Mathlib.Tactic.NoncommRing

set_option linter.unusedSectionVars false

namespace NG.Solar

open Complex

variable {γ : Nat → ℂ} {h : Nat → ℝ} {g : Nat}

theorem poynting_eq (hc : Clear γ g) (j : Nat) : poynting γ h g j = flow γ (j / 2) (down γ h g j) (up γ h g j) / (γ 0).re := by
  have h0 : γ 0 = ((γ 0).re : ℂ) := by
    apply Complex.ext
    · simp
    · simpa using hc.im 0 (by have := hc.two; omega)
  rw [poynting, w_eq, flow]
  conv_lhs => rw [h0]
  rw [div_ofReal_re]

/-- The energy that flows through a place is the same for all the places above the last layer. -/
theorem flow_const (hc : Clear γ g) : ∀ j, j ≤ 2 * g - 2 → poynting γ h g j = poynting γ h g 0 := by
  intro j
  induction j with
  | zero => intro _; rfl
  | succ j ih =>
    intro hj
    rw [← ih (by omega), poynting_eq hc, poynting_eq hc]
    obtain ⟨e1, e2⟩ := fields (h := h) hc (j := j) (by omega)
    congr 1
    rcases Nat.even_or_odd' j with ⟨k, rfl | rfl⟩
    · rw [T_prop] at e1 e2
      have a1 : (2 * k + 1) / 2 = k := by omega
      have a2 : 2 * k / 2 = k := by omega
      rw [a1, a2]
      refine (flow_prop (h := h) (hc.im k (by omega)) ?_ ?_).symm
      · rw [e1]; simp [prop]
      · rw [e2]; simp [prop]
    · rw [show 2 * k + 1 + 1 = 2 * k + 2 from rfl, T_iface] at e1 e2
      have a1 : (2 * k + 1) / 2 = k := by omega
      have a2 : (2 * k + 2) / 2 = k + 1 := by omega
      rw [show 2 * k + 1 + 1 = 2 * k + 2 from rfl, a1, a2]
      obtain ⟨f1, f2⟩ := flow_iface (iface_refl hc (k := k) (by omega)).2.2 e1 e2
      rw [flow, flow, f1, f2]

/-- The share of the light that is reflected. -/
noncomputable def reflectance (γ : Nat → ℂ) (h : Nat → ℝ) (g : Nat) : ℝ := ‖up γ h g 0‖ ^ 2

theorem down_zero : down γ h g 0 = 1 ∨ 2 * g - 1 = 0 := by
  by_cases hg : 0 < 2 * g - 1
  · left
    rw [down, if_pos hg]
    simp [A, T, swap]
  · right; omega

/-- The energy that enters is what is not reflected. -/
theorem flow_first (hc : Clear γ g) : poynting γ h g 0 = 1 - reflectance γ h g := by
  have h2 := hc.two
  have hd : down γ h g 0 = 1 := by
    rcases down_zero (γ := γ) (h := h) (g := g) with h1 | h1
    · exact h1
    · omega
  have hi := hc.im 0 (by omega)
  have hr := hc.re 0 (by omega)
  rw [poynting_eq hc, hd, flow, reflectance, ← normSq_eq_norm_sq, normSq_apply, div_eq_iff hr.ne']
  simp [hi]
  ring

/-- The reflected share is less than one. -/
theorem reflectance_lt (hc : Clear γ g) : 0 ≤ reflectance γ h g ∧ reflectance γ h g < 1 := by
  have h2 := hc.two
  refine ⟨by rw [reflectance]; positivity, ?_⟩
  have hd : down γ h g 0 = 1 := by
    rcases down_zero (γ := γ) (h := h) (g := g) with h1 | h1
    · exact h1
    · omega
  have hu : up γ h g 0 = below γ h g 0 := by
    rw [up_eq (by omega), hd, mul_one]
  have := below_lt (h := h) hc (2 * g - 3) 0 (by omega)
  rw [reflectance, hu]
  nlinarith [norm_nonneg (below γ h g 0)]

/-- The transparent layers absorb nothing. -/
theorem absorb_clear (hc : Clear γ g) {m : Nat} (hm : m < g - 1) : absorb γ h g m = 0 := by
  rw [absorb, flow_const hc (2 * m + 1) (by omega), flow_const hc (2 * m) (by omega)]
  simp

/-- **C128.** The last layer absorbs the light that enters, less what is left at its end. -/
theorem absorb_last (hc : Clear γ g) (hi : 0 ≤ (γ (g - 1)).im) (hh : 0 ≤ h (g - 1)) :
    absorb γ h g (g - 1) = (1 - reflectance γ h g) * (1 - Real.exp (-(2 * (γ (g - 1)).im * h (g - 1)))) := by
  have h2 := hc.two
  have e1 := flow_const (h := h) hc (2 * g - 2) le_rfl
  rw [flow_first hc] at e1
  have hu : up γ h g (2 * g - 2) = 0 := by rw [up_eq (by omega), below_last hc.two, zero_mul]
  have hu' : up γ h g (2 * g - 1) = 0 := by rw [up, if_neg (by omega)]
  have hd' : down γ h g (2 * g - 1) = down γ h g (2 * g - 2) * phase γ h (g - 1) := by
    rw [down, down, if_neg (by omega), if_pos (by omega)]
  have a1 : (2 * g - 2) / 2 = g - 1 := by omega
  have a2 : (2 * g - 1) / 2 = g - 1 := by omega
  have hf : ∀ a : ℂ, flow γ (g - 1) a 0 = ‖a‖ ^ 2 * (γ (g - 1)).re := by
    intro a
    rw [flow, ← normSq_eq_norm_sq, normSq_apply]
    simp
    ring
  have e2 : poynting γ h g (2 * g - 1) = (1 - reflectance γ h g) * Real.exp (-(2 * (γ (g - 1)).im * h (g - 1))) := by
    rw [poynting_eq hc, a1, hu, hf] at e1
    rw [poynting_eq hc, a2, hu', hf, hd', norm_mul, norm_phase, ← e1, mul_pow, ← Real.exp_nat_mul]
    have : ((2 : ℕ) : ℝ) * -((γ (g - 1)).im * h (g - 1)) = -(2 * (γ (g - 1)).im * h (g - 1)) := by push_cast; ring
    rw [this]; ring
  have hr := reflectance_lt (h := h) hc
  have he : Real.exp (-(2 * (γ (g - 1)).im * h (g - 1))) ≤ 1 := Real.exp_le_one_iff.2 (by nlinarith [mul_nonneg hi hh])
  have m1 : 2 * (g - 1) + 1 = 2 * g - 1 := by omega
  have m2 : 2 * (g - 1) = 2 * g - 2 := by omega
  rw [absorb, m1, m2, e1, e2, abs_of_nonneg]
  · ring
  · nlinarith [mul_nonneg (sub_nonneg.2 hr.2.le) (sub_nonneg.2 he)]

/-- **C128.** The reflected share, the absorbed shares of all the layers and the share that is left at the end make one. -/
theorem energy (hc : Clear γ g) (hi : 0 ≤ (γ (g - 1)).im) (hh : 0 ≤ h (g - 1)) :
    reflectance γ h g + ((List.range g).map (absorb γ h g)).sum + poynting γ h g (2 * g - 1) = 1 := by
  have h2 := hc.two
  obtain ⟨n, rfl⟩ : ∃ n, g = n + 1 := ⟨g - 1, by omega⟩
  rw [List.range_succ, List.map_append, List.sum_append]
  have hz : ((List.range n).map (absorb γ h (n + 1))).sum = 0 := by
    rw [List.sum_eq_zero]
    intro x hx
    obtain ⟨m, hm, rfl⟩ := List.mem_map.1 hx
    exact absorb_clear hc (by simpa using hm)
  have hl := absorb_last hc hi hh
  rw [hz]
  simp only [Nat.add_sub_cancel, List.map_cons, List.map_nil, List.sum_cons, List.sum_nil] at hl ⊢
  rw [hl]
  have e1 := flow_const (h := h) hc (2 * (n + 1) - 2) le_rfl
  have hp : poynting γ h (n + 1) (2 * (n + 1) - 1) = (1 - reflectance γ h (n + 1)) * Real.exp (-(2 * (γ n).im * h n)) := by
    have hu : up γ h (n + 1) (2 * (n + 1) - 2) = 0 := by rw [up_eq (by omega), below_last hc.two, zero_mul]
    have hu' : up γ h (n + 1) (2 * (n + 1) - 1) = 0 := by rw [up, if_neg (by omega)]
    have hd' : down γ h (n + 1) (2 * (n + 1) - 1) = down γ h (n + 1) (2 * (n + 1) - 2) * phase γ h n := by
      rw [down, down, if_neg (by omega), if_pos (by omega)]; rfl
    have a1 : (2 * (n + 1) - 2) / 2 = n := by omega
    have a2 : (2 * (n + 1) - 1) / 2 = n := by omega
    have hf : ∀ a : ℂ, flow γ n a 0 = ‖a‖ ^ 2 * (γ n).re := by
      intro a
      rw [flow, ← normSq_eq_norm_sq, normSq_apply]
      simp
      ring
    rw [flow_first hc, poynting_eq hc, a1, hu, hf] at e1
    rw [poynting_eq hc, a2, hu', hf, hd', norm_mul, norm_phase, ← e1, mul_pow, ← Real.exp_nat_mul]
    have : ((2 : ℕ) : ℝ) * -((γ n).im * h n) = -(2 * (γ n).im * h n) := by push_cast; ring
    rw [this]; ring
  rw [hp]
  ring

/-- A share is a number between 0 and 1. -/
theorem absorb_range (hc : Clear γ g) (hi : 0 ≤ (γ (g - 1)).im) (hh : 0 ≤ h (g - 1)) : 0 ≤ absorb γ h g (g - 1) ∧ absorb γ h g (g - 1) < 1 := by
  refine ⟨abs_nonneg _, ?_⟩
  rw [absorb_last hc hi hh]
  have hr := reflectance_lt (h := h) hc
  have he : Real.exp (-(2 * (γ (g - 1)).im * h (g - 1))) ≤ 1 := Real.exp_le_one_iff.2 (by nlinarith [mul_nonneg hi hh])
  have he0 := Real.exp_pos (-(2 * (γ (g - 1)).im * h (g - 1)))
  rcases eq_or_lt_of_le hr.1 with h0 | h0
  · rw [← h0]; linarith
  · nlinarith

/-- Two media: the law of Fresnel. -/
theorem bare (h0 : h 0 = 0) : reflectance γ h 2 = ‖(γ 0 - γ 1) / (γ 0 + γ 1)‖ ^ 2 := by
  have hd : down γ h 2 0 = 1 := by
    rcases down_zero (γ := γ) (h := h) (g := 2) with h1 | h1
    · exact h1
    · omega
  have b1 : below γ h 2 1 = (γ 0 - γ 1) / (γ 0 + γ 1) := by
    rw [below_step (by omega), show 1 + 1 = 2 * 2 - 2 from rfl, below_last (by omega)]
    have : T γ h (2 * 2 - 2) = iface γ 0 := T_iface 0
    rw [this]; simp [iface]
  have b0 : below γ h 2 0 = below γ h 2 1 := by
    rw [below_step (by omega)]
    have : T γ h (0 + 1) = prop γ h 0 := T_prop 0
    rw [this]
    simp [prop, phase, h0]
  rw [reflectance, up_eq (by omega), hd, mul_one, b0, b1]

/-! ### The permittivities -/

theorem sqrt_eq (z : ℂ) : (z ^ (1 / 2 : ℂ)) ^ 2 = z := by
  rw [← cpow_nat_mul]; norm_num

theorem sqrt_re_nonneg (z : ℂ) : 0 ≤ (z ^ (1 / 2 : ℂ)).re := by
  rw [one_div]
  by_cases hz : z = 0
  · subst hz; rw [zero_cpow (by norm_num)]; simp
  rw [cpow_def_of_ne_zero hz, exp_re]
  apply mul_nonneg (Real.exp_nonneg _)
  apply Real.cos_nonneg_of_mem_Icc
  have h1 := neg_pi_lt_arg z
  have h2 := arg_le_pi z
  have e : (log z * 2⁻¹).im = arg z / 2 := by
    simp [mul_im, log_im]; ring
  rw [e]
  constructor <;> linarith

/-- The root of a permittivity with a positive imaginary part or with a positive real part. -/
theorem sqrt_spec {z : ℂ} (him : 0 ≤ z.im) (hz : 0 < z.re ∨ 0 < z.im) : 0 < (z ^ (1 / 2 : ℂ)).re ∧ 0 ≤ (z ^ (1 / 2 : ℂ)).im := by
  have h1 := sqrt_eq z
  have h0 := sqrt_re_nonneg z
  generalize z ^ (1 / 2 : ℂ) = s at *
  have hre := congrArg re h1
  have him' := congrArg im h1
  simp only [sq, mul_re, mul_im] at hre him'
  have hpos : 0 < s.re := by
    rcases eq_or_lt_of_le h0 with h2 | h2
    · exfalso
      rw [← h2] at hre him'
      rcases hz with hz | hz
      · nlinarith [mul_self_nonneg s.im]
      · linarith
    · exact h2
  refine ⟨hpos, ?_⟩
  by_contra hneg
  push Not at hneg
  nlinarith

theorem sqrt_real {x : ℝ} (hx : 0 ≤ x) : ((x : ℂ) ^ (1 / 2 : ℂ)) = (Real.sqrt x : ℂ) := by
  rw [Real.sqrt_eq_rpow, ofReal_cpow hx]; norm_num

/-- With positive permittivities between air and a last layer that absorbs, the layers before the last one are transparent. -/
theorem gamma_clear {k0 : ℝ} (hk : 0 < k0) {eps : Nat → ℂ} (hg : 2 ≤ g) (hr : ∀ k, k < g - 1 → (eps k).im = 0 ∧ 0 < (eps k).re)
    (hl : 0 ≤ (eps (g - 1)).im ∧ (0 < (eps (g - 1)).re ∨ 0 < (eps (g - 1)).im)) :
    Clear (gamma k0 g eps) g ∧ 0 ≤ (gamma k0 g eps (g - 1)).im := by
  have key : ∀ k, 0 ≤ (eps k).im ∧ (0 < (eps k).re ∨ 0 < (eps k).im) →
      gamma k0 g eps k = (eps k * (k0 : ℂ) ^ 2) ^ (1 / 2 : ℂ) ∧ 0 < (gamma k0 g eps k).re ∧ 0 ≤ (gamma k0 g eps k).im := by
    intro k hk'
    have e : (eps k * (k0 : ℂ) ^ 2).re = (eps k).re * k0 ^ 2 ∧ (eps k * (k0 : ℂ) ^ 2).im = (eps k).im * k0 ^ 2 := by
      rw [← ofReal_pow]
      exact ⟨re_mul_ofReal _ _, im_mul_ofReal _ _⟩
    have hs := sqrt_spec (z := eps k * (k0 : ℂ) ^ 2) (by rw [e.2]; have := hk'.1; positivity)
      (by rw [e.1, e.2]; rcases hk'.2 with h1 | h1
          · left; positivity
          · right; positivity)
    have hg : gamma k0 g eps k = (eps k * (k0 : ℂ) ^ 2) ^ (1 / 2 : ℂ) := by
      simp only [gamma]
      rw [if_neg]
      rintro ⟨-, -, h3⟩
      linarith [hs.2]
    rw [hg]
    exact ⟨rfl, hs⟩
  have hlast := key (g - 1) hl
  refine ⟨⟨hg, ?_, fun k hk' => (key k ⟨(hr k hk').1.ge, Or.inl (hr k hk').2⟩).2.1, hlast.2.1⟩, hlast.2.2⟩
  intro k hk'
  rw [(key k ⟨(hr k hk').1.ge, Or.inl (hr k hk').2⟩).1]
  have e : eps k * (k0 : ℂ) ^ 2 = (((eps k).re * k0 ^ 2 : ℝ) : ℂ) := by
    apply Complex.ext
    · rw [← ofReal_pow, re_mul_ofReal, ofReal_re]
    · rw [← ofReal_pow, im_mul_ofReal, (hr k hk').1, ofReal_im, zero_mul]
  rw [e, sqrt_real (by have := (hr k hk').2; positivity)]
  simp

/-- The transparent layers of a stack and their number do not matter: the share that silicon absorbs is between 0 and 1. -/
theorem share_range {si : ℝ → ℂ} {eps hs : List ℝ} {lam : ℝ} (hlam : 0 < lam) (he : ∀ e ∈ eps, 0 < e) (hlen : hs.length = eps.length)
    (hsi : 0 ≤ (si lam).im ∧ (0 < (si lam).re ∨ 0 < (si lam).im)) : 0 ≤ share si eps hs lam ∧ share si eps hs lam < 1 := by
  have hpos : 0 < 2 * Real.pi / lam := by have := Real.pi_pos; positivity
  have hl : ([1] ++ eps.map (fun (e : ℝ) => (e : ℂ)) ++ [si lam]).getD (eps.length + 2 - 1) 0 = si lam := by
    simp [List.getD_eq_getElem?_getD, List.getElem?_append]
  have hh : ([0] ++ hs ++ [(30000 : ℝ)]).getD (eps.length + 2 - 1) 0 = 30000 := by
    simp [List.getD_eq_getElem?_getD, List.getElem?_append, hlen]
  obtain ⟨hc, him⟩ := gamma_clear (g := eps.length + 2) hpos (eps := fun k => ([1] ++ eps.map (fun (e : ℝ) => (e : ℂ)) ++ [si lam]).getD k 0) (by omega)
    (by
      intro k hk
      rcases k with _ | k
      · simp
      · have hk' : k < eps.length := by omega
        have : ([1] ++ eps.map (fun (e : ℝ) => (e : ℂ)) ++ [si lam]).getD (k + 1) 0 = ((eps[k] : ℝ) : ℂ) := by
          simp [List.getD_eq_getElem?_getD, List.getElem?_append, hk']
        show (([1] ++ eps.map (fun (e : ℝ) => (e : ℂ)) ++ [si lam]).getD (k + 1) 0).im = 0 ∧ 0 < (([1] ++ eps.map (fun (e : ℝ) => (e : ℂ)) ++ [si lam]).getD (k + 1) 0).re
        rw [this]
        exact ⟨ofReal_im _, by rw [ofReal_re]; exact he _ (List.getElem_mem _)⟩)
    (by beta_reduce; rw [hl]; exact hsi)
  exact absorb_range hc him (by beta_reduce; rw [hh]; norm_num)

/-- The share for any layers: `n` is the index of silicon, the root of its permittivity, and the depth is 30000. -/
theorem share_formula {si : ℝ → ℂ} {eps hs : List ℝ} {lam : ℝ} (hlam : 0 < lam) (he : ∀ e ∈ eps, 0 < e) (hlen : hs.length = eps.length)
    (hsi : 0 ≤ (si lam).im ∧ (0 < (si lam).re ∨ 0 < (si lam).im)) :
    ∃ n : ℂ, n ^ 2 = si lam ∧ 0 < n.re ∧ 0 ≤ n.im ∧ ∃ R : ℝ, 0 ≤ R ∧ R < 1 ∧ (eps = [] → R = ‖(1 - n) / (1 + n)‖ ^ 2) ∧
      share si eps hs lam = (1 - R) * (1 - Real.exp (-(4 * Real.pi * n.im * 30000 / lam))) := by
  have hpos : 0 < 2 * Real.pi / lam := by have := Real.pi_pos; positivity
  have hl : ([1] ++ eps.map (fun (e : ℝ) => (e : ℂ)) ++ [si lam]).getD (eps.length + 2 - 1) 0 = si lam := by
    simp [List.getD_eq_getElem?_getD, List.getElem?_append]
  have hh : ([0] ++ hs ++ [(30000 : ℝ)]).getD (eps.length + 2 - 1) 0 = 30000 := by
    simp [List.getD_eq_getElem?_getD, List.getElem?_append, hlen]
  obtain ⟨hc, him⟩ := gamma_clear (g := eps.length + 2) hpos (eps := fun k => ([1] ++ eps.map (fun (e : ℝ) => (e : ℂ)) ++ [si lam]).getD k 0) (by omega)
    (by
      intro k hk
      rcases k with _ | k
      · simp
      · have hk' : k < eps.length := by omega
        have : ([1] ++ eps.map (fun (e : ℝ) => (e : ℂ)) ++ [si lam]).getD (k + 1) 0 = ((eps[k] : ℝ) : ℂ) := by
          simp [List.getD_eq_getElem?_getD, List.getElem?_append, hk']
        show (([1] ++ eps.map (fun (e : ℝ) => (e : ℂ)) ++ [si lam]).getD (k + 1) 0).im = 0 ∧ 0 < (([1] ++ eps.map (fun (e : ℝ) => (e : ℂ)) ++ [si lam]).getD (k + 1) 0).re
        rw [this]
        exact ⟨ofReal_im _, by rw [ofReal_re]; exact he _ (List.getElem_mem _)⟩)
    (by beta_reduce; rw [hl]; exact hsi)
  have habs := absorb_last (h := fun k => ([0] ++ hs ++ [(30000 : ℝ)]).getD k 0) hc him (by beta_reduce; rw [hh]; norm_num)
  have hr := reflectance_lt (h := fun k => ([0] ++ hs ++ [(30000 : ℝ)]).getD k 0) hc
  have hlast : 0 < (gamma (2 * Real.pi / lam) (eps.length + 2) (fun k => ([1] ++ eps.map (fun (e : ℝ) => (e : ℂ)) ++ [si lam]).getD k 0) (eps.length + 2 - 1)).re := hc.last
  have hsq : gamma (2 * Real.pi / lam) (eps.length + 2) (fun k => ([1] ++ eps.map (fun (e : ℝ) => (e : ℂ)) ++ [si lam]).getD k 0) (eps.length + 2 - 1) ^ 2
      = si lam * ((2 * Real.pi / lam : ℝ) : ℂ) ^ 2 := by
    simp only [gamma, hl]
    rw [if_neg (by omega), sqrt_eq]
  have h0 : gamma (2 * Real.pi / lam) (eps.length + 2) (fun k => ([1] ++ eps.map (fun (e : ℝ) => (e : ℂ)) ++ [si lam]).getD k 0) 0 = ((2 * Real.pi / lam : ℝ) : ℂ) := by
    simp only [gamma]
    rw [if_neg (by omega)]
    have : ([1] ++ eps.map (fun (e : ℝ) => (e : ℂ)) ++ [si lam]).getD 0 0 = 1 := by simp
    rw [this, one_mul, ← ofReal_pow, sqrt_real (by positivity), Real.sqrt_sq hpos.le]
  have hbare : eps = [] → reflectance (gamma (2 * Real.pi / lam) (eps.length + 2) (fun k => ([1] ++ eps.map (fun (e : ℝ) => (e : ℂ)) ++ [si lam]).getD k 0))
      (fun k => ([0] ++ hs ++ [(30000 : ℝ)]).getD k 0) (eps.length + 2) =
      ‖(((2 * Real.pi / lam : ℝ) : ℂ) - gamma (2 * Real.pi / lam) (eps.length + 2) (fun k => ([1] ++ eps.map (fun (e : ℝ) => (e : ℂ)) ++ [si lam]).getD k 0) (eps.length + 2 - 1)) /
        (((2 * Real.pi / lam : ℝ) : ℂ) + gamma (2 * Real.pi / lam) (eps.length + 2) (fun k => ([1] ++ eps.map (fun (e : ℝ) => (e : ℂ)) ++ [si lam]).getD k 0) (eps.length + 2 - 1))‖ ^ 2 := by
    intro h
    rw [← h0]
    subst h
    exact bare (by simp)
  have hshare : share si eps hs lam = absorb (gamma (2 * Real.pi / lam) (eps.length + 2) (fun k => ([1] ++ eps.map (fun (e : ℝ) => (e : ℂ)) ++ [si lam]).getD k 0))
      (fun k => ([0] ++ hs ++ [(30000 : ℝ)]).getD k 0) (eps.length + 2) (eps.length + 2 - 1) := rfl
  rw [hshare, habs]
  beta_reduce
  rw [hh]
  generalize reflectance _ _ _ = R at *
  generalize gamma (2 * Real.pi / lam) (eps.length + 2) _ (eps.length + 2 - 1) = q at *
  generalize hk0 : 2 * Real.pi / lam = k0 at *
  have hk : (k0 : ℂ) ≠ 0 := by exact_mod_cast hpos.ne'
  have hre : (q / (k0 : ℂ)).re = q.re / k0 := div_ofReal_re _ _
  have him2 : (q / (k0 : ℂ)).im = q.im / k0 := div_ofReal_im _ _
  refine ⟨q / k0, ?_, by rw [hre]; positivity, by rw [him2]; positivity, R, hr.1, hr.2, ?_, ?_⟩
  · rw [div_pow, hsq]; field_simp
  · intro h
    rw [hbare h]
    congr 2
    have : ((k0 : ℂ) - q) = k0 * (1 - q / k0) := by field_simp
    rw [this]
    have : ((k0 : ℂ) + q) = k0 * (1 + q / k0) := by field_simp
    rw [this, mul_div_mul_left _ _ hk]
  · congr 3
    rw [him2]
    have : lam = 2 * Real.pi / k0 := by rw [← hk0]; have := Real.pi_pos; field_simp
    rw [this]
    have := Real.pi_pos
    field_simp
    ring

/-- The rule is exact for functions of degree one. -/
theorem trapezoid_exact (a b x : ℝ) (l : List ℝ) :
    trapezoid ((x :: l).map fun x => (a * x + b, x)) = (a / 2 * ((x :: l).getLast (by simp)) ^ 2 + b * (x :: l).getLast (by simp)) - (a / 2 * x ^ 2 + b * x) := by
  induction l generalizing x with
  | nil => simp [trapezoid]
  | cons y l ih =>
    have := ih y
    simp only [List.map_cons, trapezoid] at this ⊢
    rw [this]
    simp only [List.getLast_cons_cons]
    ring

/-! ### The cost -/

theorem trapezoid_nonneg : ∀ l : List (ℝ × ℝ), (∀ q ∈ l, 0 ≤ q.1) → (l.map Prod.snd).Pairwise (· ≤ ·) → 0 ≤ trapezoid l
  | [], _, _ => le_refl _
  | [_], _, _ => le_refl _
  | (y, x) :: (y', x') :: l, h1, h2 => by
    rw [trapezoid]
    have a1 : 0 ≤ y := h1 (y, x) (by simp)
    have a2 : 0 ≤ y' := h1 (y', x') (by simp)
    have a3 : x ≤ x' := by simp only [List.map_cons, List.pairwise_cons] at h2; exact h2.1 x' (by simp)
    have a4 := trapezoid_nonneg ((y', x') :: l) (fun q hq => h1 q (List.mem_cons_of_mem _ hq)) (by
      simp only [List.map_cons] at h2 ⊢; exact (List.pairwise_cons.1 h2).2)
    have := mul_nonneg (sub_nonneg.2 a3) (add_nonneg a1 a2)
    linarith

theorem trapezoid_mono (f f' : ℝ → ℝ) : ∀ l : List ℝ, (∀ x ∈ l, f x ≤ f' x) → l.Pairwise (· ≤ ·) → trapezoid (l.map fun x => (f x, x)) ≤ trapezoid (l.map fun x => (f' x, x))
  | [], _, _ => le_refl _
  | [_], _, _ => le_refl _
  | x :: x' :: l, h1, h2 => by
    have a1 := h1 x (by simp)
    have a2 := h1 x' (by simp)
    have a3 : x ≤ x' := (List.pairwise_cons.1 h2).1 x' (by simp)
    have a4 := trapezoid_mono f f' (x' :: l) (fun q hq => h1 q (List.mem_cons_of_mem _ hq)) (List.pairwise_cons.1 h2).2
    simp only [List.map_cons, trapezoid] at a4 ⊢
    have : (x' - x) * (f x + f x') ≤ (x' - x) * (f' x + f' x') := mul_le_mul_of_nonneg_left (add_le_add a1 a2) (sub_nonneg.2 a3)
    linarith

/-- The wave lengths go from 375 to 750. -/
theorem lambdas_range : ∀ lam ∈ lambdas, 375 ≤ lam ∧ lam ≤ 750 := by
  intro lam hl
  obtain ⟨k, hk, rfl⟩ := List.mem_map.1 hl
  have h1 : k ≤ 99 := by have := List.mem_range.1 hk; omega
  have h2 : (k : ℝ) ≤ 99 := by exact_mod_cast h1
  have h3 : (0 : ℝ) ≤ k := Nat.cast_nonneg k
  constructor
  · linarith
  · linarith

theorem lambdas_sorted : lambdas.Pairwise (· ≤ ·) := by
  rw [lambdas, List.pairwise_map]
  refine List.Pairwise.imp ?_ (List.pairwise_lt_range (n := 100))
  intro a b hab
  have : (a : ℝ) ≤ b := by exact_mod_cast hab.le
  linarith

/-- The first and the last of the hundred wave lengths. -/
theorem lambdas_ends : lambdas.length = 100 ∧ lambdas[0]? = some 375 ∧ lambdas[99]? = some 750 := by
  refine ⟨by simp [lambdas], ?_, ?_⟩
  · simp [lambdas, List.getElem?_map, List.getElem?_range]
  · simp only [lambdas, List.getElem?_map]
    rw [List.getElem?_range (by norm_num)]
    norm_num

/-- **C128.** The cost is the share of the solar light that is lost, between 0 and 1; it is 1 when nothing is absorbed, 0 when all is, and it goes down with the shares. -/
theorem cost_spec {solar : ℝ → ℝ} (hs : ∀ lam ∈ lambdas, 0 ≤ solar lam) (hp : 0 < trapezoid (lambdas.map fun lam => (solar lam, lam))) :
    (∀ ab : ℝ → ℝ, (∀ lam ∈ lambdas, 0 ≤ ab lam ∧ ab lam ≤ 1) → 0 ≤ cost solar ab ∧ cost solar ab ≤ 1) ∧
    (∀ ab ab' : ℝ → ℝ, (∀ lam ∈ lambdas, ab lam ≤ ab' lam) → cost solar ab' ≤ cost solar ab) ∧
    (∀ c : ℝ, cost solar (fun _ => c) = 1 - c) := by
  have hmono : ∀ ab ab' : ℝ → ℝ, (∀ lam ∈ lambdas, ab lam ≤ ab' lam) → cost solar ab' ≤ cost solar ab := by
    intro ab ab' h
    simp only [cost]
    have := trapezoid_mono (fun lam => solar lam * ab lam) (fun lam => solar lam * ab' lam) lambdas (fun lam hl => mul_le_mul_of_nonneg_left (h lam hl) (hs lam hl)) lambdas_sorted
    have := div_le_div_of_nonneg_right this hp.le
    linarith
  have hconst : ∀ c : ℝ, cost solar (fun _ => c) = 1 - c := by
    intro c
    have : ∀ l : List ℝ, trapezoid (l.map fun lam => (solar lam * c, lam)) = c * trapezoid (l.map fun lam => (solar lam, lam)) := by
      intro l
      induction l with
      | nil => simp [trapezoid]
      | cons x l ih =>
        cases l with
        | nil => simp [trapezoid]
        | cons x' l => simp only [List.map_cons, trapezoid] at ih ⊢; rw [ih]; ring
    simp only [cost]
    rw [this, mul_div_assoc, div_self hp.ne', mul_one]
  refine ⟨fun ab h => ?_, hmono, hconst⟩
  have h0 := hmono (fun _ => 0) ab (fun lam hl => (h lam hl).1)
  have h1 := hmono ab (fun _ => 1) (fun lam hl => (h lam hl).2)
  rw [hconst] at h0 h1
  constructor <;> linarith

/-! ### The table of silicon -/

/-- The permittivity is interpolated between the two wave lengths of the table around the given one. -/
theorem epscSi_spec {e : Nat → ℂ} {lam : ℝ} (h0 : 250 ≤ lam) (h1 : lam < 1495) :
    ∃ k : Nat, ∃ t : ℝ, k < 249 ∧ 0 ≤ t ∧ t < 1 ∧ lam = 250 + 5 * k + 5 * t ∧ epscSi e lam = (1 - t : ℝ) * e k + (t : ℝ) * e (k + 1) := by
  have hex : ∃ k ∈ List.range 250, decide (lam < grid k) = true := ⟨249, by simp, by simp only [decide_eq_true_eq, grid]; norm_num; linarith⟩
  have hlt := List.findIdx_lt_length.2 hex
  have hget := List.findIdx_getElem (w := hlt)
  simp only [List.getElem_range, decide_eq_true_eq] at hget
  have hne : (List.range 250).findIdx (fun k => decide (lam < grid k)) ≠ 0 := by
    intro h2
    rw [h2] at hget
    simp only [grid] at hget
    norm_num at hget
    linarith
  obtain ⟨y, hy⟩ := Nat.exists_eq_succ_of_ne_zero hne
  have hbefore := List.not_of_lt_findIdx (p := fun k => decide (lam < grid k)) (xs := List.range 250) (i := y) (by rw [hy]; exact Nat.lt_succ_self y)
  simp only [List.getElem_range, decide_eq_false_iff_not, not_lt] at hbefore
  have hpl : place lam = y := by rw [place, hy]; rfl
  rw [hy] at hget
  rw [List.length_range, hy] at hlt
  have hg1 : grid y = 250 + 5 * (y : ℝ) := rfl
  have hg2 : grid (y + 1) = 250 + 5 * (y : ℝ) + 5 := by rw [grid]; push_cast; ring
  rw [Nat.succ_eq_add_one, hg2] at hget
  rw [hg1] at hbefore
  refine ⟨y, (lam - 250 - 5 * y) / 5, by omega, by linarith, by linarith, by ring, ?_⟩
  simp only [epscSi, hpl, hg1, hg2]
  push_cast
  ring

/-- With a table of numbers with positive imaginary parts, the permittivity of silicon absorbs. -/
theorem epscSi_im {e : Nat → ℂ} {lam : ℝ} (h0 : 250 ≤ lam) (h1 : lam < 1495) (he : ∀ k, k < 250 → 0 < (e k).im) : 0 < (epscSi e lam).im := by
  obtain ⟨k, t, hk, t0, t1, -, hs⟩ := epscSi_spec (e := e) h0 h1
  rw [hs, add_im, im_ofReal_mul, im_ofReal_mul]
  have a := he k (by omega)
  have b := he (k + 1) (by omega)
  have := mul_pos (sub_pos.2 t1) a
  have := mul_nonneg t0 b.le
  linarith

/-- **C128.** The realistic problem: with positive permittivities the cost is between 0 and 1. -/
theorem realistic_range {e : Nat → ℂ} (he : ∀ k, k < 250 → 0 < (e k).im) {solar : ℝ → ℝ} (hs : ∀ lam ∈ lambdas, 0 ≤ solar lam)
    (hp : 0 < trapezoid (lambdas.map fun lam => (solar lam, lam))) (x : List ℝ) (hx : ∀ v ∈ x.take (x.length / 2), 0 < v) :
    0 ≤ realistic (epscSi e) solar x ∧ realistic (epscSi e) solar x ≤ 1 := by
  apply (cost_spec hs hp).1
  intro lam hl
  obtain ⟨l1, l2⟩ := lambdas_range lam hl
  have him := epscSi_im (e := e) (lam := lam) (by linarith) (by linarith) he
  have := share_range (si := epscSi e) (eps := x.take (x.length / 2)) (hs := (x.drop (x.length / 2)).take (x.length / 2)) (lam := lam) (by linarith) hx
    (by simp only [List.length_take, List.length_drop]; omega) ⟨him.le, Or.inr him⟩
  exact ⟨this.1, this.2.le⟩

/-- **C128.** The reference problem: for all the heights of an even number of layers the cost is between 0 and 1. -/
theorem reference_range {e : Nat → ℂ} (he : ∀ k, k < 250 → 0 < (e k).im) {solar : ℝ → ℝ} (hs : ∀ lam ∈ lambdas, 0 ≤ solar lam)
    (hp : 0 < trapezoid (lambdas.map fun lam => (solar lam, lam))) (x : List ℝ) (hx : x.length % 2 = 0) :
    0 ≤ reference (epscSi e) solar x ∧ reference (epscSi e) solar x ≤ 1 := by
  apply (cost_spec hs hp).1
  intro lam hl
  obtain ⟨l1, l2⟩ := lambdas_range lam hl
  have him := epscSi_im (e := e) (lam := lam) (by linarith) (by linarith) he
  have := share_range (si := epscSi e) (eps := (List.replicate (x.length / 2) [2, 3]).flatten) (hs := x) (lam := lam) (by linarith)
    (by
      intro v hv
      obtain ⟨l, h1, h2⟩ := List.mem_flatten.1 hv
      rw [List.mem_replicate] at h1
      rw [h1.2] at h2
      simp at h2
      rcases h2 with rfl | rfl <;> norm_num)
    (by simp [List.length_flatten]; omega) ⟨him.le, Or.inr him⟩
  exact ⟨this.1, this.2.le⟩

/-- The two problems agree when the permittivities of the realistic one are 2, 3, 2, 3, ... -/
theorem same_problem (si : ℝ → ℂ) (solar : ℝ → ℝ) (x : List ℝ) (hx : x.length % 2 = 0) :
    realistic si solar ((List.replicate (x.length / 2) [2, 3]).flatten ++ x) = reference si solar x := by
  have hl : (List.replicate (x.length / 2) [(2 : ℝ), 3]).flatten.length = x.length := by simp [List.length_flatten]; omega
  have h2 : ((List.replicate (x.length / 2) [(2 : ℝ), 3]).flatten ++ x).length / 2 = (List.replicate (x.length / 2) [(2 : ℝ), 3]).flatten.length := by
    rw [List.length_append, hl]; omega
  simp only [realistic, reference]
  rw [h2, List.take_left', List.drop_left', hl, List.take_length] <;> rfl

/-! ### Known cells -/

/-- A quarter wave layer whose index is the mean of its neighbours reflects nothing. -/
theorem antireflective (hc : Clear γ 3) (hm : γ 1 ^ 2 = γ 0 * γ 2) (hq : γ 1 * h 1 = Real.pi / 2) : reflectance γ h 3 = 0 := by
  have hd : down γ h 3 0 = 1 := by
    rcases down_zero (γ := γ) (h := h) (g := 3) with h1 | h1
    · exact h1
    · omega
  have p : phase γ h 1 = I := by
    rw [phase, mul_assoc, hq, mul_comm, show ((Real.pi : ℂ) / 2) * I = Real.pi / 2 * I from rfl, exp_pi_div_two_mul_I]
  have n1 := (iface_refl hc (k := 0) (by omega)).2.2
  have n2 := (iface_refl hc (k := 1) (by omega)).2.2
  simp only [Nat.zero_add, Nat.reduceAdd] at n1 n2
  have b3 : below γ h 3 3 = (γ 1 - γ 2) / (γ 1 + γ 2) := by
    rw [below_step (by omega), show 3 + 1 = 2 * 3 - 2 from rfl, below_last (by omega)]
    have : T γ h (2 * 3 - 2) = iface γ 1 := T_iface 1
    rw [this]; simp [iface]
  have heq : (γ 1 - γ 2) / (γ 1 + γ 2) = (γ 0 - γ 1) / (γ 0 + γ 1) := by
    rw [div_eq_div_iff n2 n1]; linear_combination 2 * hm
  have b2 : below γ h 3 2 = -((γ 0 - γ 1) / (γ 0 + γ 1)) := by
    rw [below_step (by omega), show 2 + 1 = 3 from rfl, b3]
    have : T γ h 3 = prop γ h 1 := T_prop 1
    rw [this]
    simp only [prop, p, heq]
    linear_combination ((γ 0 - γ 1) / (γ 0 + γ 1)) * I_sq
  have b1 : below γ h 3 1 = 0 := by
    have hstep := below_step (γ := γ) (h := h) (g := 3) (j := 1) (by omega)
    rw [show 1 + 1 = 2 from rfl, b2] at hstep
    have : T γ h 2 = iface γ 0 := T_iface 0
    rw [this] at hstep
    rw [hstep]
    have hr := (iface_refl hc (k := 0) (by omega)).1
    simp only [iface, Nat.zero_add] at hr ⊢
    have hden : (1 - -((γ 0 - γ 1) / (γ 0 + γ 1)) * ((γ 1 - γ 0) / (γ 0 + γ 1))) ≠ 0 := by
      have := one_sub_ne hr hr
      intro h5; apply this; rw [← h5]; ring
    have := mul_one_div_cancel hden
    have hh : (1 - -((γ 0 - γ 1) / (γ 0 + γ 1)) * ((γ 1 - γ 0) / (γ 0 + γ 1))) = 2 * γ 1 / (γ 0 + γ 1) * (2 * γ 0 / (γ 0 + γ 1)) := by field_simp; ring
    rw [hh] at this ⊢
    linear_combination (-((γ 0 - γ 1) / (γ 0 + γ 1))) * this
  have b0 : below γ h 3 0 = 0 := by
    rw [below_step (by omega), show 0 + 1 = 1 from rfl, b1]
    have : T γ h 1 = prop γ h 0 := T_prop 0
    rw [this]; simp [prop]
  rw [reflectance, up_eq (by omega), hd, b0]
  simp

/-! ### Products of scattering matrices -/

/-- **C128.** The product is the matrix of the two systems one below the other: for the waves that come in from above and from below there is one pair of waves between the two systems,
and the waves that go out are those of the product. -/
theorem cascade2_fields (S U : SMat) (hd : 1 - U.s00 * S.s11 ≠ 0) (a d : ℂ) :
    ∃ x y : ℂ, (x = S.s10 * a + S.s11 * y ∧ y = U.s00 * x + U.s01 * d) ∧
      (∀ x' y', x' = S.s10 * a + S.s11 * y' → y' = U.s00 * x' + U.s01 * d → x' = x ∧ y' = y) ∧
      (cascade2 S U).s00 * a + (cascade2 S U).s01 * d = S.s00 * a + S.s01 * y ∧
      (cascade2 S U).s10 * a + (cascade2 S U).s11 * d = U.s10 * x + U.s11 * d := by
  obtain ⟨p, q, r, s⟩ := S
  obtain ⟨p', q', r', s'⟩ := U
  simp only at hd
  have hu := one_div_mul_cancel hd
  refine ⟨(r * a + s * q' * d) * (1 / (1 - p' * s)), (p' * r * a + q' * d) * (1 / (1 - p' * s)), ⟨?_, ?_⟩, ?_, ?_, ?_⟩
  · simp only; generalize 1 / (1 - p' * s) = v at *
    linear_combination (r * a) * hu
  · simp only; generalize 1 / (1 - p' * s) = v at *
    linear_combination (q' * d) * hu
  · intro x y h1 h2
    simp only at h1 h2
    have e1 : x * (1 - p' * s) = r * a + s * q' * d := by linear_combination h1 + s * h2
    have e2 : y * (1 - p' * s) = p' * r * a + q' * d := by linear_combination h2 + p' * h1
    rw [← e1, ← e2]
    generalize 1 / (1 - p' * s) = v at *
    constructor
    · linear_combination (-x) * hu
    · linear_combination (-y) * hu
  · simp only [cascade2]; ring
  · simp only [cascade2]; generalize 1 / (1 - p' * s) = v at *
    linear_combination 0 * hu

section
variable {n : Type} [Fintype n] [DecidableEq n]

open Matrix

/-- **C128.** The same for matrices with blocks. -/
theorem cascade_fields (S U : Block n) (hd : IsUnit (1 - U.b00 * S.b11).det) (a d : n → ℂ) :
    ∃ x y : n → ℂ, (x = S.b10 *ᵥ a + S.b11 *ᵥ y ∧ y = U.b00 *ᵥ x + U.b01 *ᵥ d) ∧
      (∀ x' y', x' = S.b10 *ᵥ a + S.b11 *ᵥ y' → y' = U.b00 *ᵥ x' + U.b01 *ᵥ d → x' = x ∧ y' = y) ∧
      (cascade S U).b00 *ᵥ a + (cascade S U).b01 *ᵥ d = S.b00 *ᵥ a + S.b01 *ᵥ y ∧
      (cascade S U).b10 *ᵥ a + (cascade S U).b11 *ᵥ d = U.b10 *ᵥ x + U.b11 *ᵥ d := by
  have hd' : IsUnit (1 - S.b11 * U.b00).det := by rw [det_one_sub_mul_comm]; exact hd
  have hj := nonsing_inv_mul _ hd
  have hk := nonsing_inv_mul _ hd'
  have hj' := mul_nonsing_inv _ hd
  have hk' := mul_nonsing_inv _ hd'
  simp only [cascade]
  generalize (1 - U.b00 * S.b11)⁻¹ = J at *
  generalize (1 - S.b11 * U.b00)⁻¹ = K at *
  -- K = 1 + S11 J U00 and J = 1 + U00 K S11
  have hKJ : K = 1 + S.b11 * J * U.b00 := by
    have h1 : (1 - S.b11 * U.b00) * (1 + S.b11 * J * U.b00) = 1 := by
      have : (1 - S.b11 * U.b00) * (1 + S.b11 * J * U.b00) = 1 - S.b11 * U.b00 + S.b11 * ((1 - U.b00 * S.b11) * J) * U.b00 := by noncomm_ring
      rw [this, hj']; noncomm_ring
    calc K = K * ((1 - S.b11 * U.b00) * (1 + S.b11 * J * U.b00)) := by rw [h1, mul_one]
      _ = _ := by rw [← mul_assoc, hk, one_mul]
  have hUK : U.b00 * K = J * U.b00 := by
    have e : (1 - U.b00 * S.b11) * (U.b00 * K) = U.b00 * ((1 - S.b11 * U.b00) * K) := by noncomm_ring
    rw [hk', mul_one] at e
    calc U.b00 * K = J * ((1 - U.b00 * S.b11) * (U.b00 * K)) := by rw [← mul_assoc, hj, one_mul]
      _ = _ := by rw [e]
  have hSJ : S.b11 * J = K * S.b11 := by
    have e : (1 - S.b11 * U.b00) * (S.b11 * J) = S.b11 * ((1 - U.b00 * S.b11) * J) := by noncomm_ring
    rw [hj', mul_one] at e
    calc S.b11 * J = K * ((1 - S.b11 * U.b00) * (S.b11 * J)) := by rw [← mul_assoc, hk, one_mul]
      _ = _ := by rw [e]
  refine ⟨K *ᵥ (S.b10 *ᵥ a + S.b11 *ᵥ (U.b01 *ᵥ d)), J *ᵥ (U.b00 *ᵥ (S.b10 *ᵥ a) + U.b01 *ᵥ d), ⟨?_, ?_⟩, ?_, ?_, ?_⟩
  · have e1 : K *ᵥ (S.b10 *ᵥ a) = S.b10 *ᵥ a + S.b11 *ᵥ (J *ᵥ (U.b00 *ᵥ (S.b10 *ᵥ a))) := by
      conv_lhs => rw [hKJ]
      rw [add_mulVec, one_mulVec]
      simp only [mulVec_mulVec, mul_assoc]
    have e2 : K *ᵥ (S.b11 *ᵥ (U.b01 *ᵥ d)) = S.b11 *ᵥ (J *ᵥ (U.b01 *ᵥ d)) := by
      rw [mulVec_mulVec, ← hSJ, ← mulVec_mulVec]
    rw [mulVec_add, mulVec_add, mulVec_add, e1, e2]
    abel
  · have hJ : J = 1 + U.b00 * (K * S.b11) := by
      rw [← hSJ]
      have : (1 - U.b00 * S.b11) * J = 1 := hj'
      have e : J - U.b00 * (S.b11 * J) = 1 := by rw [← this]; noncomm_ring
      rw [← e]; abel
    have e1 : J *ᵥ (U.b01 *ᵥ d) = U.b01 *ᵥ d + U.b00 *ᵥ (K *ᵥ (S.b11 *ᵥ (U.b01 *ᵥ d))) := by
      conv_lhs => rw [hJ]
      rw [add_mulVec, one_mulVec]
      simp only [mulVec_mulVec, mul_assoc]
    have e2 : J *ᵥ (U.b00 *ᵥ (S.b10 *ᵥ a)) = U.b00 *ᵥ (K *ᵥ (S.b10 *ᵥ a)) := by
      rw [mulVec_mulVec, ← hUK, ← mulVec_mulVec]
    rw [mulVec_add, mulVec_add, mulVec_add, e1, e2]
    abel
  · intro x y h1 h2
    have g1 : x - S.b11 *ᵥ y = S.b10 *ᵥ a := by rw [sub_eq_iff_eq_add]; exact h1
    have g2 : y - U.b00 *ᵥ x = U.b01 *ᵥ d := by rw [sub_eq_iff_eq_add, add_comm]; exact h2
    have e1 : (1 - S.b11 * U.b00) *ᵥ x = S.b10 *ᵥ a + S.b11 *ᵥ (U.b01 *ᵥ d) := by
      rw [sub_mulVec, one_mulVec, ← mulVec_mulVec, ← g1, ← g2, mulVec_sub]
      abel
    have e2 : (1 - U.b00 * S.b11) *ᵥ y = U.b00 *ᵥ (S.b10 *ᵥ a) + U.b01 *ᵥ d := by
      rw [sub_mulVec, one_mulVec, ← mulVec_mulVec, ← g1, ← g2, mulVec_sub]
      abel
    rw [← e1, ← e2, mulVec_mulVec, mulVec_mulVec, hk, hj, one_mulVec, one_mulVec]
    exact ⟨rfl, rfl⟩
  · simp only [add_mulVec, mulVec_add, mulVec_mulVec, mul_assoc]
    abel
  · simp only [add_mulVec, mulVec_add, mulVec_mulVec, mul_assoc]
    abel

/-- A layer below a system is the product with the matrix of the layer. -/
theorem cBas_cascade (S : Block n) (D : Matrix n n ℂ) : cascade S ⟨0, D, D, 0⟩ = cBas S D := by
  ext1 <;> simp [cascade, cBas]

end

/-! ### Cases -/

/-- Air over a medium of index 2. -/
example : Clear (fun k => if k = 0 then 1 else 2) 2 := by
  refine ⟨le_refl _, ?_, ?_, by norm_num⟩
  all_goals
    intro k hk
    have : k = 0 := by omega
    simp [this]

/-- It reflects a ninth of the light. -/
example : reflectance (fun k => if k = 0 then 1 else 2) (fun _ => 0) 2 = 1 / 9 := by
  rw [bare rfl]
  have : ((1 : ℂ) - 2) / (1 + 2) = ((-1 / 3 : ℝ) : ℂ) := by push_cast; norm_num
  simp only [if_true, if_neg (show ¬(1 = 0) by omega), this, norm_real]
  norm_num

/-- Indices 1, 2 and 4 with a quarter wave in the middle. -/
example : reflectance (fun k => 2 ^ k) (fun _ => Real.pi / 4) 3 = 0 := by
  apply antireflective
  · have hreal : ∀ k : Nat, (2 : ℂ) ^ k = (((2 : ℝ) ^ k : ℝ) : ℂ) := by intro k; push_cast; rfl
    refine ⟨by norm_num, ?_, ?_, ?_⟩
    · intro k _; rw [hreal, ofReal_im]
    · intro k _; rw [hreal, ofReal_re]; positivity
    · rw [hreal, ofReal_re]; positivity
  · norm_num
  · push_cast; ring

/-- Two mirrors that reflect a half: the waves go several times between them. -/
example : cascade2 ⟨1 / 2, 1, 1, 1 / 2⟩ ⟨1 / 2, 1, 1, 1 / 2⟩ = ⟨7 / 6, 4 / 3, 4 / 3, 7 / 6⟩ := by
  ext1 <;> simp only [cascade2] <;> norm_num

/-- The table at 252 nanometres: two fifths of the way from the first number to the second. -/
example : epscSi (fun k => if k = 0 then 10 else 20) 252 = 14 := by
  obtain ⟨k, t, hk, t0, t1, hl, hs⟩ := epscSi_spec (e := fun k => if k = 0 then 10 else 20) (lam := 252) (by norm_num) (by norm_num)
  have hk0 : k = 0 := by
    by_contra hne
    have : (1 : ℝ) ≤ k := by exact_mod_cast Nat.one_le_iff_ne_zero.2 hne
    linarith
  subst hk0
  have ht : t = 2 / 5 := by norm_num at hl; linarith
  rw [hs, ht]
  norm_num

end NG.Solar
