/-
Lemmas about the scattering matrices of a stack of layers.
-/
import Verif.Model.Solar
import Mathlib.Tactic.LinearCombination
import Mathlib.Tactic.FieldSimp
import Mathlib.Analysis.SpecialFunctions.Pow.Real
import Mathlib.Analysis.SpecialFunctions.Complex.Arg

set_option linter.unusedSectionVars false

namespace NG.Solar

open Complex

/-- The layers before the last one are transparent and the last one lets a part of the light in. -/
structure Clear (γ : Nat → ℂ) (g : Nat) : Prop where
  two : 2 ≤ g
  im : ∀ k, k < g - 1 → (γ k).im = 0
  re : ∀ k, k < g - 1 → 0 < (γ k).re
  last : 0 < (γ (g - 1)).re

theorem lt_one_iff (z : ℂ) : ‖z‖ < 1 ↔ normSq z < 1 := by
  rw [normSq_eq_norm_sq]; constructor
  · intro h; nlinarith [norm_nonneg z]
  · intro h; nlinarith [norm_nonneg z, sq_nonneg (‖z‖ - 1)]

theorem one_sub_ne {x y : ℂ} (hx : ‖x‖ < 1) (hy : ‖y‖ < 1) : 1 - x * y ≠ 0 := by
  intro h
  have h1 : x * y = 1 := by linear_combination -h
  have h2 : ‖x‖ * ‖y‖ = 1 := by rw [← norm_mul, h1, norm_one]
  nlinarith [norm_nonneg x, norm_nonneg y]

theorem sum_ne {b c : ℂ} (hb : 0 < b.re) (hc : 0 < c.re) : b + c ≠ 0 := by
  intro h
  have := congrArg re h
  simp at this
  linarith

theorem refl_lt {b c : ℂ} (hi : b.im = 0) (hb : 0 < b.re) (hc : 0 < c.re) : ‖(b - c) / (b + c)‖ < 1 := by
  rw [lt_one_iff, map_div₀]
  have hp : 0 < normSq (b + c) := normSq_pos.2 (sum_ne hb hc)
  rw [div_lt_one hp]
  simp only [normSq_apply, sub_re, sub_im, add_re, add_im, hi]
  nlinarith [mul_pos hb hc]

theorem mobius {r z : ℂ} (hi : r.im = 0) (hr : ‖r‖ < 1) (hz : ‖z‖ < 1) : ‖(r + z) / (1 + r * z)‖ < 1 := by
  have hn : 1 + r * z ≠ 0 := by
    have h := one_sub_ne (x := -r) (y := z) (by rwa [norm_neg]) hz
    intro h2; apply h; linear_combination h2
  rw [lt_one_iff, map_div₀, div_lt_one (normSq_pos.2 hn)]
  rw [lt_one_iff] at hr hz
  simp only [normSq_apply, add_re, add_im, mul_re, mul_im, one_re, one_im, hi] at *
  nlinarith [mul_pos (sub_pos.2 hr) (sub_pos.2 hz)]

theorem star_real {b c z : ℂ} (hne : b + c ≠ 0) (hn : 1 + (b - c) / (b + c) * z ≠ 0) :
    (b - c) / (b + c) + (2 * c / (b + c)) * z * (2 * b / (b + c)) * (1 / (1 + (b - c) / (b + c) * z)) = ((b - c) / (b + c) + z) / (1 + (b - c) / (b + c) * z) := by
  rw [eq_div_iff hn, add_mul, mul_assoc, one_div_mul_cancel hn]
  field_simp
  ring

variable {γ : Nat → ℂ} {h : Nat → ℝ} {g : Nat}

theorem T_prop (k : Nat) : T γ h (2 * k + 1) = prop γ h k := by
  have h1 : ¬(2 * k + 1 = 0) := by omega
  have h2 : (2 * k + 1) % 2 = 1 := by omega
  have h3 : (2 * k + 1 - 1) / 2 = k := by omega
  simp only [T, if_neg h1, if_pos h2, h3]

theorem T_iface (k : Nat) : T γ h (2 * k + 2) = iface γ k := by
  have h1 : ¬(2 * k + 2 = 0) := by omega
  have h2 : ¬((2 * k + 2) % 2 = 1) := by omega
  have h3 : (2 * k + 2) / 2 - 1 = k := by omega
  simp only [T, if_neg h1, if_neg h2, h3]

theorem w_eq (j : Nat) : w j = j / 2 := by
  induction j with
  | zero => rfl
  | succ j ih => simp only [w, ih]; omega

theorem norm_phase (k : Nat) : ‖phase γ h k‖ = Real.exp (-((γ k).im * h k)) := by
  rw [phase, norm_exp]
  congr 1
  simp [mul_re, mul_im]

theorem norm_phase_one (k : Nat) (hk : (γ k).im = 0) : ‖phase γ h k‖ = 1 := by
  rw [norm_phase, hk]; simp

/-- The reflection of everything below the place `j`. -/
noncomputable def below (γ : Nat → ℂ) (h : Nat → ℝ) (g j : Nat) : ℂ := (H γ h g (2 * g - 2 - j)).s00

theorem below_last (hg : 2 ≤ g) : below γ h g (2 * g - 2) = 0 := by
  obtain ⟨k, rfl⟩ : ∃ k, g = k + 2 := ⟨g - 2, by omega⟩
  have h0 : 2 * (k + 2) - 2 - (2 * (k + 2) - 2) = 0 := by omega
  have h1 : 2 * (k + 2) - 1 = 2 * (k + 1) + 1 := by omega
  rw [below, h0, H, h1, T_prop]; rfl

theorem below_step {j : Nat} (hj : j < 2 * g - 2) :
    below γ h g j = (T γ h (j + 1)).s00 + (T γ h (j + 1)).s01 * below γ h g (j + 1) * (T γ h (j + 1)).s10 * (1 / (1 - below γ h g (j + 1) * (T γ h (j + 1)).s11)) := by
  obtain ⟨d, hd⟩ : ∃ d, 2 * g - 2 - j = d + 1 := ⟨2 * g - 3 - j, by omega⟩
  have h1 : 2 * g - 2 - (j + 1) = d := by omega
  have h2 : 2 * g - 2 - d = j + 1 := by omega
  rw [below, below, hd, h1, H, h2]; rfl

theorem iface_refl (hc : Clear γ g) {k : Nat} (hk : k < g - 1) : ‖(iface γ k).s00‖ < 1 ∧ ‖(iface γ k).s11‖ < 1 ∧ γ k + γ (k + 1) ≠ 0 := by
  have hre : 0 < (γ (k + 1)).re := by
    rcases Nat.lt_or_ge (k + 1) (g - 1) with h1 | h1
    · exact hc.re _ h1
    · have : k + 1 = g - 1 := by omega
      rw [this]; exact hc.last
  have h1 := refl_lt (hc.im k hk) (hc.re k hk) hre
  refine ⟨h1, ?_, sum_ne (hc.re k hk) hre⟩
  show ‖(γ (k + 1) - γ k) / (γ k + γ (k + 1))‖ < 1
  rwa [← neg_sub, neg_div, norm_neg]

theorem T_refl (hc : Clear γ g) {j : Nat} (hj : j < 2 * g - 2) : ‖(T γ h (j + 1)).s00‖ < 1 ∧ ‖(T γ h (j + 1)).s11‖ < 1 := by
  rcases Nat.even_or_odd' j with ⟨k, rfl | rfl⟩
  · rw [T_prop]; simp [prop]
  · rw [show 2 * k + 1 + 1 = 2 * k + 2 from rfl, T_iface]
    have := iface_refl hc (k := k) (by omega)
    exact ⟨this.1, this.2.1⟩

theorem below_lt (hc : Clear γ g) : ∀ d j, j + d = 2 * g - 3 → ‖below γ h g j‖ < 1 := by
  intro d
  induction d with
  | zero =>
    intro j hj
    have := hc.two
    have hj' : j < 2 * g - 2 := by omega
    have hl : j + 1 = 2 * g - 2 := by omega
    rw [below_step hj', hl, below_last hc.two, ← hl]
    simpa using (T_refl (h := h) hc hj').1
  | succ d ih =>
    intro j hj
    have h2 := hc.two
    have hj' : j < 2 * g - 2 := by omega
    have hz := ih (j + 1) (by omega)
    rw [below_step hj']
    generalize below γ h g (j + 1) = z at hz ⊢
    rcases Nat.even_or_odd' j with ⟨k, rfl | rfl⟩
    · rw [T_prop]
      have := norm_phase_one (h := h) k (hc.im k (by omega))
      simpa [prop, this] using hz
    · rw [show 2 * k + 1 + 1 = 2 * k + 2 from rfl, T_iface]
      have hk : k + 1 < g - 1 := by omega
      obtain ⟨hr, -, hne⟩ := iface_refl hc (k := k) (by omega)
      have hri : ((iface γ k).s00).im = 0 := by
        simp [iface, div_im, hc.im k (by omega), hc.im (k + 1) hk]
      have hm := mobius hri hr hz
      have hn : 1 + (iface γ k).s00 * z ≠ 0 := by
        have h := one_sub_ne (x := -(iface γ k).s00) (y := z) (by rwa [norm_neg]) hz
        intro h2; apply h; linear_combination h2
      have hst := star_real hne hn
      have hm2 : ‖(γ k - γ (k + 1)) / (γ k + γ (k + 1)) + (2 * γ (k + 1) / (γ k + γ (k + 1))) * z * (2 * γ k / (γ k + γ (k + 1))) * (1 / (1 + (γ k - γ (k + 1)) / (γ k + γ (k + 1)) * z))‖ < 1 := by
        rw [hst]; exact hm
      convert hm2 using 2
      simp only [iface]
      have e : 1 - z * ((γ (k + 1) - γ k) / (γ k + γ (k + 1))) = 1 + (γ k - γ (k + 1)) / (γ k + γ (k + 1)) * z := by ring
      rw [e]

theorem above_lt (hc : Clear γ g) : ∀ j, j < 2 * g - 2 → ‖(A γ h j).s11‖ < 1 := by
  intro j
  induction j with
  | zero => intro _; simp [A, T, swap]
  | succ j ih =>
    intro hj
    have hz := ih (by omega)
    rw [A]
    simp only [cascade2]
    generalize (A γ h j).s11 = z at hz ⊢
    rcases Nat.even_or_odd' j with ⟨k, rfl | rfl⟩
    · rw [T_prop]
      have := norm_phase_one (h := h) k (hc.im k (by omega))
      simpa [prop, this] using hz
    · rw [show 2 * k + 1 + 1 = 2 * k + 2 from rfl, T_iface]
      have hk : k + 1 < g - 1 := by omega
      obtain ⟨hr, hr2, hne⟩ := iface_refl hc (k := k) (by omega)
      have hri : ((iface γ k).s11).im = 0 := by
        simp [iface, div_im, hc.im k (by omega), hc.im (k + 1) hk]
      have hm := mobius hri hr2 hz
      have hn : 1 + (iface γ k).s11 * z ≠ 0 := by
        have h := one_sub_ne (x := -(iface γ k).s11) (y := z) (by rwa [norm_neg]) hz
        intro h2; apply h; linear_combination h2
      have e0 : (iface γ k).s11 = (γ (k + 1) - γ k) / (γ (k + 1) + γ k) := by rw [add_comm (γ (k + 1))]; rfl
      rw [e0] at hn hm
      have hst := star_real (by rwa [add_comm]) hn
      rw [← hst] at hm
      convert hm using 2
      simp only [iface]
      have e : 1 - (γ k - γ (k + 1)) / (γ k + γ (k + 1)) * z = 1 + (γ (k + 1) - γ k) / (γ (k + 1) + γ k) * z := by
        rw [add_comm (γ (k + 1))]; ring
      rw [e, add_comm (γ k)]
      ring

theorem up_eq {j : Nat} (hj : j < 2 * g - 1) : up γ h g j = below γ h g j * down γ h g j := by
  rw [up, down, if_pos hj, if_pos hj]
  show _ = below γ h g j * _
  rw [below]; ring

/-- The fields at two places that follow each other are related by the matrix between them. -/
theorem fields (hc : Clear γ g) {j : Nat} (hj : j < 2 * g - 2) :
    up γ h g j = (T γ h (j + 1)).s00 * down γ h g j + (T γ h (j + 1)).s01 * up γ h g (j + 1) ∧
    down γ h g (j + 1) = (T γ h (j + 1)).s10 * down γ h g j + (T γ h (j + 1)).s11 * up γ h g (j + 1) := by
  have hT := T_refl (h := h) hc hj
  have hA := above_lt (h := h) hc j hj
  have hB := below_lt (h := h) hc (2 * g - 3 - j) j (by omega)
  have hB' : ‖below γ h g (j + 1)‖ < 1 := by
    rcases Nat.lt_or_ge (j + 1) (2 * g - 2) with h1 | h1
    · exact below_lt hc (2 * g - 3 - (j + 1)) (j + 1) (by omega)
    · have : j + 1 = 2 * g - 2 := by omega
      rw [this, below_last hc.two]; simp
  have d1 := one_sub_ne hA hB
  have d2 := one_sub_ne hT.1 hA
  have d3 := one_sub_ne hB' hT.2
  have hs := below_step (γ := γ) (h := h) hj
  have e1 := up_eq (γ := γ) (h := h) (g := g) (j := j) (by omega)
  have e2 := up_eq (γ := γ) (h := h) (g := g) (j := j + 1) (by omega)
  have f1 : down γ h g j = (A γ h j).s10 / (1 - (A γ h j).s11 * below γ h g j) := by
    rw [down, if_pos (by omega)]; rfl
  have f2 : down γ h g (j + 1) = (A γ h (j + 1)).s10 / (1 - (A γ h (j + 1)).s11 * below γ h g (j + 1)) := by
    rw [down, if_pos (by omega)]; rfl
  rw [A] at f2
  simp only [cascade2] at f2
  rw [e1, e2]
  generalize down γ h g j = a at *
  generalize down γ h g (j + 1) = a' at *
  generalize below γ h g j = y at *
  generalize below γ h g (j + 1) = z at *
  generalize T γ h (j + 1) = M at *
  generalize A γ h j = N at *
  obtain ⟨t00, t01, t10, t11⟩ := M
  obtain ⟨n00, n01, n10, n11⟩ := N
  simp only at *
  have key : a' * (1 - z * t11) = t10 * a := by
    rw [f1, f2]
    have hden : (1 - n11 * y) * (1 - z * t11) = (1 - z * t11) - n11 * (t00 * (1 - z * t11) + t01 * z * t10) := by
      rw [hs]; field_simp
    have hden2 : (1 - (t11 + n11 * t01 * t10 * (1 / (1 - t00 * n11))) * z) * (1 - t00 * n11) = (1 - n11 * y) * (1 - z * t11) := by
      rw [hden]
      have hu := one_div_mul_cancel d2
      generalize (1 / (1 - t00 * n11)) = v at hu ⊢
      linear_combination (-(n11 * t01 * t10 * z)) * hu
    have hne : (1 - (t11 + n11 * t01 * t10 * (1 / (1 - t00 * n11))) * z) ≠ 0 := by
      intro h0; rw [h0, zero_mul] at hden2; exact mul_ne_zero d1 d3 hden2.symm
    rw [div_mul_eq_mul_div, div_eq_iff hne]
    generalize (1 - (t11 + n11 * t01 * t10 * (1 / (1 - t00 * n11))) * z) = q at *
    field_simp
    linear_combination (-t10 * n10) * hden2
  constructor
  · rw [hs]
    field_simp
    linear_combination (-t01 * z) * key
  · linear_combination key

/-- The flow of energy of the waves `a` and `b` in a layer. -/
noncomputable def flow (γ : Nat → ℂ) (k : Nat) (a b : ℂ) : ℝ := ((a + b) * (starRingEnd ℂ) ((a - b) * γ k)).re

theorem flow_prop {k : Nat} (hk : (γ k).im = 0) {a b a' b' : ℂ} (h1 : b = phase γ h k * b') (h2 : a' = phase γ h k * a) : flow γ k a b = flow γ k a' b' := by
  have hp := norm_phase_one (h := h) k hk
  have hn : (phase γ h k).re * (phase γ h k).re + (phase γ h k).im * (phase γ h k).im = 1 := by
    rw [← normSq_apply, normSq_eq_norm_sq, hp]; norm_num
  subst h1 h2
  simp only [flow, mul_re, mul_im, add_re, add_im, sub_re, sub_im, conj_re, conj_im, hk]
  generalize (phase γ h k).re = c at *
  generalize (phase γ h k).im = s at *
  linear_combination (((γ k).re * (a.re ^ 2 + a.im ^ 2)) * (-1) - (γ k).re * (b'.re ^ 2 + b'.im ^ 2)) * hn

theorem flow_iface {k : Nat} (hne : γ k + γ (k + 1) ≠ 0) {a b a' b' : ℂ} (h1 : b = (iface γ k).s00 * a + (iface γ k).s01 * b')
    (h2 : a' = (iface γ k).s10 * a + (iface γ k).s11 * b') : a + b = a' + b' ∧ (a - b) * γ k = (a' - b') * γ (k + 1) := by
  subst h1 h2
  simp only [iface]
  constructor <;> (field_simp; ring)

end NG.Solar
