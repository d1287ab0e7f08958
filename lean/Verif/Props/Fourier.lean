import Verif.Lemmas.Fourier

/-!
# C146: the crossover in the Fourier domain

`coef` and `coef2` are the usual coefficients of an array of one and of two dimensions, written with the exponential; the
statements speak of the coefficients of the result and of those of its parents.
-/

namespace NG
namespace Fourier

open Finset

/-- The coefficient of frequency `k` of `n` values. -/
noncomputable def coef (n : ℕ) (x : ℕ → ℝ) (k : ℕ) : ℂ :=
  (∑ j ∈ range n, (x j : ℂ) * Complex.exp (-(2 * Real.pi * Complex.I * (j * k) / n))) / Real.sqrt n

/-- The coefficient of frequencies `k` and `l` of `n` times `p` values. -/
noncomputable def coef2 (n p : ℕ) (x : ℕ → ℕ → ℝ) (k l : ℕ) : ℂ :=
  (∑ i ∈ range n, ∑ j ∈ range p,
    (x i j : ℂ) * Complex.exp (-(2 * Real.pi * Complex.I * (i * k / n + j * l / p)))) / (Real.sqrt n * Real.sqrt p)

theorem root_exp (n t : ℕ) : root n ^ t = Complex.exp (-(2 * Real.pi * Complex.I * t / n)) := by
  unfold root
  rw [← Complex.exp_neg, ← Complex.exp_nat_mul]
  congr 1
  ring

theorem coef_eq (n : ℕ) (x : ℕ → ℝ) (k : ℕ) : coef n x k = rfft n x k := by
  unfold coef rfft fft
  rw [div_eq_inv_mul]
  congr 1
  apply sum_congr rfl
  intro j _
  rw [root_exp]
  push_cast
  rfl

theorem coef2_eq (n p : ℕ) (x : ℕ → ℕ → ℝ) (k l : ℕ) : coef2 n p x k l = fft n (fun i => rfft p (x i) l) k := by
  unfold coef2 rfft fft
  rw [div_eq_inv_mul, mul_inv, mul_assoc, mul_sum]
  congr 1
  apply sum_congr rfl
  intro i _
  change _ = ((Real.sqrt p : ℂ)⁻¹ * ∑ j ∈ range p, (x i j : ℂ) * root p ^ (j * l)) * root n ^ (i * k)
  rw [mul_assoc (Real.sqrt p : ℂ)⁻¹, sum_mul]
  congr 1
  apply sum_congr rfl
  intro j _
  rw [root_exp, root_exp, mul_assoc (x i j : ℂ), ← Complex.exp_add]
  congr 2
  push_cast
  ring

/-! ## The transform -/

variable {β : Type}

/-- The transform of an array along an axis gives the coefficients of each line, and the backward transform gives the array back;
it raises exactly when the length of the axis is odd. -/
theorem transform_one (n : ℕ) (x : β → ℕ → ℝ) :
    (n % 2 = 1 → forward1 n x = none) ∧
    (n % 2 = 0 → ∃ y, forward1 n x = some y ∧ (∀ b k, y b k = coef n (x b) k) ∧
      ∀ b, ∀ j < n, backward1 (n / 2 + 1) y b j = x b j) := by
  constructor
  · intro h; unfold forward1; rw [if_neg (by omega)]
  · intro h
    refine ⟨fun b => rfft n (x b), by unfold forward1; rw [if_pos h], fun b k => (coef_eq _ _ _).symm, ?_⟩
    intro b j hj
    obtain ⟨q, rfl⟩ : ∃ q, n = 2 * q := ⟨n / 2, by omega⟩
    have : 2 * q / 2 + 1 - 1 = q := by omega
    simp only [backward1, this]
    exact irfft_rfft (by omega) _ hj

theorem backward2_forward2 {q n : ℕ} (hq : 0 < q) (x : ℕ → ℕ → ℝ) {i j : ℕ} (hi : i < n) (hj : j < 2 * q) :
    irfft q (fun l => ifft n (fun k => fft n (fun i => rfft (2 * q) (x i) l) k) i) j = x i j := by
  rw [irfft_congr (z := rfft (2 * q) (x i)) (fun l _ => ifft_fft (fun i => rfft (2 * q) (x i) l) hi)]
  exact irfft_rfft hq _ hj

/-- The same with two axes. -/
theorem transform_two (n p : ℕ) (x : ℕ → ℕ → ℝ) :
    ((n % 2 = 1 ∨ p % 2 = 1) → forward2 n p x = none) ∧
    (n % 2 = 0 → p % 2 = 0 → ∃ y, forward2 n p x = some y ∧ (∀ k l, y k l = coef2 n p x k l) ∧
      ∀ i < n, ∀ j < p, backward2 n (p / 2 + 1) y i j = x i j) := by
  constructor
  · intro h; unfold forward2; rw [if_neg (by omega)]
  · intro h h'
    refine ⟨fun k l => fft n (fun i => rfft p (x i) l) k, by unfold forward2; rw [if_pos ⟨h, h'⟩],
      fun k l => (coef2_eq _ _ _ _ _).symm, ?_⟩
    intro i hi j hj
    obtain ⟨q, rfl⟩ : ∃ q, p = 2 * q := ⟨p / 2, by omega⟩
    have : 2 * q / 2 + 1 - 1 = q := by omega
    simp only [backward2, this]
    exact backward2_forward2 (by omega) x hi hj

/-! ## One axis -/

theorem sizeOf_some {m l : Int} {d s : ℕ} (h : sizeOf m l d = some s) :
    1 ≤ s ∧ (s : Int) ≤ min m l ∧ (s = 1 ∧ min m l = 1 ∨ s = d ∧ (s : Int) < min m l) := by
  simp only [sizeOf] at h
  split at h
  next h1 => cases h; exact ⟨le_rfl, by rw [h1]; rfl, Or.inl ⟨rfl, h1⟩⟩
  next h1 =>
    unfold randint at h
    split at h
    next h2 => cases h; exact ⟨by exact_mod_cast h2.1, h2.2.le, Or.inr ⟨rfl, h2.2⟩⟩
    next => cases h

theorem startOf_some {m s d a : ℕ} (h : startOf m s d = some a) : a = d ∧ a + s < m ∧ 1 < m := by
  unfold startOf at h
  split at h
  next => cases h
  next h1 =>
    unfold randint at h
    split at h
    next h2 => cases h; exact ⟨rfl, by omega, by omega⟩
    next => cases h

theorem crossover1_some {n : ℕ} {maxSize : Int} {size start : ℕ} {x y c : β → ℕ → ℝ}
    (h : crossover1 n maxSize size start x y = some c) :
    ∃ q s, n = 2 * q ∧ 0 < q ∧ sizeOf maxSize q size = some s ∧ start + s ≤ q ∧
      c = fun b => irfft q (fun k => if start ≤ k ∧ k < start + s then rfft n (y b) k else rfft n (x b) k) := by
  unfold crossover1 forward1 at h
  by_cases hn : n % 2 = 0
  · simp only [hn, if_true, Option.bind_eq_bind, Option.bind_some] at h
    rw [Option.bind_eq_some_iff] at h
    obtain ⟨s, hs, h⟩ := h
    rw [Option.bind_eq_some_iff] at h
    obtain ⟨a, ha, h⟩ := h
    obtain ⟨h1, h2, h3⟩ := startOf_some ha
    subst h1
    have e : ((n / 2 + 1 : ℕ) : Int) - 1 = ((n / 2 : ℕ) : Int) := by push_cast; ring
    rw [e] at hs
    refine ⟨n / 2, s, by omega, by omega, hs, by omega, ?_⟩
    cases h
    rfl
  · simp [hn] at h

theorem full_id {q : ℕ} (M : ℕ → ℂ) {k : ℕ} (hk : k ≤ q) (h0 : k = 0 → ((M 0).re : ℂ) = M 0) (hq : ((M q).re : ℂ) = M q) :
    full q M k = M k := by
  unfold full
  split_ifs with h1 h2 h3
  · rw [h0 h1, h1]
  · rfl
  · rw [hq, h3]
  · omega

/-- The child has, at each frequency of the part, the coefficient of the second parent, and that of the first parent at the other
frequencies. The part has at least one frequency and never the last one. -/
theorem one_axis_partial (n : ℕ) (maxSize : Int) (size start : ℕ) (x y c : β → ℕ → ℝ)
    (h : crossover1 n maxSize size start x y = some c) :
    ∃ s : ℕ, 1 ≤ s ∧ (s : Int) ≤ maxSize ∧ start + s ≤ n / 2 ∧ (s = size ∨ s = 1 ∧ (maxSize = 1 ∨ n = 2)) ∧
      ∀ b, ∀ k ≤ n / 2, coef n (c b) k = if start ≤ k ∧ k < start + s then coef n (y b) k else coef n (x b) k := by
  obtain ⟨q, s, rfl, hq, hs, hle, rfl⟩ := crossover1_some h
  obtain ⟨s1, s2, s3⟩ := sizeOf_some hs
  refine ⟨s, s1, by omega, by omega, by omega, ?_⟩
  intro b k hk
  have hk' : k < 2 * q := by omega
  rw [coef_eq, coef_eq, coef_eq, rfft_irfft_full hq _ hk', full_id _ (by omega)]
  · intro h0
    have e1 := rfft_real (x b) (show 0 < 2 * q by omega) (opp_zero _)
    have e2 := rfft_real (y b) (show 0 < 2 * q by omega) (opp_zero _)
    split
    · exact e2
    · exact e1
  · rw [if_neg (by omega)]
    exact rfft_real (x b) (by omega) (by rw [opp_pos hq (by omega)]; omega)

/-- When the crossover of one axis succeeds: the length is even, and the draws are in their ranges. -/
theorem one_axis_defined (n : ℕ) (maxSize : Int) (size start : ℕ) (x y : β → ℕ → ℝ) :
    (crossover1 n maxSize size start x y).isSome ↔
      n % 2 = 0 ∧ 0 < n ∧
        ((min maxSize (n / 2 : ℕ) = 1 ∧ start + 1 ≤ n / 2) ∨
          (1 ≤ size ∧ (size : Int) < min maxSize (n / 2 : ℕ) ∧ start + size ≤ n / 2)) := by
  constructor
  · intro h
    obtain ⟨c, h⟩ := Option.isSome_iff_exists.1 h
    obtain ⟨q, s, rfl, hq, hs, hle, rfl⟩ := crossover1_some h
    obtain ⟨s1, s2, s3⟩ := sizeOf_some hs
    have e : 2 * q / 2 = q := by omega
    rw [e]
    refine ⟨by omega, by omega, ?_⟩
    rcases s3 with ⟨h1, h2⟩ | ⟨h1, h2⟩
    · exact Or.inl ⟨h2, by omega⟩
    · subst h1; exact Or.inr ⟨s1, h2, hle⟩
  · rintro ⟨h1, h2, h3⟩
    have e : ((n / 2 + 1 : ℕ) : Int) - 1 = ((n / 2 : ℕ) : Int) := by push_cast; ring
    have hm : ¬ n / 2 + 1 ≤ 1 := by omega
    unfold crossover1 forward1
    simp only [h1, if_true, Option.bind_eq_bind, Option.bind_some, e]
    rcases h3 with ⟨h4, h5⟩ | ⟨h4, h5, h6⟩
    · have : startOf (n / 2 + 1) 1 start = some start := by
        unfold startOf randint
        rw [if_neg hm, if_pos (by constructor <;> push_cast <;> omega)]
      simp only [sizeOf, h4, if_true, Option.bind_some, this]
      rfl
    · have h7 : min maxSize ((n / 2 : ℕ) : Int) ≠ 1 := by omega
      have h8 : randint 1 (min maxSize ((n / 2 : ℕ) : Int)) size = some size := by
        unfold randint; rw [if_pos (by constructor <;> omega)]
      have : startOf (n / 2 + 1) size start = some start := by
        unfold startOf randint
        rw [if_neg hm, if_pos (by constructor <;> push_cast <;> omega)]
      simp only [sizeOf, h7, if_false, h8, Option.bind_some, this]
      rfl

/-- Two equal parents give their value back. -/
theorem one_axis_same (n : ℕ) (maxSize : Int) (size start : ℕ) (x c : β → ℕ → ℝ)
    (h : crossover1 n maxSize size start x x = some c) : ∀ b, ∀ j < n, c b j = x b j := by
  obtain ⟨q, s, rfl, hq, -, -, rfl⟩ := crossover1_some h
  intro b j hj
  simp only [ite_self]
  exact irfft_rfft hq _ hj

theorem coef_zero (n : ℕ) (x : ℕ → ℝ) : coef n x 0 = ((∑ j ∈ range n, x j : ℝ) : ℂ) / Real.sqrt n := by
  unfold coef
  simp

/-- The mean of the child is that of the second parent when the part starts at the first frequency, and otherwise that of the first
parent. -/
theorem one_axis_mean (n : ℕ) (maxSize : Int) (size start : ℕ) (x y c : β → ℕ → ℝ)
    (h : crossover1 n maxSize size start x y = some c) (b : β) :
    ∑ j ∈ range n, c b j = if start = 0 then ∑ j ∈ range n, y b j else ∑ j ∈ range n, x b j := by
  obtain ⟨s, s1, -, s2, -, hc⟩ := one_axis_partial n maxSize size start x y c h
  have hn : (0 : ℝ) < n := by exact_mod_cast (show 0 < n by omega)
  have hs : (Real.sqrt n : ℂ) ≠ 0 := by exact_mod_cast (Real.sqrt_pos.2 hn).ne'
  have h0 := hc b 0 (by omega)
  rw [coef_zero, coef_zero, coef_zero] at h0
  by_cases hst : start = 0
  · rw [if_pos (by omega)] at h0
    rw [if_pos hst]
    have := (div_left_inj' hs).1 h0
    exact_mod_cast this
  · rw [if_neg (by omega)] at h0
    rw [if_neg hst]
    have := (div_left_inj' hs).1 h0
    exact_mod_cast this

theorem energy_eq (n : ℕ) (x : ℕ → ℝ) : ∑ j ∈ range n, x j ^ 2 = ∑ k ∈ range n, Complex.normSq (coef n x k) := by
  simp only [coef_eq]
  unfold rfft
  rw [parseval]
  apply sum_congr rfl
  intro j _
  rw [Complex.normSq_ofReal]
  ring

theorem energy_half {n : ℕ} (x : ℕ → ℝ) {k : ℕ} (hk : k < n) :
    Complex.normSq (coef n x k) = Complex.normSq (coef n x (opp n k)) := by
  rw [coef_eq, coef_eq, rfft_opp x hk, Complex.normSq_conj]

/-- The sum of the squares of a line of the child is at most the sum of those of the two parents. -/
theorem one_axis_energy (n : ℕ) (maxSize : Int) (size start : ℕ) (x y c : β → ℕ → ℝ)
    (h : crossover1 n maxSize size start x y = some c) (b : β) :
    ∑ j ∈ range n, c b j ^ 2 ≤ ∑ j ∈ range n, x b j ^ 2 + ∑ j ∈ range n, y b j ^ 2 := by
  obtain ⟨s, s1, -, s2, -, hc⟩ := one_axis_partial n maxSize size start x y c h
  rw [energy_eq, energy_eq, energy_eq, ← sum_add_distrib]
  apply sum_le_sum
  intro k hk
  have hk := mem_range.1 hk
  have key : ∀ k ≤ n / 2, Complex.normSq (coef n (c b) k) ≤ Complex.normSq (coef n (x b) k) + Complex.normSq (coef n (y b) k) := by
    intro k hk
    rw [hc b k hk]
    have := Complex.normSq_nonneg (coef n (x b) k)
    have := Complex.normSq_nonneg (coef n (y b) k)
    split <;> linarith
  by_cases h1 : k ≤ n / 2
  · exact key k h1
  · rw [energy_half (c b) hk, energy_half (x b) hk, energy_half (y b) hk]
    apply key
    rw [opp_pos (by omega) hk]
    omega

/-- The last frequency of the child is always that of the first parent. -/
theorem one_axis_last (n : ℕ) (maxSize : Int) (size start : ℕ) (x y c : β → ℕ → ℝ)
    (h : crossover1 n maxSize size start x y = some c) (b : β) : coef n (c b) (n / 2) = coef n (x b) (n / 2) := by
  obtain ⟨s, s1, -, s2, -, hc⟩ := one_axis_partial n maxSize size start x y c h
  rw [hc b _ le_rfl, if_neg (by omega)]

/-- With bounds the value is in the bounds, and it is that of the crossover wherever that is in the bounds. -/
theorem bounds_kept (lo hi : Option ℝ) (n : ℕ) (maxSize : Int) (size start : ℕ) (x y r : β → ℕ → ℝ)
    (hb : ∀ a ∈ lo, ∀ b ∈ hi, a ≤ b) (h : recombine1 lo hi n maxSize size start x y = some r) :
    ∃ c, crossover1 n maxSize size start x y = some c ∧ ∀ b j,
      (∀ a ∈ lo, a ≤ r b j) ∧ (∀ a ∈ hi, r b j ≤ a) ∧
      ((∀ a ∈ lo, a ≤ c b j) → (∀ a ∈ hi, c b j ≤ a) → r b j = c b j) := by
  unfold recombine1 at h
  obtain ⟨c, hc, rfl⟩ := Option.map_eq_some_iff.1 h
  refine ⟨c, hc, fun b j => ?_⟩
  rcases lo with _ | lo <;> rcases hi with _ | hi <;> simp only [clip, Option.mem_def, Option.some.injEq, forall_eq', reduceCtorEq,
    false_implies, implies_true, true_and, and_true, forall_const]
  · exact ⟨min_le_right _ _, fun h => min_eq_left h⟩
  · exact ⟨le_max_right _ _, fun h => max_eq_left h⟩
  · have := hb lo rfl hi rfl
    refine ⟨le_min (le_max_right _ _) this, min_le_right _ _, fun h1 h2 => ?_⟩
    rw [max_eq_left h1, min_eq_left h2]

/-! ## Two axes -/

theorem re_fft {n : ℕ} (y : ℕ → ℂ) {k : ℕ} (hk : k < n) :
    fft n (fun i => ((ifft n y i).re : ℂ)) k = (y k + (starRingEnd ℂ) (y (opp n k))) / 2 := by
  have e : (fun i => ((ifft n y i).re : ℂ)) = fun i => (1 / 2 : ℂ) * (ifft n y i + (starRingEnd ℂ) (ifft n y i)) := by
    funext i
    rw [Complex.add_conj]
    push_cast
    ring
  rw [e, fft_smul, fft_add, fft_conj _ hk, fft_ifft _ hk, fft_ifft _ (opp_lt hk)]
  ring

theorem coef2_conj {n p : ℕ} (x : ℕ → ℕ → ℝ) {k l : ℕ} (hk : k < n) (hl : l < p) (ho : opp p l = l) :
    (starRingEnd ℂ) (coef2 n p x (opp n k) l) = coef2 n p x k l := by
  rw [coef2_eq, coef2_eq, ← fft_conj _ hk]
  apply fft_congr
  intro i _
  conv_rhs => rw [rfft_opp (x i) hl, ho]

theorem crossover2_some {n p : ℕ} {maxSize : Int} {size start start' : ℕ} {x y c : ℕ → ℕ → ℝ}
    (h : crossover2 n p maxSize size start start' x y = some c) :
    ∃ q s, p = 2 * q ∧ 0 < q ∧ n % 2 = 0 ∧ sizeOf maxSize (min ((n : Int) - 1) q) size = some s ∧ start + s < n ∧ start' + s ≤ q ∧
      c = fun i => irfft q (fun l => ifft n (fun k =>
        if (start ≤ k ∧ k < start + s) ∧ (start' ≤ l ∧ l < start' + s) then coef2 n p y k l else coef2 n p x k l) i) := by
  unfold crossover2 forward2 at h
  by_cases hn : n % 2 = 0 ∧ p % 2 = 0
  · simp only [hn, if_true, Option.bind_eq_bind, Option.bind_some, and_self] at h
    rw [Option.bind_eq_some_iff] at h
    obtain ⟨s, hs, h⟩ := h
    rw [Option.bind_eq_some_iff] at h
    obtain ⟨a, ha, h⟩ := h
    rw [Option.bind_eq_some_iff] at h
    obtain ⟨a', ha', h⟩ := h
    obtain ⟨h1, h2, h3⟩ := startOf_some ha
    obtain ⟨h1', h2', h3'⟩ := startOf_some ha'
    subst h1; subst h1'
    have e : ((p / 2 + 1 : ℕ) : Int) - 1 = ((p / 2 : ℕ) : Int) := by push_cast; ring
    rw [e] at hs
    refine ⟨p / 2, s, by omega, by omega, hn.1, hs, h2, by omega, ?_⟩
    cases h
    simp only [coef2_eq]
    rfl
  · rw [if_neg hn] at h; cases h

/-- The frequency is in the part, on the first axis. -/
abbrev inPart (a s k : ℕ) : Prop := a ≤ k ∧ k < a + s

/-- With two axes the coefficients of the child are those of the second parent in the part and those of the first elsewhere, when the
frequency of the last axis is not zero. When it is zero, the coefficient is that of the second parent if the frequency of the first
axis and its opposite are in the part, that of the first parent if none of them is, and otherwise their mean. -/
theorem two_axes (n p : ℕ) (maxSize : Int) (size start start' : ℕ) (x y c : ℕ → ℕ → ℝ)
    (h : crossover2 n p maxSize size start start' x y = some c) :
    ∃ s : ℕ, 1 ≤ s ∧ (s : Int) ≤ maxSize ∧ start + s < n ∧ start' + s ≤ p / 2 ∧
      ∀ k < n, ∀ l ≤ p / 2, coef2 n p c k l =
        if l < start' ∨ start' + s ≤ l then coef2 n p x k l
        else if 0 < l then (if inPart start s k then coef2 n p y k l else coef2 n p x k l)
        else if inPart start s k ∧ inPart start s ((n - k) % n) then coef2 n p y k l
        else if inPart start s k ∨ inPart start s ((n - k) % n) then (coef2 n p x k l + coef2 n p y k l) / 2
        else coef2 n p x k l := by
  obtain ⟨q, s, rfl, hq, hn, hs, hle, hle', rfl⟩ := crossover2_some h
  obtain ⟨s1, s2, s3⟩ := sizeOf_some hs
  refine ⟨s, s1, by omega, hle, by omega, ?_⟩
  intro k hk l hl
  have hl' : l < 2 * q := by omega
  generalize hM : (fun (k l : ℕ) => if (start ≤ k ∧ k < start + s) ∧ (start' ≤ l ∧ l < start' + s) then coef2 n (2 * q) y k l
    else coef2 n (2 * q) x k l) = M
  have hM' : ∀ k l, M k l = if (start ≤ k ∧ k < start + s) ∧ (start' ≤ l ∧ l < start' + s) then coef2 n (2 * q) y k l
    else coef2 n (2 * q) x k l := by intro k l; rw [← hM]
  simp only [← hM']
  rw [coef2_eq]
  simp only [rfft_irfft_full hq _ hl']
  by_cases hin : 0 < l ∧ l < q
  · have : ∀ i, full q (fun l => ifft n (fun k => M k l) i) l = ifft n (fun k => M k l) i := by
      intro i
      unfold full
      rw [if_neg (by omega), if_pos hin.2]
    simp only [this]
    rw [fft_ifft _ hk, hM']
    unfold inPart
    split_ifs <;> first | rfl | (exfalso; omega)
  · have ho : opp (2 * q) l = l := by
      rcases Nat.eq_zero_or_pos l with h0 | h0
      · rw [h0, opp_zero]
      · rw [opp_pos h0 hl']; omega
    have : ∀ i, full q (fun l => ifft n (fun k => M k l) i) l = ((ifft n (fun k => M k l) i).re : ℂ) := by
      intro i
      unfold full
      rcases Nat.eq_zero_or_pos l with h0 | h0
      · rw [if_pos h0, h0]
      · have hlq : l = q := by omega
        rw [if_neg (by omega), if_neg (by omega), if_pos hlq, hlq]
    simp only [this]
    rw [re_fft _ hk, hM', hM', apply_ite (starRingEnd ℂ), coef2_conj x hk hl' ho, coef2_conj y hk hl' ho]
    unfold inPart
    change (_ + if (start ≤ opp n k ∧ opp n k < start + s) ∧ _ then _ else _) / 2 = _
    have hopp : (n - k) % n = opp n k := rfl
    simp only [hopp]
    split_ifs <;> first | (exfalso; omega) | ring

/-- Two equal parents give their value back with two axes as well. -/
theorem two_axes_same (n p : ℕ) (maxSize : Int) (size start start' : ℕ) (x c : ℕ → ℕ → ℝ)
    (h : crossover2 n p maxSize size start start' x x = some c) : ∀ i < n, ∀ j < p, c i j = x i j := by
  obtain ⟨q, s, rfl, hq, hn, hs, hle, hle', rfl⟩ := crossover2_some h
  intro i hi j hj
  simp only [ite_self, coef2_eq]
  exact backward2_forward2 hq x hi hj

/-- A single value, in the corner. -/
def corner (i j : ℕ) : ℝ := if i = 0 ∧ j = 0 then 1 else 0

theorem coef2_corner {n p : ℕ} (hn : 0 < n) (hp : 0 < p) (k l : ℕ) : coef2 n p corner k l = 1 / (Real.sqrt n * Real.sqrt p) := by
  unfold coef2 corner
  congr 1
  rw [sum_eq_single 0, sum_eq_single 0]
  · simp
  · intro j _ hj; simp [hj]
  · intro h; exact absurd (mem_range.2 hp) h
  · intro i _ hi
    apply sum_eq_zero
    intro j _
    simp [hi]
  · intro h; exact absurd (mem_range.2 hn) h

theorem coef2_null (n p k l : ℕ) : coef2 n p (fun _ _ => 0) k l = 0 := by
  unfold coef2; simp

/-- With two axes a coefficient of the child can be that of none of the parents: an array of four lines and two columns, for which
there is a single size. -/
theorem two_axes_neither :
    ∃ c, crossover2 4 2 1 0 1 0 (fun _ _ => 0) corner = some c ∧
      coef2 4 2 c 1 0 ≠ coef2 4 2 (fun _ _ => 0) 1 0 ∧ coef2 4 2 c 1 0 ≠ coef2 4 2 corner 1 0 := by
  have hs : (crossover2 4 2 1 0 1 0 (fun _ _ => 0) corner).isSome := by
    simp [crossover2, forward2, sizeOf, startOf, randint]
  obtain ⟨c, hc⟩ := Option.isSome_iff_exists.1 hs
  refine ⟨c, hc, ?_⟩
  obtain ⟨s, s1, s2, s3, s4, hall⟩ := two_axes 4 2 1 0 1 0 _ _ c hc
  have hs1 : s = 1 := by omega
  subst hs1
  have := hall 1 (by omega) 0 (by omega)
  rw [if_neg (by omega), if_neg (by omega), if_neg (by unfold inPart; omega), if_pos (by unfold inPart; omega), coef2_null,
    coef2_corner (by omega) (by omega)] at this
  rw [this, coef2_null, coef2_corner (by omega) (by omega)]
  have hne : (1 / ((Real.sqrt (4 : ℕ) : ℂ) * (Real.sqrt (2 : ℕ) : ℂ))) ≠ 0 := by
    apply one_div_ne_zero
    apply mul_ne_zero <;> (rw [Complex.ofReal_ne_zero]; apply Real.sqrt_ne_zero'.2; norm_num)
  constructor
  · intro h
    apply hne
    linear_combination 2 * h
  · intro h
    apply hne
    linear_combination -2 * h

/-! ## Examples -/

/-- A crossover of one axis which succeeds, with a part of two frequencies out of five. -/
example : ∃ c, crossover1 8 3 2 1 (fun (_ : Unit) j => (j : ℝ)) (fun _ _ => 1) = some c ∧
    ∑ j ∈ range 8, c () j = 28 := by
  obtain ⟨c, hc⟩ := Option.isSome_iff_exists.1
    ((one_axis_defined 8 3 2 1 (fun (_ : Unit) j => (j : ℝ)) (fun _ _ => 1)).2 (by norm_num))
  refine ⟨c, hc, ?_⟩
  rw [one_axis_mean _ _ _ _ _ _ _ hc, if_neg (by norm_num)]
  norm_num [sum_range_succ]

/-- An odd length is refused. -/
example : forward1 3 (fun (_ : Unit) _ => (1 : ℝ)) = none := (transform_one 3 _).1 rfl

end Fourier
end NG
