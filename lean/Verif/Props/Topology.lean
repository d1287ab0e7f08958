import Verif.Model.Topology
import Mathlib.Tactic.Linarith
import Mathlib.Tactic.Positivity
import Mathlib.Tactic.FieldSimp
import Mathlib.Tactic.Ring
import Mathlib.Algebra.Order.BigOperators.Group.Finset

/-! # C124: the toy topology optimization -/

namespace NG.Topology

/-- C124: the wanted values are 3/4 and -3/4. -/
theorem target_values (n idx i j : Nat) : target n idx i j = 0.75 ∨ target n idx i j = -0.75 := by
  have h : ∀ p : Prop, ∀ [Decidable p], (1.5 : ℝ) * ((if p then 1 else 0) - 0.5) = 0.75 ∨ (1.5 : ℝ) * ((if p then 1 else 0) - 0.5) = -0.75 := by
    intro p _
    split
    · left; norm_num
    · right; norm_num
  classical
  simp only [target]
  split <;> split
  · rcases h (pattern n idx j i) with h | h <;> (beta_reduce; rw [h]; norm_num)
  · rcases h (pattern n idx i j) with h | h <;> (beta_reduce; rw [h]; norm_num)
  · exact h _
  · exact h _

variable {n : Nat} (idx : Nat) (filter : (Fin n → Fin n → ℝ) → Fin n → Fin n → ℝ) (x : Fin n → Fin n → ℝ)

theorem norm_zero : Real.sqrt (∑ p : Fin n × Fin n, (x p.1 p.2 - filter x p.1 p.2) ^ 2) = 0 ↔ ∀ i j, filter x i j = x i j := by
  rw [Real.sqrt_eq_zero (Finset.sum_nonneg fun _ _ => sq_nonneg _), Finset.sum_eq_zero_iff_of_nonneg fun _ _ => sq_nonneg _]
  constructor
  · intro h i j
    have := h (i, j) (Finset.mem_univ _)
    have := pow_eq_zero_iff (two_ne_zero) |>.1 this
    linarith
  · intro h p _
    rw [h]; ring

/-- C124: the value is never negative, and it is zero exactly when all elements are close to the wanted ones and the filter has no effect. -/
theorem objective_zero (hn : 0 < n) : 0 ≤ objective n idx filter x ∧
    (objective n idx filter x = 0 ↔ (∀ i j : Fin n, |x i j - target n idx i j| ≤ 0.3) ∧ ∀ i j, filter x i j = x i j) := by
  classical
  have hn' : (0 : ℝ) < n := by exact_mod_cast hn
  have hnn : (0 : ℝ) < ((n * n : ℕ) : ℝ) := by push_cast; positivity
  simp only [objective]
  set c : ℝ := (((Finset.univ.filter fun p : Fin n × Fin n => |x p.1 p.2 - target n idx p.1 p.2| > 0.3).card : ℕ) : ℝ) with hc
  set r := Real.sqrt (∑ p : Fin n × Fin n, (x p.1 p.2 - filter x p.1 p.2) ^ 2) with hr
  have hc0 : 0 ≤ c := Nat.cast_nonneg _
  have hr0 : 0 ≤ r := Real.sqrt_nonneg _
  have h1 : 0 ≤ 5 * c / ((n * n : ℕ) : ℝ) := by positivity
  have h2 : 0 ≤ 3 * r / (n : ℝ) := by positivity
  refine ⟨by linarith, ?_⟩
  have hcz : c = 0 ↔ ∀ i j : Fin n, |x i j - target n idx i j| ≤ 0.3 := by
    rw [hc, Nat.cast_eq_zero, Finset.card_eq_zero, Finset.filter_eq_empty_iff]
    constructor
    · intro h i j
      exact not_lt.1 (h (Finset.mem_univ (i, j)))
    · intro h p _
      exact not_lt.2 (h p.1 p.2)
  rw [← hcz, ← norm_zero filter x, ← hr]
  constructor
  · intro h
    have e1 : 5 * c / ((n * n : ℕ) : ℝ) = 0 := by linarith
    have e2 : 3 * r / (n : ℝ) = 0 := by linarith
    rw [div_eq_zero_iff] at e1 e2
    constructor
    · rcases e1 with e | e
      · linarith
      · exact absurd e hnn.ne'
    · rcases e2 with e | e
      · linarith
      · exact absurd e hn'.ne'
  · rintro ⟨e1, e2⟩
    rw [e1, e2]; simp

/-- C124: an array that the filter leaves unchanged has the value five times its share of wrong elements. -/
theorem objective_share (h : ∀ i j, filter x i j = x i j) (k : Nat)
    (hk : Nat.card {p : Fin n × Fin n // 0.3 < |x p.1 p.2 - target n idx p.1 p.2|} = k) : objective n idx filter x = 5 * k / (n * n : ℕ) := by
  classical
  simp only [objective]
  rw [(norm_zero filter x).2 h, ← hk, Nat.card_eq_fintype_card, Fintype.card_subtype]
  simp

/-- C124: with a filter that keeps the range, the value is at most 11. -/
theorem objective_le (hn : 0 < n) (hx : ∀ i j, |x i j| ≤ 1) (hf : ∀ i j, |filter x i j| ≤ 1) : objective n idx filter x ≤ 11 := by
  classical
  have hn' : (0 : ℝ) < n := by exact_mod_cast hn
  have hnn : (0 : ℝ) < ((n * n : ℕ) : ℝ) := by push_cast; positivity
  simp only [objective]
  have h1 : 5 * (((Finset.univ.filter fun p : Fin n × Fin n => |x p.1 p.2 - target n idx p.1 p.2| > 0.3).card : ℕ) : ℝ) / ((n * n : ℕ) : ℝ) ≤ 5 := by
    rw [div_le_iff₀ hnn]
    have : (Finset.univ.filter fun p : Fin n × Fin n => |x p.1 p.2 - target n idx p.1 p.2| > 0.3).card ≤ n * n := by
      refine le_trans (Finset.card_le_univ _) ?_
      simp
    have : (((Finset.univ.filter fun p : Fin n × Fin n => |x p.1 p.2 - target n idx p.1 p.2| > 0.3).card : ℕ) : ℝ) ≤ ((n * n : ℕ) : ℝ) := by exact_mod_cast this
    linarith
  have h2 : Real.sqrt (∑ p : Fin n × Fin n, (x p.1 p.2 - filter x p.1 p.2) ^ 2) ≤ 2 * n := by
    rw [Real.sqrt_le_left (by positivity)]
    calc ∑ p : Fin n × Fin n, (x p.1 p.2 - filter x p.1 p.2) ^ 2 ≤ ∑ _p : Fin n × Fin n, (4 : ℝ) := by
          refine Finset.sum_le_sum fun p _ => ?_
          have h1 := abs_le.1 (hx p.1 p.2)
          have h2 := abs_le.1 (hf p.1 p.2)
          nlinarith
      _ = (2 * n) ^ 2 := by simp; ring
  have h3 : 3 * Real.sqrt (∑ p : Fin n × Fin n, (x p.1 p.2 - filter x p.1 p.2) ^ 2) / (n : ℝ) ≤ 6 := by
    rw [div_le_iff₀ hn']; linarith
  linarith

/-- C124: the middle of the domain, with which an optimizer starts, is wrong everywhere. -/
theorem objective_init (hn : 0 < n) (hf : ∀ i j, filter (fun _ _ => 0) i j = 0) : objective n idx filter (fun _ _ => 0) = 5 := by
  classical
  have hn' : (0 : ℝ) < n := by exact_mod_cast hn
  rw [objective_share idx filter _ hf (n * n)]
  · push_cast; field_simp
  · rw [Nat.card_eq_fintype_card, Fintype.card_subtype, Finset.filter_true_of_mem]
    · simp
    · intro p _
      rcases target_values n idx p.1 p.2 with h | h <;> rw [h] <;> norm_num

/-- C124 fails for many instances of the second pattern: when the number of the instance is large, all wanted values are the same, and a constant array has the best value. -/
theorem constant_target (h12 : (idx / 12) % 2 = 0) (hbig : 160 * n < idx) (hn : 0 < n) (hf : ∀ c : ℝ, ∀ i j, filter (fun _ _ => c) i j = c) :
    ∃ c : ℝ, (∀ i j : Nat, target n idx i j = c) ∧ objective n idx filter (fun _ _ => c) = 0 := by
  classical
  have hb : (160 * n : ℝ) < idx := by exact_mod_cast hbig
  have hpat : ∀ i j : Nat, pattern n idx i j := by
    intro i j
    simp only [pattern]
    rw [if_neg (by omega)]
    have h1 : (0 : ℝ) ≤ ((idx % 3 : ℕ) : ℝ) * i := by positivity
    have h2 : (0 : ℝ) ≤ ((2 - idx % 3 : ℕ) : ℝ) * j := by positivity
    linarith
  have hc : ∃ c : ℝ, ∀ i j : Nat, target n idx i j = c := by
    refine ⟨target n idx 0 0, fun i j => ?_⟩
    simp only [target]
    split <;> split <;> simp [hpat]
  obtain ⟨c, hc⟩ := hc
  refine ⟨c, hc, ?_⟩
  rw [((objective_zero idx filter (fun _ _ => c) hn).2)]
  refine ⟨fun i j => ?_, hf c⟩
  rw [hc]; norm_num

/-- C124, as far as it holds: for the instances of the second pattern with small numbers both wanted values occur, and no constant array has the best value. What is missing is the same for the
other instances of this pattern, for which it is false, and for the first pattern. -/
theorem mixed_target_partial (h12 : (idx / 12) % 2 = 0) (hsmall : idx ≤ 160 * n) (hlarge : 160 * n < idx + 200 * (n - 1)) (c : ℝ) : objective n idx filter (fun _ _ => c) ≠ 0 := by
  classical
  have hn : 0 < n := by omega
  have hs : (idx : ℝ) ≤ 160 * n := by exact_mod_cast hsmall
  have hl : (160 * n : ℝ) < idx + 200 * ((n - 1 : ℕ) : ℝ) := by exact_mod_cast hlarge
  intro h
  obtain ⟨h, -⟩ := ((objective_zero idx filter (fun _ _ => c) hn).2).1 h
  have h0 := h ⟨0, hn⟩ ⟨0, hn⟩
  have h1 := h ⟨n - 1, by omega⟩ ⟨n - 1, by omega⟩
  have p0 : ¬ pattern n idx 0 0 := by
    simp only [pattern]
    rw [if_neg (by omega)]
    push_cast
    linarith
  have p1 : pattern n idx (n - 1) (n - 1) := by
    simp only [pattern]
    rw [if_neg (by omega)]
    have hsum : ((idx % 3 : ℕ) : ℝ) * ((n - 1 : ℕ) : ℝ) + ((2 - idx % 3 : ℕ) : ℝ) * ((n - 1 : ℕ) : ℝ) = 2 * ((n - 1 : ℕ) : ℝ) := by
      rw [← add_mul]
      congr 1
      have : idx % 3 + (2 - idx % 3) = 2 := by omega
      exact_mod_cast this
    linarith
  have e : target n idx 0 0 = - target n idx (n - 1) (n - 1) := by
    simp only [target]
    split <;> split <;> simp only [p0, p1, if_true, if_false] <;> norm_num
  simp only at h0 h1
  rw [e] at h0
  have a0 := abs_le.1 h0
  have a1 := abs_le.1 h1
  rcases target_values n idx (n - 1) (n - 1) with h | h <;> rw [h] at a0 a1 <;> norm_num at a0 a1 <;> linarith [a0.1, a0.2, a1.1, a1.2]

/-- More than two fifths of the 50000 instances of size 50 have a constant target. -/
example : ((List.range 50000).filter fun idx => decide ((idx / 12) % 2 = 0) && decide (160 * 50 < idx)).length = 20999 := by decide +kernel

example : objective 1 0 (fun x => x) (fun _ _ => -1) = 0 := by
  have h : ∀ i j : Fin 1, |(-1 : ℝ) - target 1 0 i j| ≤ 0.3 := by
    intro i j
    fin_cases i; fin_cases j
    have : ¬ pattern 1 0 0 0 := by simp [pattern]; norm_num
    simp only [target]
    simp [this]
    norm_num
  exact ((objective_zero 0 (fun x => x) (fun _ _ => -1) (by norm_num)).2).2 ⟨h, fun _ _ => rfl⟩

end NG.Topology
