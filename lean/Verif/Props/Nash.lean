/-
C153: the empirical distribution of the points that were evaluated most.
-/
import Verif.Model.Nash
import Mathlib.Algebra.BigOperators.Group.List.Basic
import Mathlib.Algebra.Order.BigOperators.Group.List
import Mathlib.Tactic.Linarith
import Mathlib.Tactic.FieldSimp
import Mathlib.Tactic.Positivity
import Mathlib.Tactic.Ring
import Mathlib.Data.List.Dedup

namespace NG.Nash

variable {K P : Type}

theorem le_maxCount (a : List (K × Nat)) (e : K × Nat) (h : e ∈ a) : e.2 ≤ maxCount a := by
  induction a with
  | nil => simp at h
  | cons x a ih =>
    simp only [maxCount, List.map_cons, List.foldr_cons] at ih ⊢
    rcases List.mem_cons.1 h with rfl | h
    · exact le_max_left _ _
    · exact (ih h).trans (le_max_right _ _)

theorem maxCount_mem (a : List (K × Nat)) (h : a ≠ []) : ∃ e ∈ a, e.2 = maxCount a := by
  induction a with
  | nil => exact absurd rfl h
  | cons x a ih =>
    rcases eq_or_ne a [] with rfl | ha
    · exact ⟨x, by simp, by simp [maxCount]⟩
    · obtain ⟨e, he, hm⟩ := ih ha
      rcases le_total x.2 (maxCount a) with hx | hx
      · exact ⟨e, by simp [he], by rw [hm]; simp only [maxCount, List.map_cons, List.foldr_cons] at hx ⊢; exact (max_eq_right hx).symm⟩
      · exact ⟨x, by simp, by simp only [maxCount, List.map_cons, List.foldr_cons] at hx ⊢; exact (max_eq_left hx).symm⟩

/-- Specification: the points with a count at least the square root of the greatest one. -/
def Frequent (a : List (K × Nat)) (e : K × Nat) : Prop := e ∈ a ∧ ∀ x ∈ a, x.2 ≤ e.2 ^ 2

theorem frequent_iff (a : List (K × Nat)) (e : K × Nat) (h : e ∈ a) : frequent a e.2 = true ↔ Frequent a e := by
  unfold frequent Frequent
  rw [decide_eq_true_eq]
  constructor
  · intro hm
    exact ⟨h, fun x hx => by rw [pow_two]; exact (le_maxCount a x hx).trans hm⟩
  · rintro ⟨-, hm⟩
    obtain ⟨x, hx, e'⟩ := maxCount_mem a (List.ne_nil_of_mem h)
    rw [← e', ← pow_two]
    exact hm x hx

/-- **C153.** When a point was evaluated more than the square root of all the evaluations, the distribution has exactly the points with at least the square
root of its count, with their counts, in increasing order. -/
theorem distribution (a : List (K × Nat)) (best : K) (r : P) (top : K × Nat) (ht : top ∈ a) (h : sumCount a < top.2 ^ 2) :
    (∀ k c, (Point.data k, c) ∈ getNash a best r ↔ Frequent a (k, c)) ∧ (∀ p c, (Point.param p, c) ∉ getNash a best r) ∧
      ((getNash a best r).map (·.2)).Pairwise (· ≤ ·) ∧ (getNash a best r).length = (a.filter fun e => frequent a e.2).length := by
  have hne : a ≠ [] := List.ne_nil_of_mem ht
  have hm : ¬ maxCount a * maxCount a ≤ sumCount a := by
    have := le_maxCount a top ht
    rw [not_le]
    calc sumCount a < top.2 ^ 2 := h
      _ = top.2 * top.2 := pow_two _
      _ ≤ _ := Nat.mul_le_mul this this
  have e : getNash a best r = ((a.filter fun e => frequent a e.2).insertionSort fun a b => a.2 ≤ b.2).map fun e => (Point.data e.1, e.2) := by
    rw [getNash, if_neg hne, if_neg hm]
  rw [e]
  refine ⟨?_, ?_, ?_, ?_⟩
  · intro k c
    simp only [List.mem_map, List.mem_insertionSort, List.mem_filter, Prod.mk.injEq, Point.data.injEq]
    constructor
    · rintro ⟨x, ⟨hx, hf⟩, rfl, rfl⟩
      exact (frequent_iff a x hx).1 hf
    · intro hF
      exact ⟨(k, c), ⟨hF.1, (frequent_iff a (k, c) hF.1).2 hF⟩, rfl, rfl⟩
  · intro p c hc
    simp at hc
  · have := List.pairwise_insertionSort (fun a b : K × Nat => a.2 ≤ b.2) (a.filter fun e => frequent a e.2)
    rw [List.map_map, List.pairwise_map]
    exact this
  · simp

/-- **C153.** Otherwise the recommendation is the only point; without any evaluation it is the pessimistic best. -/
theorem fallback (a : List (K × Nat)) (best : K) (r : P) :
    (getNash ([] : List (K × Nat)) best r = [(.data best, 1)]) ∧
      (a ≠ [] → (∀ e ∈ a, e.2 ^ 2 ≤ sumCount a) → getNash a best r = [(.param r, 1)]) := by
  refine ⟨by simp [getNash], fun hne h => ?_⟩
  obtain ⟨e, he, hm⟩ := maxCount_mem a hne
  have := h e he
  rw [hm, pow_two] at this
  rw [getNash, if_neg hne, if_pos this]

/-- **C153.** If no point was evaluated twice, the recommendation is the only point. -/
theorem deterministic_fallback (a : List (K × Nat)) (best : K) (r : P) (hne : a ≠ []) (h : ∀ e ∈ a, e.2 = 1) : getNash a best r = [(.param r, 1)] := by
  refine (fallback a best r).2 hne fun e he => ?_
  rw [h e he, one_pow]
  calc 1 = e.2 := (h e he).symm
    _ ≤ sumCount a := List.single_le_sum (by simp) _ (List.mem_map_of_mem he)

/-- **C153.** There is always a point, and every count is positive. -/
theorem nonempty (a : List (K × Nat)) (best : K) (r : P) (h : ∀ e ∈ a, 1 ≤ e.2) : getNash a best r ≠ [] ∧ ∀ x ∈ getNash a best r, 1 ≤ x.2 := by
  rcases eq_or_ne a [] with rfl | hne
  · simp [getNash]
  · obtain ⟨e, he, hm⟩ := maxCount_mem a hne
    by_cases hs : maxCount a * maxCount a ≤ sumCount a
    · rw [getNash, if_neg hne, if_pos hs]
      simp
    · have hlt : sumCount a < e.2 ^ 2 := by rw [hm, pow_two]; exact not_le.1 hs
      have hd := distribution a best r e he hlt
      have hF : Frequent a e := by
        refine ⟨he, fun x hx => ?_⟩
        have h1 := le_maxCount a x hx
        have h2 := h e he
        rw [← hm] at h1
        nlinarith
      constructor
      · intro hnil
        have := (hd.1 e.1 e.2).2 hF
        rw [hnil] at this
        simp at this
      · rintro ⟨p, c⟩ hx
        cases p with
        | data k => exact h _ ((hd.1 k c).1 hx).1
        | param p => exact absurd hx (hd.2.1 p c)

theorem sum_le_of_sublist {l m : List Nat} (h : List.Sublist l m) : l.sum ≤ m.sum := by
  induction h with
  | slnil => simp
  | cons a _ ih => rw [List.sum_cons]; omega
  | cons_cons a _ ih => rw [List.sum_cons, List.sum_cons]; omega

/-- **C153.** The distribution is limited: the square of the number of its points is less than the cube of the greatest count. -/
theorem limited (a : List (K × Nat)) (best : K) (r : P) (top : K × Nat) (ht : top ∈ a) (htop : ∀ e ∈ a, e.2 ≤ top.2) (h : sumCount a < top.2 ^ 2) :
    (getNash a best r).length ^ 2 < top.2 ^ 3 := by
  obtain ⟨-, -, -, hl⟩ := distribution a best r top ht h
  rw [hl]
  set f := a.filter fun e => frequent a e.2 with hf
  have hmax : maxCount a = top.2 := by
    obtain ⟨e, he, hm⟩ := maxCount_mem a (List.ne_nil_of_mem ht)
    exact le_antisymm (hm ▸ htop e he) (le_maxCount a top ht)
  have hsum : (f.map (·.2)).sum ≤ sumCount a := sum_le_of_sublist (List.filter_sublist.map _)
  have key : ∀ l : List (K × Nat), (∀ e ∈ l, top.2 ≤ e.2 * e.2) → l.length ^ 2 * top.2 ≤ ((l.map (·.2)).sum) ^ 2 := by
    intro l hl
    have hs : l.length * Nat.sqrt (top.2 - 1) + l.length ≤ (l.map (·.2)).sum ∨ top.2 = 0 := by
      rcases Nat.eq_zero_or_pos top.2 with h0 | hp
      · exact Or.inr h0
      left
      induction l with
      | nil => simp
      | cons x l ih =>
        have hx := hl x (by simp)
        have h1 : Nat.sqrt (top.2 - 1) < x.2 := Nat.sqrt_lt.2 (by omega)
        have h2 := ih fun e he => hl e (List.mem_cons_of_mem _ he)
        rw [List.length_cons, List.map_cons, List.sum_cons]
        nlinarith
    rcases hs with hs | h0
    · have h3 : top.2 ≤ (Nat.sqrt (top.2 - 1) + 1) ^ 2 := by
        have := Nat.lt_succ_sqrt (top.2 - 1)
        rw [Nat.succ_eq_add_one] at this
        rw [pow_two]; omega
      calc l.length ^ 2 * top.2 ≤ l.length ^ 2 * (Nat.sqrt (top.2 - 1) + 1) ^ 2 := Nat.mul_le_mul_left _ h3
        _ = (l.length * Nat.sqrt (top.2 - 1) + l.length) ^ 2 := by ring
        _ ≤ _ := Nat.pow_le_pow_left hs 2
    · rw [h0]; simp
  have h1 := key f (by
    intro e he
    have := (List.mem_filter.1 he).2
    simp only [frequent, decide_eq_true_eq, hmax] at this
    exact this)
  have h2 : ((f.map (·.2)).sum) ^ 2 < (top.2 ^ 2) ^ 2 := Nat.pow_lt_pow_left (hsum.trans_lt h) (by simp)
  have hp : 0 < top.2 := by
    rcases Nat.eq_zero_or_pos top.2 with h0 | hp
    · rw [h0] at h; simp at h
    · exact hp
  have h3 : f.length ^ 2 * top.2 < top.2 ^ 3 * top.2 := by
    calc f.length ^ 2 * top.2 < (top.2 ^ 2) ^ 2 := h1.trans_lt h2
      _ = top.2 ^ 3 * top.2 := by ring
  exact Nat.lt_of_mul_lt_mul_right h3

/-- **C153.** The probabilities are proportional to the counts and have sum one. -/
theorem probabilities_spec (a : List (K × Nat)) (best : K) (r : P) (h : ∀ e ∈ a, 1 ≤ e.2) :
    (probabilities (getNash a best r)).sum = 1 ∧ (∀ q ∈ probabilities (getNash a best r), 0 < q) ∧
      ∀ (i j : Nat) x y p q, (getNash a best r)[i]? = some x → (getNash a best r)[j]? = some y → (probabilities (getNash a best r))[i]? = some p →
        (probabilities (getNash a best r))[j]? = some q → p * y.2 = q * x.2 := by
  obtain ⟨hne, hpos⟩ := nonempty a best r h
  generalize getNash a best r = n at hne hpos
  have hs : 0 < (n.map fun e => (e.2 : ℚ)).sum := by
    obtain ⟨x, l, rfl⟩ := List.exists_cons_of_ne_nil hne
    rw [List.map_cons, List.sum_cons]
    have h1 : (0 : ℚ) < x.2 := by exact_mod_cast hpos x (by simp)
    have h2 : 0 ≤ (l.map fun e => (e.2 : ℚ)).sum := List.sum_nonneg (by
      intro y hy
      obtain ⟨z, -, rfl⟩ := List.mem_map.1 hy
      exact Nat.cast_nonneg _)
    linarith
  refine ⟨?_, ?_, ?_⟩
  · unfold probabilities
    set s := (n.map fun e => (e.2 : ℚ)).sum with hsdef
    have : (n.map fun e => (e.2 : ℚ) / s).sum = (n.map fun e => (e.2 : ℚ)).sum / s := by
      generalize s = t
      clear hs hsdef s hne hpos
      induction n with
      | nil => simp
      | cons x l ih => rw [List.map_cons, List.sum_cons, ih, List.map_cons, List.sum_cons, add_div]
    rw [this, ← hsdef, div_self hs.ne']
  · intro q hq
    obtain ⟨x, hx, rfl⟩ := List.mem_map.1 hq
    have h1 : (0 : ℚ) < x.2 := by exact_mod_cast hpos x hx
    positivity
  · intro i j x y p q hx hy hp hq
    simp only [probabilities, List.getElem?_map, hx, hy, Option.map_some, Option.some.injEq] at hp hq
    rw [← hp, ← hq]
    field_simp

/-- **C153.** What is sampled is a point of the distribution, whatever is drawn; each point can be drawn; a single point is returned without any draw. -/
theorem sample_spec {A : Type} (n : List (A × Nat)) :
    (∀ d x, sample n d = some x → ∃ c, (x, c) ∈ n) ∧ (∀ e ∈ n, ∃ d < n.length, sample n d = some e.1) ∧
      (∀ d < n.length, (sample n d).isSome) ∧ ∀ e d, n = [e] → sample n d = some e.1 := by
  refine ⟨?_, ?_, ?_, ?_⟩
  · intro d x h
    unfold sample at h
    split at h
    · rename_i e
      simp only [Option.some.injEq] at h
      exact ⟨e.2, by simp [← h]⟩
    · rw [Option.map_eq_some_iff] at h
      obtain ⟨e, he, rfl⟩ := h
      exact ⟨e.2, List.mem_of_getElem? he⟩
  · intro e he
    obtain ⟨i, hi, hg⟩ := List.getElem_of_mem he
    refine ⟨i, hi, ?_⟩
    unfold sample
    split
    · rename_i e'
      simp only [List.length_singleton] at hi
      have : i = 0 := by omega
      subst this
      simpa using congrArg (·.1) hg
    · rw [List.getElem?_eq_getElem hi, hg]; rfl
  · intro d hd
    unfold sample
    split
    · rfl
    · rw [List.getElem?_eq_getElem hd]; rfl
  · rintro e d rfl
    rfl

/-- Specification: the threshold of the documentation, the fourth root of the greatest count. -/
def DocumentedThreshold (a : List (K × Nat)) (e : K × Nat) : Prop := e ∈ a ∧ ∀ x ∈ a, x.2 ≤ e.2 ^ 4

/-- **C153, partial.** All points of the distribution are above the documented threshold. Missing: the converse (`threshold_differs`). -/
theorem threshold_partial (a : List (K × Nat)) (best : K) (r : P) (hpos : ∀ e ∈ a, 1 ≤ e.2) (top : K × Nat) (ht : top ∈ a) (h : sumCount a < top.2 ^ 2) (k : K) (c : Nat)
    (hm : (Point.data k, c) ∈ getNash a best r) : DocumentedThreshold a (k, c) := by
  obtain ⟨h1, h2⟩ := ((distribution a best r top ht h).1 k c).1 hm
  refine ⟨h1, fun x hx => (h2 x hx).trans ?_⟩
  exact Nat.pow_le_pow_right (hpos _ h1) (by norm_num)

/-- **C153, negative.** Points above the documented threshold are missing. -/
theorem threshold_differs : ∃ (a : List (Nat × Nat)) (e : Nat × Nat), (∀ x ∈ a, 1 ≤ x.2) ∧ DocumentedThreshold a e ∧ (∃ t ∈ a, sumCount a < t.2 ^ 2) ∧
    (Point.data e.1, e.2) ∉ getNash a 0 () := by
  refine ⟨[(0, 16), (1, 3), (2, 5)], (1, 3), by decide, ⟨by decide, by decide⟩, ⟨(0, 16), by decide, by decide⟩, by decide⟩

/-- **C153, negative.** What is sampled is sometimes data and sometimes a parameter. -/
theorem two_kinds (b : K) (r : P) (k : K) : (∃ a : List (K × Nat), getNash a b r = [(.param r, 1)]) ∧ ∃ a : List (K × Nat), getNash a b r = [(.data k, 2)] := by
  refine ⟨⟨[(k, 1)], deterministic_fallback _ b r (by simp) (by simp)⟩, [(k, 2)], ?_⟩
  simp [getNash, maxCount, sumCount, frequent]

example : getNash [(0, 16), (1, 3), (2, 5)] 7 "r" = [(.data 2, 5), (.data 0, 16)] := by decide

end NG.Nash
