import Verif.Model.Archive
import Mathlib.Tactic.Ring
import Mathlib.Tactic.Linarith
import Mathlib.Tactic.FieldSimp
import Mathlib.Tactic.NormNum
import Mathlib.Tactic.Positivity
import Mathlib.Algebra.Order.BigOperators.Group.List
import Mathlib.Data.Rat.Cast.Order

/-!
# C04: statistics kept for a repeatedly evaluated point
-/

set_option linter.unusedSectionVars false

namespace NG
namespace MV
variable {α : Type} [Field α] [LinearOrder α] [IsStrictOrderedRing α] {U : Type}

/-- The value of a point first told with loss `y0`, then with the losses `ys` in this order. -/
def afterEvaluations (sqrt : α → α) (u : U) (y0 : α) (ys : List α) : MV α U :=
  ys.foldl (addEvaluation sqrt) (init u y0)

/-- Specification: arithmetic mean of a list. -/
def listMean (zs : List α) : α := zs.sum / zs.length

/-- Specification: the evaluations as they are accounted for. -/
def accounted (y0 : α) (ys : List α) : List α := y0 :: ys.map (fun y => max (-(10 ^ 10)) (min (10 ^ 10) y))

theorem clip_eq (y : α) : clip y = max (-(10 ^ 10)) (min (10 ^ 10) y) := by
  have h10 : (0 : α) < 10 ^ 10 := by positivity
  unfold clip
  split
  · rename_i h
    rw [min_eq_left (le_of_lt h), max_eq_right]; linarith
  · rename_i h
    rw [min_eq_right (not_lt.1 h)]
    split
    · rename_i h2; rw [max_eq_left (le_of_lt h2)]
    · rename_i h2; rw [max_eq_right (not_lt.1 h2)]

theorem afterEvaluations_snoc (sqrt : α → α) (u : U) (y0 : α) (ys : List α) (y : α) :
    afterEvaluations sqrt u y0 (ys ++ [y]) = addEvaluation sqrt (afterEvaluations sqrt u y0 ys) y := by
  simp [afterEvaluations, List.foldl_append]

theorem accounted_snoc (y0 : α) (ys : List α) (y : α) :
    accounted y0 (ys ++ [y]) = accounted y0 ys ++ [clip y] := by
  simp [accounted, clip_eq]

theorem accounted_length (y0 : α) (ys : List α) : (accounted y0 ys).length = ys.length + 1 := by
  simp [accounted]

theorem stats_aux (sqrt : α → α) (u : U) (y0 : α) (ys : List α) :
    let v := afterEvaluations sqrt u y0 ys
    let zs := accounted y0 ys
    v.count = ys.length + 1 ∧ v.mean * (ys.length + 1 : α) = zs.sum ∧
      v.square * (ys.length + 1 : α) = (zs.map (· ^ 2)).sum ∧ v.mean ^ 2 ≤ v.square ∧
      (v.minimum ∈ zs ∧ ∀ z ∈ zs, v.minimum ≤ z) ∧ v.param = u ∧
      v.variance = if ys = [] then 10 ^ 6 else
        sqrt ((ys.length + 1 : α) / ys.length) * (v.square - v.mean ^ 2) := by
  induction ys using List.reverseRecOn with
  | nil => simp [afterEvaluations, init, accounted, sq]
  | append_singleton ys y ih =>
    rw [afterEvaluations_snoc, accounted_snoc]
    obtain ⟨hc, hm, hs, hj, hmin, hp, _⟩ := ih
    generalize afterEvaluations sqrt u y0 ys = v at *
    have hn : (0 : α) < (ys.length : α) + 1 := by positivity
    have hn2 : (0 : α) < (ys.length : α) + 1 + 1 := by positivity
    have hcα : (v.count : α) = (ys.length : α) + 1 := by rw [hc]; push_cast; ring
    have hmean : (addEvaluation sqrt v y).mean
        = ((ys.length + 1 : α) * v.mean + clip y) / (ys.length + 1 + 1) := by
      simp only [addEvaluation, hcα]; field_simp
    have hsq0 : (addEvaluation sqrt v y).square
        = max (((ys.length + 1 : α) * v.square + clip y * clip y) / (ys.length + 1 + 1))
            ((addEvaluation sqrt v y).mean ^ 2) := by
      simp only [addEvaluation, hcα]
    have hjen : (addEvaluation sqrt v y).mean ^ 2
        ≤ ((ys.length + 1 : α) * v.square + clip y * clip y) / (ys.length + 1 + 1) := by
      rw [hmean, div_pow, div_le_div_iff₀ (by positivity) hn2]
      have key : ((ys.length + 1 : α) * v.mean + clip y) ^ 2
          ≤ ((ys.length + 1 : α) * v.square + clip y * clip y) * (ys.length + 1 + 1) := by
        have h1 : (ys.length + 1 : α) * (ys.length + 1 + 1) * v.mean ^ 2
            ≤ (ys.length + 1 : α) * (ys.length + 1 + 1) * v.square :=
          mul_le_mul_of_nonneg_left hj (by positivity)
        have h2 : 0 ≤ (ys.length + 1 : α) * (v.mean - clip y) ^ 2 := by positivity
        nlinarith
      calc ((ys.length + 1 : α) * v.mean + clip y) ^ 2 * (ys.length + 1 + 1)
          ≤ (((ys.length + 1 : α) * v.square + clip y * clip y) * (ys.length + 1 + 1)) *
              (ys.length + 1 + 1) := mul_le_mul_of_nonneg_right key hn2.le
        _ = _ := by ring
    have hsq : (addEvaluation sqrt v y).square
        = ((ys.length + 1 : α) * v.square + clip y * clip y) / (ys.length + 1 + 1) := by
      rw [hsq0, max_eq_left hjen]
    refine ⟨by simp [addEvaluation, hc], ?_, ?_, ?_, ⟨?_, ?_⟩, ?_, ?_⟩
    · rw [hmean]; simp only [List.length_append, List.length_singleton, Nat.cast_add, Nat.cast_one,
        List.sum_append, List.sum_singleton]
      rw [← hm]; field_simp
    · rw [hsq]; simp only [List.length_append, List.length_singleton, Nat.cast_add, Nat.cast_one,
        List.map_append, List.map_cons, List.map_nil, List.sum_append, List.sum_singleton]
      rw [← hs]; field_simp
    · rw [hsq]; exact hjen
    · have : (addEvaluation sqrt v y).minimum = min v.minimum (clip y) := rfl
      rw [this]
      rcases min_choice v.minimum (clip y) with h | h <;> rw [h] <;> simp [hmin.1]
    · have : (addEvaluation sqrt v y).minimum = min v.minimum (clip y) := rfl
      rw [this]
      intro z hz
      rw [List.mem_append, List.mem_singleton] at hz
      rcases hz with hz | hz
      · exact le_trans (min_le_left _ _) (hmin.2 z hz)
      · rw [hz]; exact min_le_right _ _
    · exact hp
    · have : (addEvaluation sqrt v y).variance = sqrt (((v.count + 1 : ℕ) : α) / (((v.count + 1 : ℕ) : α) - 1)) *
          ((addEvaluation sqrt v y).square - (addEvaluation sqrt v y).mean ^ 2) := rfl
      rw [this]
      simp [hcα]

/-- **C04.** After any sequence of evaluations of a point, the stored count, mean, mean square and
minimum are those of the evaluations (the first as told, the others clipped to ±1e10), and the variance
is the default `10^6` for one evaluation, `sqrt (n/(n-1)) * (mean of squares - mean²)` for `n ≥ 2`. -/
theorem multiValue_statistics (sqrt : α → α) (u : U) (y0 : α) (ys : List α) :
    let v := afterEvaluations sqrt u y0 ys
    let zs := accounted y0 ys
    v.count = zs.length ∧ v.mean = listMean zs ∧ v.square = listMean (zs.map (· ^ 2)) ∧
      (v.minimum ∈ zs ∧ ∀ z ∈ zs, v.minimum ≤ z) ∧
      (ys = [] → v.variance = 10 ^ 6) ∧
      (ys ≠ [] → v.variance = sqrt ((zs.length : α) / (zs.length - 1)) *
        (listMean (zs.map (· ^ 2)) - listMean zs ^ 2)) := by
  obtain ⟨hc, hm, hs, -, hmin, -, hv⟩ := stats_aux sqrt u y0 ys
  have hn : (ys.length : α) + 1 ≠ 0 := by positivity
  have em : (afterEvaluations sqrt u y0 ys).mean = listMean (accounted y0 ys) := by
    unfold listMean
    rw [← hm, accounted_length]; push_cast; field_simp
  have es : (afterEvaluations sqrt u y0 ys).square = listMean ((accounted y0 ys).map (· ^ 2)) := by
    unfold listMean
    rw [← hs, List.length_map, accounted_length]; push_cast; field_simp
  refine ⟨by rw [hc, accounted_length], em, es, hmin, ?_, ?_⟩
  · intro h; rw [hv, if_pos h]
  · intro h; rw [hv, if_neg h, ← em, ← es, accounted_length]; simp

/-- **C04.** When no evaluation exceeds `1e10` in absolute value, the statistics are the exact count, mean
and minimum of the told losses. -/
theorem multiValue_exact (sqrt : α → α) (u : U) (y0 : α) (ys : List α)
    (h : ∀ y ∈ ys, |y| ≤ 10 ^ 10) :
    let v := afterEvaluations sqrt u y0 ys
    v.count = (y0 :: ys).length ∧ v.mean = listMean (y0 :: ys) ∧
      v.minimum ∈ y0 :: ys ∧ (∀ z ∈ y0 :: ys, v.minimum ≤ z) := by
  have e : accounted y0 ys = y0 :: ys := by
    unfold accounted
    congr 1
    conv_rhs => rw [← List.map_id ys]
    apply List.map_congr_left
    intro y hy
    have := abs_le.1 (h y hy)
    rw [min_eq_right this.2, max_eq_right this.1]; rfl
  obtain ⟨hc, hm, -, hmin, -⟩ := multiValue_statistics sqrt u y0 ys
  rw [e] at hc hm hmin
  exact ⟨hc, hm, hmin.1, hmin.2⟩

/-- **C04.** The optimistic bound is below the mean which is below the pessimistic bound, and the minimum is
below the mean. -/
theorem multiValue_bounds_ordered (sqrt : α → α) (hs : ∀ x, 0 ≤ sqrt x) (u : U) (y0 : α) (ys : List α) :
    let v := afterEvaluations sqrt u y0 ys
    v.estimation sqrt .optimistic ≤ v.estimation sqrt .average ∧
      v.estimation sqrt .average ≤ v.estimation sqrt .pessimistic ∧
      v.estimation sqrt .minimum ≤ v.estimation sqrt .average := by
  intro v
  have h := hs (v.variance / (1 + (v.count : α)))
  refine ⟨?_, ?_, ?_⟩
  · simp only [estimation, optimisticBound]; linarith
  · simp only [estimation, pessimisticBound]; linarith
  · simp only [estimation]
    obtain ⟨-, hm, -, hmin, -⟩ := multiValue_statistics sqrt u y0 ys
    show v.minimum ≤ v.mean
    rw [hm, listMean, le_div_iff₀ (by rw [accounted_length]; positivity)]
    have := List.card_nsmul_le_sum (accounted y0 ys) v.minimum hmin.2
    rw [nsmul_eq_mul] at this
    linarith

/-- **C04, disagreement.** The first evaluation is stored unclipped while later ones are clipped: a point
told twice with the same loss `10^15` is recorded with minimum `10^10`, a loss it never had. -/
theorem multiValue_minimum_not_told :
    (afterEvaluations (α := ℚ) id () (10 ^ 15) [10 ^ 15]).minimum = 10 ^ 10 := by
  norm_num [afterEvaluations, addEvaluation, init, clip]

/-- Likewise a loss below `-1e10` told at a later evaluation is not recorded as the minimum. -/
theorem multiValue_minimum_missed :
    (afterEvaluations (α := ℚ) id () 0 [-(10 ^ 15)]).minimum = -(10 ^ 10) := by
  norm_num [afterEvaluations, addEvaluation, init, clip]

example : (afterEvaluations (α := ℚ) id () 3 [1, 5]).mean = 3 ∧
    (afterEvaluations (α := ℚ) id () 3 [1, 5]).minimum = 1 := by
  norm_num [afterEvaluations, addEvaluation, init, clip]

end MV
end NG
