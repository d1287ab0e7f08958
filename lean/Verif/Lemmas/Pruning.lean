import Verif.Model.Archive
import Mathlib.Data.List.Sort
import Mathlib.Data.List.Count
import Mathlib.Tactic.Linarith
import Mathlib.Tactic.Ring

namespace NG
namespace Pruning
variable {α : Type} [LinearOrder α]

theorem quantile_index (m n : Nat) (h : m + 1 ≤ n) : (m + 1) * (n - 1) / n = m := by
  obtain ⟨k, rfl⟩ : ∃ k, n = m + 1 + k := ⟨n - (m + 1), by omega⟩
  have e : m + 1 + k - 1 = m + k := by omega
  rw [e]
  apply Nat.div_eq_of_lt_le
  · nlinarith
  · nlinarith

theorem sortedPairwise (l : List α) :
    (l.mergeSort (fun a b => decide (a ≤ b))).Pairwise (· ≤ ·) := by
  have := List.pairwise_mergeSort (le := fun a b : α => decide (a ≤ b))
    (by intro a b c; simp only [decide_eq_true_eq]; exact le_trans)
    (by intro a b; simp only [Bool.or_eq_true, decide_eq_true_eq]; exact le_total a b) l
  simpa using this

/-- In a sorted list, the element at index `m` is above `t` iff at most `m` elements are `≤ t`. -/
theorem lt_getElem_iff_countP (l : List α) (hl : l.Pairwise (· ≤ ·)) (m : Nat) (hm : m < l.length) (t : α) :
    t < l[m] ↔ l.countP (fun x => decide (x ≤ t)) ≤ m := by
  constructor
  · intro h
    have e : l = l.take m ++ l.drop m := (List.take_append_drop m l).symm
    rw [e, List.countP_append]
    have h2 : (l.drop m).countP (fun x => decide (x ≤ t)) = 0 := by
      rw [List.countP_eq_zero]
      intro x hx
      obtain ⟨i, hi, rfl⟩ := List.mem_iff_getElem.1 hx
      rw [List.getElem_drop]
      rw [List.length_drop] at hi
      have : l[m] ≤ l[m + i] := by
        rcases Nat.eq_zero_or_pos i with h0 | h0
        · subst h0; exact le_refl _
        · exact List.pairwise_iff_getElem.1 hl m (m + i) hm (by omega) (by omega)
      simp only [decide_eq_true_eq, not_le]
      exact lt_of_lt_of_le h this
    rw [h2]
    have := List.countP_le_length (p := fun x => decide (x ≤ t)) (l := l.take m)
    rw [List.length_take] at this
    omega
  · intro h
    by_contra hn
    rw [not_lt] at hn
    have h1 : (l.take (m + 1)).countP (fun x => decide (x ≤ t)) = (l.take (m + 1)).length := by
      rw [List.countP_eq_length]
      intro x hx
      obtain ⟨i, hi, rfl⟩ := List.mem_iff_getElem.1 hx
      rw [List.getElem_take]
      rw [List.length_take] at hi
      have : l[i] ≤ l[m] := by
        rcases Nat.lt_or_ge i m with h0 | h0
        · exact List.pairwise_iff_getElem.1 hl i m (by omega) hm h0
        · have : i = m := by omega
          subst this; exact le_refl _
      simp only [decide_eq_true_eq]
      exact le_trans this hn
    have h2 := (List.take_sublist (m + 1) l).countP_le (p := fun x => decide (x ≤ t))
    rw [h1, List.length_take] at h2
    omega

/-- In a sorted list at most `m` elements are strictly below the one at index `m`. -/
theorem countP_lt_getElem (l : List α) (hl : l.Pairwise (· ≤ ·)) (m : Nat) (hm : m < l.length) :
    l.countP (fun x => decide (x < l[m])) ≤ m := by
  have e : l = l.take m ++ l.drop m := (List.take_append_drop m l).symm
  conv_lhs => arg 2; rw [e]
  rw [List.countP_append]
  have h2 : (l.drop m).countP (fun x => decide (x < l[m])) = 0 := by
    rw [List.countP_eq_zero]
    intro x hx
    obtain ⟨i, hi, rfl⟩ := List.mem_iff_getElem.1 hx
    rw [List.getElem_drop]
    rw [List.length_drop] at hi
    have : l[m] ≤ l[m + i] := by
      rcases Nat.eq_zero_or_pos i with h0 | h0
      · subst h0; exact le_refl _
      · exact List.pairwise_iff_getElem.1 hl m (m + i) hm (by omega) (by omega)
    simpa using this
  rw [h2]
  have := List.countP_le_length (p := fun x => decide (x < l[m])) (l := l.take m)
  rw [List.length_take] at this
  omega

/-- In a strictly sorted list exactly `m` elements are below the one at index `m`. -/
theorem countP_lt_getElem_ge (l : List α) (hl : l.Pairwise (· < ·)) (m : Nat) (hm : m < l.length) :
    m ≤ l.countP (fun x => decide (x < l[m])) := by
  have h1 : (l.take m).countP (fun x => decide (x < l[m])) = (l.take m).length := by
    rw [List.countP_eq_length]
    intro x hx
    obtain ⟨i, hi, rfl⟩ := List.mem_iff_getElem.1 hx
    rw [List.getElem_take]
    rw [List.length_take] at hi
    simp only [decide_eq_true_eq]
    exact List.pairwise_iff_getElem.1 hl i m (by omega) hm (by omega)
  have h2 := (List.take_sublist m l).countP_le (p := fun x => decide (x < l[m]))
  rw [h1, List.length_take] at h2
  omega

theorem lowerQuantile_spec (values : List α) (m : Nat) :
    (values.length < m + 1 → lowerQuantile values m = none) ∧
    (m + 1 ≤ values.length → ∃ q, lowerQuantile values m = some q ∧
      (∀ t, t < q ↔ values.countP (fun x => decide (x ≤ t)) ≤ m) ∧
      values.countP (fun x => decide (x < q)) ≤ m ∧
      (values.Nodup → m ≤ values.countP (fun x => decide (x < q)))) := by
  constructor
  · intro h; simp only [lowerQuantile, if_pos h]
  · intro h
    have hlen : (values.mergeSort (fun a b => decide (a ≤ b))).length = values.length :=
      List.length_mergeSort _
    have hm : m < (values.mergeSort (fun a b => decide (a ≤ b))).length := by omega
    have hperm := List.mergeSort_perm values (fun a b => decide (a ≤ b))
    refine ⟨(values.mergeSort (fun a b => decide (a ≤ b)))[m], ?_, ?_, ?_, ?_⟩
    · simp only [lowerQuantile]
      rw [if_neg (by omega), quantile_index m _ h]
      exact List.getElem?_eq_getElem hm
    · intro t
      rw [lt_getElem_iff_countP _ (sortedPairwise values) m hm t, hperm.countP_eq]
    · rw [← hperm.countP_eq]
      exact countP_lt_getElem _ (sortedPairwise values) m hm
    · intro hnd
      rw [← hperm.countP_eq]
      apply countP_lt_getElem_ge
      have h1 := sortedPairwise values
      have h2 : (values.mergeSort (fun a b => decide (a ≤ b))).Nodup := hperm.nodup_iff.2 hnd
      exact (h1.and h2).imp (fun ⟨a, b⟩ => lt_of_le_of_ne a b)

end Pruning
end NG
