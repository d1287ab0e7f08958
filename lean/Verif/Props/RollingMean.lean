import Verif.Model.RollingMean
import Mathlib.Algebra.BigOperators.Group.Finset.Basic
import Mathlib.Algebra.BigOperators.Intervals
import Mathlib.Data.List.Rotate
import Mathlib.Algebra.Order.Group.Int
import Mathlib.Tactic.Abel

/-!
C170: the rolling sums of a vector.
-/

namespace NG.Rolling
variable {α : Type} [AddCommGroup α]

theorem length_cumsum : ∀ (l : List α) (acc : α), (cumsum acc l).length = l.length
  | [], _ => rfl
  | _ :: l, _ => by simp [cumsum, length_cumsum l]

theorem cumsum_get : ∀ (l : List α) (acc : α) (i : Nat), i < l.length → (cumsum acc l)[i]? = some (acc + ∑ j ∈ Finset.range (i + 1), l.getD j 0)
  | [], _, i, h => by simp at h
  | x :: l, acc, 0, _ => by simp [cumsum]
  | x :: l, acc, i + 1, h => by
    rw [cumsum, List.getElem?_cons_succ, cumsum_get l (acc + x) i (by simpa using h), Finset.sum_range_succ' _ (i + 1)]
    simp only [List.getD_cons_succ, List.getD_cons_zero]
    congr 1
    abel

/-- Cyclic sum of `w` entries from the entry `i`: the specification. -/
def cyclic (v : List α) (w i : Nat) : α := ∑ j ∈ Finset.range w, v.getD ((i + j) % v.length) 0

theorem sum_getD (v : List α) : v.sum = ∑ j ∈ Finset.range v.length, v.getD j 0 := by
  induction v with
  | nil => simp
  | cons x l ih => rw [List.length_cons, Finset.sum_range_succ', List.sum_cons, ih]; simp [add_comm]

theorem cyclic_full (v : List α) (i : Nat) : cyclic v v.length i = v.sum := by
  rw [sum_getD, cyclic]
  rcases Nat.eq_zero_or_pos v.length with h | h
  · simp [h]
  · refine Finset.sum_nbij' (fun j => (i + j) % v.length) (fun j => (j + (v.length - i % v.length)) % v.length) ?_ ?_ ?_ ?_ ?_
    · intro j _; exact Finset.mem_range.2 (Nat.mod_lt _ h)
    · intro j _; exact Finset.mem_range.2 (Nat.mod_lt _ h)
    · intro j hj
      have hj := Finset.mem_range.1 hj
      have hi := Nat.mod_lt i h
      have : i % v.length + j + (v.length - i % v.length) = j + v.length := by omega
      simp only [Nat.mod_add_mod]
      rw [Nat.add_assoc, ← Nat.mod_add_mod, ← Nat.add_assoc, this, Nat.add_mod_right, Nat.mod_eq_of_lt hj]
    · intro j hj
      have hj := Finset.mem_range.1 hj
      have hi := Nat.mod_lt i h
      have : i % v.length + (j + (v.length - i % v.length)) = j + v.length := by omega
      simp only [Nat.add_mod_mod]
      rw [← Nat.mod_add_mod, this, Nat.add_mod_right, Nat.mod_eq_of_lt hj]
    · intro j _; rfl

/-- C170: for windows from 1 to the length of the vector the entries are the sums of `window` entries, from the same place on and going around the end. -/
theorem rolling_get (v : List α) (w : Nat) (h1 : 1 ≤ w) (h2 : w ≤ v.length) (i : Nat) (hi : i < v.length) :
    (rollingMean v w)[i]? = some (cyclic v w i) := by
  unfold rollingMean
  by_cases hw : (v.length : Int) ≤ w
  · have : w = v.length := by omega
    rw [if_pos hw, this, cyclic_full]
    simp [hi]
  rw [if_neg hw]
  by_cases h : (w : Int) ≤ 1
  · have : w = 1 := by omega
    subst this
    rw [if_pos h]
    simp [cyclic, Nat.mod_eq_of_lt hi, List.getD_eq_getElem?_getD, List.getElem?_eq_getElem hi]
  rw [if_neg h]
  simp only [Int.toNat_natCast]
  have hl : ([0] ++ v ++ v.take (w - 1)).length = v.length + w := by simp; omega
  have hx : ∀ j, ([0] ++ v ++ v.take (w - 1)).getD (j + 1) 0 = (v ++ v.take (w - 1)).getD j 0 := by intro j; simp
  rw [List.getElem?_zipWith, List.getElem?_drop, length_cumsum, hl, List.getElem?_take_of_lt (by omega), cumsum_get _ _ _ (by omega), cumsum_get _ _ _ (by omega)]
  simp only [zero_add]
  congr 1
  rw [show w + i + 1 = (i + 1) + w by omega, Finset.sum_range_add, add_sub_cancel_left, cyclic]
  refine Finset.sum_congr rfl fun j hj => ?_
  have hj := Finset.mem_range.1 hj
  rw [show i + 1 + j = (i + j) + 1 by omega, hx]
  by_cases hlt : i + j < v.length
  · rw [List.getD_append _ _ _ _ hlt, Nat.mod_eq_of_lt hlt]
  · rw [List.getD_append_right _ _ _ _ (by omega), Nat.mod_eq_sub_mod (by omega), Nat.mod_eq_of_lt (by omega), List.getD_eq_getElem?_getD,
      List.getElem?_take_of_lt (by omega), ← List.getD_eq_getElem?_getD]

/-- C170: the result is as long as the vector, for all windows. -/
theorem rolling_length (v : List α) (window : Int) : (rollingMean v window).length = v.length := by
  unfold rollingMean
  split
  · simp
  split
  · rfl
  · simp only [List.length_zipWith, List.length_drop, List.length_take, length_cumsum]
    simp
    omega

/-- C170: a window larger than the vector gives its sum everywhere (the entries are not counted twice), and one smaller than 1 the vector itself. -/
theorem rolling_outside (v : List α) (window : Int) :
    ((v.length : Int) < window → rollingMean v window = List.replicate v.length v.sum) ∧
      (window < 1 → v ≠ [] → rollingMean v window = v) := by
  constructor
  · intro h; rw [rollingMean, if_pos (by omega)]
  · intro h hv
    have : 0 < v.length := List.length_pos_iff.2 hv
    rw [rollingMean, if_neg (by omega), if_pos (by omega)]

theorem ext_get {l l' : List α} {n : Nat} (h : l.length = n) (h' : l'.length = n) (e : ∀ i, i < n → l[i]? = l'[i]?) : l = l' := by
  refine List.ext_getElem? fun i => ?_
  by_cases hi : i < n
  · exact e i hi
  · rw [List.getElem?_eq_none (by omega), List.getElem?_eq_none (by omega)]

theorem rotate_getD (v : List α) (k i : Nat) (h : i < v.length) : (v.rotate k).getD i 0 = v.getD ((i + k) % v.length) 0 := by
  rw [List.getD_eq_getElem?_getD, List.getElem?_rotate h, ← List.getD_eq_getElem?_getD]

/-- C170: rotating the vector rotates the result, for all windows. -/
theorem rolling_rotate (v : List α) (window : Int) (k : Nat) : rollingMean (v.rotate k) window = (rollingMean v window).rotate k := by
  have hsum : (v.rotate k).sum = v.sum := (List.rotate_perm v k).sum_eq
  by_cases ha : (v.length : Int) < window
  · rw [(rolling_outside v window).1 ha, (rolling_outside (v.rotate k) window).1 (by simpa using ha), List.rotate_replicate, hsum, List.length_rotate]
  by_cases hb : window < 1
  · by_cases hv : v = []
    · subst hv; have h := rolling_length ([] : List α) window; rw [List.rotate_nil, List.eq_nil_of_length_eq_zero h, List.rotate_nil]
    · rw [(rolling_outside v window).2 hb hv, (rolling_outside (v.rotate k) window).2 hb (by simpa using hv)]
  obtain ⟨w, rfl⟩ : ∃ w : Nat, window = w := ⟨window.toNat, by omega⟩
  refine ext_get (n := v.length) (by simp [rolling_length]) (by simp [rolling_length]) fun i hi => ?_
  have hl := rolling_length v (w : Int)
  have hp : 0 < v.length := by omega
  rw [rolling_get _ w (by omega) (by rw [List.length_rotate]; omega) i (by simpa using hi), List.getElem?_rotate (by rw [hl]; exact hi), hl,
    rolling_get v w (by omega) (by omega) _ (Nat.mod_lt _ hp)]
  congr 1
  refine Finset.sum_congr rfl fun j _ => ?_
  rw [List.length_rotate, rotate_getD _ _ _ (Nat.mod_lt _ hp)]
  congr 1
  rw [Nat.mod_add_mod, Nat.mod_add_mod]
  congr 1
  omega

/-- C170: every entry of the vector counts `window` times in the whole. -/
theorem rolling_total (v : List α) (w : Nat) (h1 : 1 ≤ w) (h2 : w ≤ v.length) : (rollingMean v w).sum = w • v.sum := by
  rw [sum_getD, rolling_length, Finset.sum_congr rfl (g := fun i => cyclic v w i)]
  · unfold cyclic
    rw [Finset.sum_comm, Finset.sum_congr rfl (g := fun _ => v.sum), Finset.sum_const, Finset.card_range]
    intro j _
    rw [← cyclic_full v j]
    exact Finset.sum_congr rfl fun i _ => by rw [Nat.add_comm]
  · intro i hi
    rw [List.getD_eq_getElem?_getD, rolling_get v w h1 h2 i (Finset.mem_range.1 hi)]
    rfl

/-- Disagreement: the name and the use as weights announce means, but the entries are sums: those of a constant vector are the window times the constant. -/
theorem not_a_mean (n w : Nat) (c : α) (h1 : 1 ≤ w) (h2 : w ≤ n) : rollingMean (List.replicate n c) w = List.replicate n (w • c) := by
  refine ext_get (n := n) (by simp [rolling_length]) (by simp) fun i hi => ?_
  rw [rolling_get _ w h1 (by simpa using h2) i (by simpa using hi), List.getElem?_replicate_of_lt hi, cyclic]
  congr 1
  rw [Finset.sum_congr rfl (g := fun _ => c), Finset.sum_const, Finset.card_range]
  intro j _
  rw [List.getD_eq_getElem?_getD, List.getElem?_replicate_of_lt (by simpa using Nat.mod_lt _ (by omega))]
  rfl

/-- Disagreement: a window beyond the length is cut to it instead of going around again. -/
theorem window_cut : rollingMean [(1 : Int), 2] 3 = [3, 3] ∧ cyclic [(1 : Int), 2] 3 0 = 4 := by decide

example : rollingMean [(1 : Int), 2, 5, 9] 2 = [3, 7, 14, 10] ∧ rollingMean [(1 : Int), 2, 5, 9] 3 = [8, 16, 15, 12] := by decide
example : rollingMean [(1 : Int), 2, 5, 9] (-4) = [1, 2, 5, 9] ∧ rollingMean [(1 : Int), 2, 5, 9] 7 = [17, 17, 17, 17] := by decide

end NG.Rolling
