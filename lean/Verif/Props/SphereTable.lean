import Verif.Model.SphereTable
import Mathlib.Data.List.Nodup
import Mathlib.Tactic.Linarith
import Mathlib.Tactic.Ring
import Mathlib.Algebra.Order.Field.Rat

/-!
# C172: the statistics of point sets
-/

namespace NG
namespace SphereTable

variable {K : Type*} [Field K] [LinearOrder K]

theorem foldl_push (es : List (Nat × Nat × K)) : ∀ (d : Data K) (k m : Nat),
    es.foldl Data.push d k m = d k m ++ es.flatMap fun e => if k = e.1 ∧ m = e.2.1 then [e.2.2] else [] := by
  induction es with
  | nil => intro d k m; simp
  | cons e es ih =>
    intro d k m
    rw [List.foldl_cons, ih, List.flatMap_cons, Data.push]
    split <;> simp

theorem flatMap_zipIdx {β : Type*} (F : Nat → List β) (x : Nat) : ∀ (l : List Nat) (s : Nat), l.Nodup →
    ((l.zipIdx s).flatMap fun p => if x = p.1 then F p.2 else []) = if x ∈ l then F (s + l.idxOf x) else []
  | [], _, _ => by simp
  | a :: l, s, h => by
    obtain ⟨h1, h2⟩ := List.nodup_cons.1 h
    rw [List.zipIdx_cons, List.flatMap_cons, flatMap_zipIdx F x l (s + 1) h2]
    by_cases hx : x = a
    · subst hx
      simp [h1]
    · have hx' : ¬ a = x := fun e => hx e.symm
      simp only [hx, if_false, List.nil_append, List.mem_cons, false_or]
      rw [List.idxOf_cons_ne _ hx']
      congr 2
      omega

/-- The value of a round for a metric and a method, if it has both: the specification. -/
def Round.value (r : Round K) (k m : Nat) : List K := if m ∈ r.methods ∧ k ∈ r.metrics then [r.res (r.methods.idxOf m) (r.metrics.idxOf k)] else []

/-- Lists without repetitions. -/
def Round.Plain (r : Round K) : Prop := r.methods.Nodup ∧ r.metrics.Nodup

theorem record_eq (r : Round K) (h : r.Plain) (d : Data K) (k m : Nat) : r.record d k m = d k m ++ r.value k m := by
  unfold Round.record entries Round.value
  rw [foldl_push, List.flatMap_assoc]
  congr 1
  have e : (fun p : Nat × Nat => (r.metrics.zipIdx.map fun q => (q.1, p.1, r.res p.2 q.2)).flatMap fun e => if k = e.1 ∧ m = e.2.1 then [e.2.2] else [])
      = fun p => if m = p.1 then (if k ∈ r.metrics then [r.res p.2 (r.metrics.idxOf k)] else []) else [] := by
    funext p
    rw [List.flatMap_map]
    by_cases hm : m = p.1
    · have := flatMap_zipIdx (fun j => [r.res p.2 j]) k r.metrics 0 h.2
      simp only [Nat.zero_add] at this
      simp only [hm, and_true, if_true]
      exact this
    · simp [hm]
  rw [e, flatMap_zipIdx (fun i => if k ∈ r.metrics then [r.res i (r.metrics.idxOf k)] else []) m r.methods 0 h.1, Nat.zero_add]
  by_cases h1 : m ∈ r.methods <;> by_cases h2 : k ∈ r.metrics <;> simp [h1, h2]

/-- **C172**: the data hold, for each metric and method, the values of all rounds that had both, in their order. -/
theorem run_data (l : List (Round K)) (h : ∀ r ∈ l, r.Plain) (k m : Nat) : run l k m = l.flatMap fun r => r.value k m := by
  have key : ∀ (l : List (Round K)) (d : Data K), (∀ r ∈ l, r.Plain) → l.foldl (fun d r => r.record d) d k m = d k m ++ l.flatMap fun r => r.value k m := by
    intro l
    induction l with
    | nil => intro d _; simp
    | cons r l ih =>
      intro d hd
      rw [List.foldl_cons, ih _ fun x hx => hd x (List.mem_cons_of_mem _ hx), record_eq r (hd r List.mem_cons_self), List.flatMap_cons, List.append_assoc]
  exact key l _ h

/-- **C172**: the table after a last round averages the values found for the number of points of this round, if all rounds so far had the same one. -/
theorem table_partial (l : List (Round K)) (r : Round K) (h : ∀ x ∈ l ++ [r], x.Plain) (hs : ∀ x ∈ l, x.size = r.size) (i j : Nat) :
    table r (run (l ++ [r])) i j = average (((l ++ [r]).filter fun x => x.size == r.size).flatMap fun x => x.value (r.metrics.getD j 0) (r.methods.getD i 0)) := by
  unfold table
  rw [run_data _ h, List.filter_eq_self.2]
  intro x hx
  rcases List.mem_append.1 hx with hx | hx
  · simp [hs x hx]
  · simp [List.mem_singleton.1 hx]

/-- Disagreement: the data are not kept by number of points, so that the table for one number averages the values found for others before. -/
theorem sizes_mixed : ∃ (r s : Round ℚ), r.size ≠ s.size ∧ r.Plain ∧ s.Plain ∧ s.res 0 0 = 3 ∧ table s (run [r, s]) 0 0 = 2 :=
  ⟨⟨10, [0], [0], fun _ _ => 1⟩, ⟨20, [0], [0], fun _ _ => 3⟩, by decide, by unfold Round.Plain; decide, by unfold Round.Plain; decide, rfl, by decide +kernel⟩

variable [IsStrictOrderedRing K]

/-- **C172**: the shown table orders the methods as the averages do, with ties, column by column. -/
theorem heat_lt (rows : Nat) (t : Nat → Nat → K) (i i' j : Nat) (hi : i < rows) : heat rows t i j < heat rows t i' j ↔ t i j < t i' j := by
  have hr : (0 : K) < rows := by exact_mod_cast (by omega : 0 < rows)
  unfold heat
  rw [div_lt_div_iff_of_pos_right hr, Nat.cast_lt]
  constructor
  · intro h
    by_contra hn
    refine absurd h (Nat.not_lt.2 ?_)
    refine List.countP_mono_left fun a _ ha => ?_
    simp only [decide_eq_true_eq] at ha ⊢
    exact lt_of_lt_of_le ha (not_lt.1 hn)
  · intro h
    have key : ∀ l : List Nat, i ∈ l → (l.countP fun a => decide (t a j < t i j)) < l.countP fun a => decide (t a j < t i' j) := by
      intro l
      induction l with
      | nil => intro hm; simp at hm
      | cons a l ih =>
        intro hm
        have hmono : (l.countP fun a => decide (t a j < t i j)) ≤ l.countP fun a => decide (t a j < t i' j) :=
          List.countP_mono_left fun a _ ha => by simp only [decide_eq_true_eq] at ha ⊢; exact ha.trans h
        rw [List.countP_cons, List.countP_cons]
        rcases List.mem_cons.1 hm with rfl | hm
        · simp only [lt_irrefl, decide_false, h, decide_true]
          simp
          omega
        · have := ih hm
          by_cases ha : t a j < t i j
          · have ha' := ha.trans h
            simp only [ha, ha', decide_true]
            omega
          · simp only [ha, decide_false]
            simp only [Bool.false_eq_true, if_false]
            omega
    exact key _ (List.mem_range.2 hi)

/-- **C172**: the entries are from 0 to less than 1, and 0 is for the rows that no row is better than. -/
theorem heat_range (rows : Nat) (t : Nat → Nat → K) (i j : Nat) (hi : i < rows) :
    0 ≤ heat rows t i j ∧ heat rows t i j < 1 ∧ (heat rows t i j = 0 ↔ ∀ a < rows, t i j ≤ t a j) := by
  have hr : (0 : K) < rows := by exact_mod_cast (by omega : 0 < rows)
  refine ⟨div_nonneg (Nat.cast_nonneg _) hr.le, ?_, ?_⟩
  · unfold heat
    rw [div_lt_one hr, Nat.cast_lt]
    refine lt_of_le_of_ne (by simpa using List.countP_le_length (p := fun a => decide (t a j < t i j)) (l := List.range rows)) fun e => ?_
    have : ∀ a ∈ List.range rows, decide (t a j < t i j) = true := List.countP_eq_length.1 (by simpa using e)
    simpa using this i (List.mem_range.2 hi)
  · unfold heat
    rw [div_eq_zero_iff, Nat.cast_eq_zero, List.countP_eq_zero]
    simp only [hr.ne', or_false, List.mem_range, decide_eq_true_eq, not_lt]

/-- **C172**: the shown table depends on the order only: increasing functions of the columns do not change it. -/
theorem heat_monotone (rows : Nat) (t : Nat → Nat → K) (f : Nat → K → K) (hf : ∀ j, StrictMono (f j)) : heat rows (fun i j => f j (t i j)) = heat rows t := by
  funext i j
  unfold heat
  simp only [(hf j).lt_iff_lt]

example : heat 3 (fun i _ => ([5, 2, 5] : List ℚ).getD i 0) 0 0 = 1 / 3 := by decide +kernel
example : run [⟨10, [4, 7], [1], fun i _ => (i : ℚ)⟩, ⟨10, [7], [1, 2], fun _ j => 5 + (j : ℚ)⟩] 1 7 = [1, 5] := by decide +kernel

end SphereTable
end NG
