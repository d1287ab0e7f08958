import Verif.Model.BoundShape
import Mathlib.Data.List.Forall2
import Mathlib.Tactic.Common

/-!
# C162: the shapes of bounds
-/

namespace NG.BoundShape

/-- Two sizes that numpy can match. -/
def Fits (a b : Nat) : Prop := a = b ∨ a = 1 ∨ b = 1

theorem axis_some (a b : Nat) : (∃ c, axis a b = some c) ↔ Fits a b := by
  unfold axis Fits
  split
  · simp [*]
  · split
    · simp [*]
    · split <;> simp [*]

private theorem check_forall : ∀ (x b : List Nat), x.length = b.length → (check x b = true ↔ List.Forall₂ Fits x b) := by
  intro x
  induction x with
  | nil => intro b h; have : b = [] := List.length_eq_zero_iff.1 h.symm; subst this; simp [check, pairs]
  | cons a l ih =>
    intro b h
    cases b with
    | nil => simp at h
    | cons c m =>
      have := ih m (by simpa using h)
      unfold check at this ⊢
      simp only [pairs, List.headD_cons, List.tail_cons, List.all_cons, Bool.and_eq_true, this, List.forall₂_cons]
      refine and_congr ?_ Iff.rfl
      unfold Fits
      by_cases h1 : a = c <;> by_cases h2 : a = 1 <;> by_cases h3 : c = 1 <;> simp [h1, h2, h3]

private theorem fromLast_forall : ∀ (x b : List Nat), x.length = b.length → ((∃ k, fromLast x b = some k) ↔ List.Forall₂ Fits x b) := by
  intro x
  induction x with
  | nil => intro b h; have : b = [] := List.length_eq_zero_iff.1 h.symm; subst this; simp [fromLast]
  | cons a l ih =>
    intro b h
    cases b with
    | nil => simp at h
    | cons c m =>
      have := ih m (by simpa using h)
      rw [List.forall₂_cons, ← this, ← axis_some]
      constructor
      · rintro ⟨k, hk⟩
        simp only [fromLast] at hk
        split at hk
        · next c' k' h1 h2 => exact ⟨⟨c', h1⟩, ⟨k', h2⟩⟩
        · simp at hk
      · rintro ⟨⟨c', h1⟩, ⟨k', h2⟩⟩
        exact ⟨c' :: k', by simp [fromLast, h1, h2]⟩

private theorem forall2_reverse {R : Nat → Nat → Prop} {x b : List Nat} (h : List.Forall₂ R x b) : List.Forall₂ R x.reverse b.reverse :=
  List.rel_reverse h

/-- Part of the claim: for bounds with as many axes as the array, the check lets through exactly the shapes that numpy can match. -/
theorem check_partial (x b : List Nat) (h : x.length = b.length) : check x b = true ↔ ∃ k, broadcast x b = some k := by
  rw [check_forall x b h]
  have h' : x.reverse.length = b.reverse.length := by simp [h]
  have e : (∃ k, broadcast x b = some k) ↔ ∃ k, fromLast x.reverse b.reverse = some k := by
    unfold broadcast
    constructor
    · rintro ⟨k, hk⟩
      obtain ⟨k', hk', _⟩ := Option.map_eq_some_iff.1 hk
      exact ⟨k', hk'⟩
    · rintro ⟨k, hk⟩; exact ⟨k.reverse, by simp [hk]⟩
  rw [e, fromLast_forall _ _ h']
  exact ⟨forall2_reverse, fun h => by simpa using forall2_reverse h⟩

private theorem fromLast_fixed : ∀ (x b : List Nat), List.Forall₂ (fun s t => t = s ∨ t = 1) x b → fromLast x b = some x := by
  intro x b h
  induction h with
  | nil => rfl
  | @cons s t l m hst _ ih =>
    have : axis s t = some s := by
      unfold axis
      by_cases h0 : s = t
      · simp [h0]
      · rcases hst with h | h
        · exact absurd h.symm h0
        · by_cases h1 : s = 1
          · subst h1; exact absurd h.symm h0
          · simp [h0, h1, h]
    simp [fromLast, this, ih]

/-- Part of the claim: with an axis of the bounds for every axis of the array, of the same size or of size 1, the shape does not change. -/
theorem shape_partial (x b : List Nat) (h : List.Forall₂ (fun s t => t = s ∨ t = 1) x b) : transformed x b = some x := by
  unfold transformed
  rw [if_pos ((check_forall x b h.length_eq).2 (h.imp fun s t hst => ?_))]
  · unfold broadcast
    rw [fromLast_fixed _ _ (List.rel_reverse h)]
    simp
  · unfold Fits
    rcases hst with h | h
    · exact Or.inl h.symm
    · exact Or.inr (Or.inr h)

/-- Bounds that are numbers are let through for arrays of all shapes, and do not change the shape of an array that has an axis. -/
theorem scalar_bounds (a : Nat) (l : List Nat) : transformed (a :: l) [1] = some (a :: l) := by
  have tail : ∀ l : List Nat, (pairs l []).all (fun d => !(d.1 != d.2 && !(d.1 == 1 || d.2 == 1))) = true := by
    intro l
    induction l with
    | nil => rfl
    | cons c l ih => simp only [pairs, List.tail_nil, List.headD_nil, List.all_cons, ih]; simp
  have hc : check (a :: l) [1] = true := by
    unfold check
    simp only [pairs, List.tail_cons, List.headD_cons, List.all_cons, tail]
    simp
  unfold transformed
  rw [if_pos hc]
  unfold broadcast
  obtain ⟨b, m, hb⟩ : ∃ b m, (a :: l).reverse = b :: m := by
    cases h : (a :: l).reverse with
    | nil => simp at h
    | cons b m => exact ⟨b, m, rfl⟩
  have hx : axis b 1 = some b := by unfold axis; by_cases h : b = 1 <;> simp [h]
  have hl : fromLast (b :: m) [1] = some (b :: m) := by
    cases m <;> simp [fromLast, hx]
  rw [hb, List.reverse_singleton, hl, Option.map_some, ← hb, List.reverse_reverse]

/-- The claim is false for other numbers of axes: the check matches axes from the first one, numpy from the last one.  Bounds for the three columns of an array
of two rows are refused though numpy takes them, and bounds for its two rows go through the check and fail in numpy. -/
theorem wrong_side : check [2, 3] [3] = false ∧ broadcast [2, 3] [3] = some [2, 3] ∧ check [2, 3] [2] = true ∧ broadcast [2, 3] [2] = none := by decide

/-- In general: bounds with the shape of the last axes of an array always suit numpy, and are refused by the check unless their sizes suit the first axes. -/
theorem last_axes (x y : List Nat) : broadcast (x ++ y) y = some (x ++ y) := by
  have h : ∀ y x : List Nat, fromLast (y ++ x) y = some (y ++ x) := by
    intro y
    induction y with
    | nil => intro x; cases x <;> simp [fromLast]
    | cons c y ih => intro x; simp [fromLast, ih, axis]
  unfold broadcast
  rw [List.reverse_append, h]
  simp

theorem first_axes_refused (x y : List Nat) (a b : Nat) (hab : a ≠ b) (ha : a ≠ 1) (hb : b ≠ 1) :
    check (a :: x) (b :: y) = false ∧ transformed (a :: x) (b :: y) = none := by
  have h : check (a :: x) (b :: y) = false := by
    unfold check
    simp [pairs, hab, ha, hb]
  exact ⟨h, by simp [transformed, h]⟩

/-- An array of one number and bounds of several ones go through the check, and the transformed array has another shape. -/
theorem shape_grows (n : Nat) : transformed [1] [n] = some [n] := by
  unfold transformed check broadcast
  by_cases h : n = 1
  · simp [pairs, fromLast, axis, h]
  · have h' : ¬ 1 = n := fun e => h e.symm
    simp [pairs, fromLast, axis, h']

example : transformed [2, 3] [1, 3] = some [2, 3] := by decide
example : transformed [2, 3] [2, 2] = none := by decide
example : transformed [4, 1, 3] [1] = some [4, 1, 3] := by decide

end NG.BoundShape
