import Verif.Model.FarOptimum
import Mathlib.Tactic.Linarith
import Mathlib.Tactic.Ring
import Mathlib.Tactic.NormNum
import Mathlib.Data.Rat.Defs
import Mathlib.Algebra.Order.Ring.Rat

/-!
# C159: the function with a far optimum
-/

namespace NG.FarOptimum

variable {α : Type} [Field α] [LinearOrder α] [IsStrictOrderedRing α]

/-- At least as good on both objectives and different: Pareto dominance. -/
def Dominates (a b : α × α) : Prop := a.1 ≤ b.1 ∧ a.2 ≤ b.2 ∧ a ≠ b

/-- The loss is not negative, and zero at the optimum only. -/
theorem mono_zero (o x : α × α) : 0 ≤ mono o x ∧ (mono o x = 0 ↔ x = o) := by
  have h1 := abs_nonneg (x.1 - o.1)
  have h2 := abs_nonneg (x.2 - o.2)
  unfold mono multi
  refine ⟨by simpa using add_nonneg h1 h2, ?_⟩
  constructor
  · intro h
    simp only at h
    have e1 : |x.1 - o.1| = 0 := by linarith
    have e2 : |x.2 - o.2| = 0 := by linarith
    exact Prod.ext (sub_eq_zero.1 (abs_eq_zero.1 e1)) (sub_eq_zero.1 (abs_eq_zero.1 e2))
  · rintro rfl; simp

/-- The difference of the losses of two points is at most the sum of the differences of their coordinates. -/
theorem mono_lipschitz (o x y : α × α) : |mono o x - mono o y| ≤ |x.1 - y.1| + |x.2 - y.2| := by
  unfold mono multi
  simp only
  have h1 := abs_abs_sub_abs_le_abs_sub (x.1 - o.1) (y.1 - o.1)
  have h2 := abs_abs_sub_abs_le_abs_sub (x.2 - o.2) (y.2 - o.2)
  have e1 : x.1 - o.1 - (y.1 - o.1) = x.1 - y.1 := by ring
  have e2 : x.2 - o.2 - (y.2 - o.2) = x.2 - y.2 := by ring
  rw [e1] at h1
  rw [e2] at h2
  have e : |x.1 - o.1| + |x.2 - o.2| - (|y.1 - o.1| + |y.2 - o.2|)
      = (|x.1 - o.1| - |y.1 - o.1|) + (|x.2 - o.2| - |y.2 - o.2|) := by ring
  rw [e]
  exact (abs_add_le _ _).trans (add_le_add h1 h2)

/-- A part `t` of the way to the optimum removes this part of every loss. -/
theorem towards (o x : α × α) (t : α) (ht : t ≤ 1) :
    multi o (x.1 + t * (o.1 - x.1), x.2 + t * (o.2 - x.2)) = ((1 - t) * (multi o x).1, (1 - t) * (multi o x).2) ∧
    mono o (x.1 + t * (o.1 - x.1), x.2 + t * (o.2 - x.2)) = (1 - t) * mono o x := by
  have h : ∀ a b : α, |a + t * (b - a) - b| = (1 - t) * |a - b| := by
    intro a b
    have e : a + t * (b - a) - b = (1 - t) * (a - b) := by ring
    rw [e, abs_mul, abs_of_nonneg (by linarith : (0 : α) ≤ 1 - t)]
  unfold mono multi
  simp only [h]
  exact ⟨trivial, by ring⟩

/-- With two objectives, the loss of the other version is their sum, the optimum dominates every other point, and it is the only point that no
other dominates. -/
theorem pareto (o x : α × α) : mono o x = (multi o x).1 + (multi o x).2 ∧
    (x ≠ o → Dominates (multi o o) (multi o x)) ∧ ((∀ y, ¬ Dominates (multi o y) (multi o x)) ↔ x = o) := by
  have hd : x ≠ o → Dominates (multi o o) (multi o x) := by
    intro hx
    refine ⟨by simp [multi], by simp [multi], ?_⟩
    intro e
    have h0 : mono o x = 0 := by
      unfold mono
      rw [← e]
      simp [multi]
    exact hx ((mono_zero o x).2.1 h0)
  refine ⟨rfl, hd, ?_⟩
  constructor
  · intro h
    by_contra hx
    exact h o (hd hx)
  · rintro rfl y ⟨h1, h2, h3⟩
    apply h3
    have e1 := abs_nonneg (y.1 - x.1)
    have e2 := abs_nonneg (y.2 - x.2)
    simp only [multi, sub_self, abs_zero] at h1 h2 ⊢
    exact Prod.ext (le_antisymm h1 e1) (le_antisymm h2 e2)

/-- The evaluation of recommendations is the least of their losses: zero exactly if the optimum is among them, and never worse with more
recommendations. It raises exactly when there is none. -/
theorem evaluation_spec (o : α × α) (l : List (α × α)) :
    (evaluation o l = none ↔ l = []) ∧
    (∀ v, evaluation o l = some v ↔ (∃ x ∈ l, mono o x = v) ∧ ∀ x ∈ l, v ≤ mono o x) ∧
    (evaluation o l = some 0 ↔ o ∈ l) ∧
    ∀ l' v w, evaluation o l = some v → evaluation o (l ++ l') = some w → w ≤ v := by
  have h1 : ∀ l : List (α × α), evaluation o l = none ↔ l = [] := by
    intro l
    cases l with
    | nil => simp [evaluation]
    | cons x l => unfold evaluation; split <;> simp
  have h2 : ∀ (l : List (α × α)) v, evaluation o l = some v → (∃ x ∈ l, mono o x = v) ∧ ∀ x ∈ l, v ≤ mono o x := by
    intro l
    induction l with
    | nil => intro v h; simp [evaluation] at h
    | cons x l ih =>
      intro v h
      unfold evaluation at h
      split at h
      · rename_i hn
        have := (h1 l).1 hn
        subst this
        simp only [Option.some.injEq] at h
        simp [h]
      · rename_i w hw
        obtain ⟨⟨y, hy, ey⟩, hle⟩ := ih w hw
        simp only [Option.some.injEq] at h
        rw [← h]
        constructor
        · rcases min_choice (mono o x) w with e | e
          · exact ⟨x, by simp, e.symm⟩
          · exact ⟨y, by simp [hy], by rw [e, ey]⟩
        · intro z hz
          rcases List.mem_cons.1 hz with rfl | hz
          · exact min_le_left _ _
          · exact (min_le_right _ _).trans (hle z hz)
  have h3 : ∀ (l : List (α × α)) v, evaluation o l = some v ↔ (∃ x ∈ l, mono o x = v) ∧ ∀ x ∈ l, v ≤ mono o x := by
    intro l v
    refine ⟨h2 l v, ?_⟩
    rintro ⟨⟨x, hx, rfl⟩, hle⟩
    cases he : evaluation o l with
    | none => rw [(h1 l).1 he] at hx; simp at hx
    | some w =>
      obtain ⟨⟨y, hy, ey⟩, hle'⟩ := h2 l w he
      have a := hle y hy
      have b := hle' x hx
      rw [ey] at a
      rw [le_antisymm b a]
  refine ⟨h1 l, h3 l, ?_, ?_⟩
  · rw [h3]
    constructor
    · rintro ⟨⟨x, hx, e⟩, _⟩
      rwa [(mono_zero o x).2.1 e] at hx
    · intro ho
      exact ⟨⟨o, ho, (mono_zero o o).2.2 rfl⟩, fun x _ => (mono_zero o x).1⟩
  · intro l' v w hv hw
    obtain ⟨⟨x, hx, rfl⟩, _⟩ := (h3 l v).1 hv
    exact ((h3 _ w).1 hw).2 x (by simp [hx])

/-- For an optimum with coordinates that are not negative, the losses of the initial point, zero, and of the points between zero and twice the
optimum are within the upper bounds. -/
theorem upper_partial (o x : α × α) (h1 : 0 ≤ o.1) (h2 : 0 ≤ o.2) :
    ((multi o x).1 ≤ (upper o).1 ↔ -o.1 ≤ x.1 ∧ x.1 ≤ 3 * o.1) ∧ ((multi o x).2 ≤ (upper o).2 ↔ -o.2 ≤ x.2 ∧ x.2 ≤ 3 * o.2) ∧
    (multi o (0, 0)).1 ≤ (upper o).1 ∧ (multi o (0, 0)).2 ≤ (upper o).2 := by
  have h : ∀ a b : α, 0 ≤ b → (|a - b| ≤ 2 * b ↔ -b ≤ a ∧ a ≤ 3 * b) := by
    intro a b hb
    rw [abs_le]
    constructor
    · rintro ⟨p, q⟩; exact ⟨by linarith, by linarith⟩
    · rintro ⟨p, q⟩; exact ⟨by linarith, by linarith⟩
  refine ⟨h x.1 o.1 h1, h x.2 o.2 h2, (h 0 o.1 h1).2 ⟨by linarith, by linarith⟩, (h 0 o.2 h2).2 ⟨by linarith, by linarith⟩⟩

/-- For a negative coordinate of the optimum no point is within the upper bounds, not even the optimum. -/
theorem upper_negative (o : α × α) (h : o.1 < 0) (x : α × α) : ¬ (multi o x).1 ≤ (upper o).1 := by
  intro hle
  have := abs_nonneg (x.1 - o.1)
  simp only [multi, upper] at hle
  linarith

/-! ## Cases -/

example : mono ((80, 100) : ℚ × ℚ) (0, 0) = 180 := by norm_num [mono, multi]
example : evaluation ((80, 100) : ℚ × ℚ) [(0, 0), (80, 90), (70, 100)] = some 10 := by
  norm_num [evaluation, mono, multi]
example : Dominates (multi ((80, 100) : ℚ × ℚ) (70, 90)) (multi (80, 100) (0, 0)) := by
  norm_num [Dominates, multi]

end NG.FarOptimum
