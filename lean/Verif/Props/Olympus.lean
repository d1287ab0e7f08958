import Verif.Model.Olympus
import Mathlib.Tactic.Linarith
import Mathlib.Tactic.Abel
import Mathlib.Data.Rat.Defs
import Mathlib.Algebra.Order.Ring.Rat
import Mathlib.Algebra.Field.Rat
import Mathlib.Algebra.BigOperators.Fin

/-!
# The functions from Olympus (C176)
-/

namespace NG
namespace Olympus

variable {n : Nat} {F : Type} [Field F] [LinearOrder F] [IsStrictOrderedRing F]

/-- A point which is better than all other points. -/
def Best (f : (Fin n → F) → F) (x : Fin n → F) : Prop := ∀ y, y ≠ x → f x < f y

theorem best_unique (f : (Fin n → F) → F) (x y : Fin n → F) (hx : Best f x) (hy : Best f y) : x = y := by
  by_contra h
  exact lt_asymm (hx y (Ne.symm h)) (hy x h)

/-- The function without noise is the surface moved by the shift: its best point is the one of the surface plus the shift. -/
theorem withoutNoise_best (s : Surface n F) (c : Fin n → F) : Best s.withoutNoise (c + s.shift) ↔ Best s.exact c := by
  constructor
  · intro h y hy
    have := h (y + s.shift) (fun e => hy (add_right_cancel e))
    simpa [Surface.withoutNoise, Surface.simulate] using this
  · intro h y hy
    have := h (y - s.shift) (fun e => hy (by rw [← e]; abel))
    simpa [Surface.withoutNoise, Surface.simulate] using this

/-- If the noise only adds something, the optimized function is the function without noise plus this. -/
theorem loss_noise (s : Surface n F) (e : (Fin n → F) → F) (h : ∀ x, s.noisy x = s.exact x + e x) (x : Fin n → F) :
    s.loss x = s.withoutNoise x + e (x - s.shift) := by
  simp [Surface.loss, Surface.withoutNoise, Surface.simulate, h]

/-- The evaluation of a recommendation is the value of the function without noise at another point. -/
theorem evaluation_moved (s : Surface n F) (x : Fin n → F) (l : List (Fin n → F)) :
    s.evaluation (x :: l) = some (s.withoutNoise (x - s.shift)) ∧ s.evaluation (x :: l) = some (s.exact (x - (s.shift + s.shift))) := by
  refine ⟨rfl, ?_⟩
  simp only [Surface.evaluation, Surface.withoutNoise, Surface.simulate]
  rw [sub_sub]
  simp

/-- The evaluation is the function without noise for a shift of zero. -/
theorem evaluation_partial (s : Surface n F) (h : s.shift = 0) (x : Fin n → F) (l : List (Fin n → F)) :
    s.evaluation (x :: l) = some (s.withoutNoise x) := by
  simp [Surface.evaluation, h]

/-- For any other shift the optimum is not evaluated as the optimum: the point with the best evaluation is at twice the shift, it is not the best point of the function
without noise, and the best point has an evaluation which is worse than the optimum. -/
theorem evaluation_wrong (s : Surface n F) (c : Fin n → F) (hc : Best s.exact c) (hs : s.shift ≠ 0) (v : F)
    (hv : s.evaluation [c + s.shift] = some v) :
    s.exact c < v ∧ s.evaluation [c + s.shift + s.shift] = some (s.exact c) ∧ ¬ Best s.withoutNoise (c + s.shift + s.shift) ∧
      s.withoutNoise (c + s.shift) = s.exact c := by
  refine ⟨?_, ?_, ?_, ?_⟩
  · rw [(evaluation_moved s _ _).2] at hv
    rw [← Option.some.inj hv]
    refine hc _ fun e => hs ?_
    have h2 : c + s.shift - (s.shift + s.shift) = c - s.shift := by abel
    rw [h2] at e
    exact sub_eq_self.1 e
  · rw [(evaluation_moved s _ _).2]
    congr 2
    abel
  · rw [withoutNoise_best]
    intro h
    exact hs (add_eq_left.1 (best_unique s.exact _ _ h hc))
  · simp [Surface.withoutNoise, Surface.simulate]

/-- The evaluation does not depend on further recommendations. -/
theorem evaluation_first (s : Surface n F) (x : Fin n → F) (l l' : List (Fin n → F)) : s.evaluation (x :: l) = s.evaluation (x :: l') := rfl

/-- Minimizing the loss of the emulator is maximizing or minimizing its value, as is its goal. -/
theorem emulate_goal (run : (Fin n → F) → F) (maximize : Bool) (x y : Fin n → F) :
    emulate run maximize x < emulate run maximize y ↔ if maximize then run y < run x else run x < run y := by
  cases maximize <;> simp [emulate]

theorem emulate_abs (run : (Fin n → F) → F) (maximize : Bool) (x : Fin n → F) : |emulate run maximize x| = |run x| := by
  cases maximize <;> simp [emulate]

/-- The bounds have one entry for each parameter, its own lower and upper bound. -/
theorem bounds_spec (pairs : List (F × F)) (h : pairs ≠ []) : ∃ lo up, bounds pairs = some (lo, up) ∧ lo.length = pairs.length ∧ up.length = pairs.length ∧
    ∀ i (hi : i < pairs.length), lo[i]? = some pairs[i].1 ∧ up[i]? = some pairs[i].2 := by
  cases pairs with
  | nil => exact absurd rfl h
  | cons p ps =>
    refine ⟨_, _, rfl, by simp, by simp, fun i hi => ?_⟩
    rw [List.getElem?_map, List.getElem?_map, List.getElem?_eq_getElem hi]
    simp

theorem bounds_none (pairs : List (F × F)) : bounds pairs = none ↔ pairs = [] := by
  cases pairs <;> simp [bounds]

/-! ## Cases -/

/-- A parabola in one variable with shift 3. -/
def parabola : Surface 1 ℚ := { exact := fun x => x 0 * x 0, noisy := fun x => x 0 * x 0 + 1, shift := fun _ => 3 }

example : parabola.withoutNoise (fun _ => 3) = 0 ∧ parabola.evaluation [fun _ => 3] = some 9 ∧ parabola.evaluation [fun _ => 6] = some 0 ∧ parabola.loss (fun _ => 6) = 10 := by
  decide +kernel

example : Best parabola.exact (fun _ => 0) := by
  intro y hy
  have h0 : y 0 ≠ 0 := fun h => hy (funext fun i => by rw [Fin.fin_one_eq_zero i, h])
  have : 0 < y 0 * y 0 := mul_self_pos.2 h0
  simpa [parabola] using this

example : emulate (fun x : Fin 1 → ℚ => x 0) true (fun _ => 5) = -5 := by decide +kernel

example : bounds [((0 : ℚ), 1), (2, 5)] = some ([0, 2], [1, 5]) := by decide +kernel

end Olympus
end NG
