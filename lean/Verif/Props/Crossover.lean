import Verif.Model.Crossover
import Mathlib.Tactic.Linarith
import Mathlib.Tactic.Ring
import Mathlib.Algebra.BigOperators.Group.List.Lemmas
import Mathlib.Data.Rat.Cast.Order

/-! # C47: crossovers -/

namespace NG
namespace Cross
variable {β α : Type} [LinearOrder α]

/-- `out` takes the positions in `S` from the individual, the others from the donor. -/
def Mix (S : Nat → Bool) (donor individual out : List β) : Prop :=
  out.length = donor.length ∧ ∀ i, i < donor.length → out[i]? = if S i then individual[i]? else donor[i]?

omit [LinearOrder α] in
theorem mapIdx_mix (S : Nat → Bool) (donor individual : List β) (h : individual.length = donor.length) :
    Mix S donor individual ((donor.zip individual).mapIdx (fun i p => if S i then p.2 else p.1)) := by
  refine ⟨by simp [h], ?_⟩
  intro i hi
  have hi' : i < individual.length := h ▸ hi
  have hz : i < (donor.zip individual).length := by simp [h, hi]
  rw [List.getElem?_mapIdx, List.getElem?_eq_getElem hz]
  simp only [Option.map_some, List.getElem_zip]
  cases S i <;> simp [hi, hi']

theorem assign_slice_mix (a b : Nat) (hab : a ≤ b) (donor individual : List β) (hb : b ≤ donor.length)
    (h : individual.length = donor.length) :
    Mix (fun i => decide (a ≤ i ∧ i < b)) donor individual (assign a b (slice a b individual) donor) := by
  unfold assign slice
  have e1 : (donor.take a).length = a := by simp; omega
  have e2 : ((individual.take b).drop a).length = b - a := by simp; omega
  refine ⟨by simp; omega, ?_⟩
  intro i hi
  by_cases h1 : i < a
  · rw [List.append_assoc, List.getElem?_append_left (by omega), List.getElem?_take]
    have : ¬ (a ≤ i ∧ i < b) := by omega
    simp [h1, this]
  · by_cases h2 : i < b
    · rw [List.getElem?_append_left (by simp only [List.length_append]; omega), List.getElem?_append_right (by omega), e1,
        List.getElem?_drop, List.getElem?_take]
      have e3 : a + (i - a) = i := by omega
      have : a ≤ i ∧ i < b := by omega
      simp [e3, h2, this]
    · rw [List.getElem?_append_right (by simp only [List.length_append]; omega)]
      simp only [List.length_append, e1, e2, List.getElem?_drop]
      have e3 : b + (i - (a + (b - a))) = i := by omega
      have : ¬ (a ≤ i ∧ i < b) := by omega
      simp [e3, this]

/-- The draws are those of the random generator for arrays of size `n`. -/
structure Valid (n : Nat) (kind : Kind α) (d : Draws α) : Prop where
  /-- `randint(size)`, or `randint(1, size)` -/
  R : d.R < n
  R1 : (∃ _ : kind = .onepoint, 3 ≤ n) → 1 ≤ d.R
  /-- `choice(size + 1, size=2, replace=False)` -/
  c1 : d.c1 ≤ n
  c2 : d.c2 ≤ n
  c12 : d.c1 ≠ d.c2
  /-- `randint(1, size)`, when there is such a number -/
  r : 1 < n → 1 ≤ d.r ∧ d.r < n
  /-- `choice(size + 1 - bounds[1] + bounds[0])` -/
  c : ∀ b, bounds n d.c1 d.c2 d.which d.r = some b → d.c ≤ n - (b.2 - b.1)
  /-- the first point of the voronoi crossover -/
  x1 : ∀ shape, kind = .voronoi (some shape) → List.Forall₂ (fun x m => x < m) d.x1 shape

theorem bounds_spec (n c1 c2 : Nat) (which : Bool) (r : Nat) (h1 : c1 ≤ n) (h2 : c2 ≤ n) (h12 : c1 ≠ c2)
    (hr : 1 < n → 1 ≤ r ∧ r < n) (b : Nat × Nat) (hb : bounds n c1 c2 which r = some b) :
    b.1 < b.2 ∧ b.2 ≤ n ∧ ¬ (b.1 = 0 ∧ b.2 = n) := by
  unfold bounds at hb
  split at hb
  · split at hb
    · cases hb
    · have := hr (by omega)
      cases which <;> simp at hb <;> subst hb <;> simp <;> omega
  · simp only [Option.some.injEq] at hb
    subst hb
    simp only
    omega

theorem bounds_none (n c1 c2 : Nat) (which : Bool) (r : Nat) : bounds n c1 c2 which r = none ↔ n ≤ 1 ∧ max c1 c2 = n ∧ min c1 c2 = 0 := by
  unfold bounds
  split
  · split
    · simp; omega
    · simp; omega
  · simp; omega

theorem copyTwo_mix (b : Nat × Nat) (inside : Bool) (donor individual : List β) (h : individual.length = donor.length)
    (h1 : b.1 < b.2) (h2 : b.2 ≤ donor.length) :
    Mix (fun i => decide (b.1 ≤ i ∧ i < b.2) == inside) donor individual (copyTwo b inside donor individual) := by
  unfold copyTwo
  cases inside with
  | true =>
    have := assign_slice_mix b.1 b.2 (by omega) donor individual h2 h
    simpa using this
  | false =>
    simp only [Bool.false_eq_true, if_false]
    obtain ⟨l1, m1⟩ := assign_slice_mix 0 b.1 (by omega) donor individual (by omega) h
    obtain ⟨l2, m2⟩ := assign_slice_mix b.2 donor.length h2 (assign 0 b.1 (slice 0 b.1 individual) donor) individual
      (by rw [l1]) (by rw [l1]; exact h)
    rw [h]
    refine ⟨l2.trans l1, ?_⟩
    intro i hi
    rw [m2 i (by rw [l1]; exact hi), m1 i hi]
    by_cases hb2 : b.2 ≤ i
    · simp [hb2, hi]
    · by_cases hb1 : i < b.1
      · simp [hb2, hb1]
      · simp [hb2, hb1]

theorem onepoint_mix (R : Nat) (right : Bool) (donor individual : List β) (h : individual.length = donor.length)
    (hR : R < donor.length) :
    Mix (fun i => decide (R ≤ i) == right) donor individual (onepoint R right donor individual) := by
  unfold onepoint
  cases right with
  | true =>
    obtain ⟨l, m⟩ := assign_slice_mix R donor.length (by omega) donor individual (le_refl _) h
    refine ⟨l, ?_⟩
    intro i hi
    simp only [if_true]
    rw [m i hi]
    simp [hi]
  | false =>
    obtain ⟨l, m⟩ := assign_slice_mix 0 R (by omega) donor individual (by omega) h
    refine ⟨l, ?_⟩
    intro i hi
    simp only [Bool.false_eq_true, if_false]
    rw [m i hi]
    by_cases hr : R ≤ i
    · have : ¬ i < R := by omega
      simp [hr]
    · have : i < R := by omega
      simp [hr, this]

/-! ## positions of an array -/

theorem unravel_surj (shape x : List Nat) (h : List.Forall₂ (fun x m => x < m) x shape) :
    ∃ i, i < shape.prod ∧ unravel shape i = x := by
  induction h with
  | nil => exact ⟨0, by simp, rfl⟩
  | @cons a m x ms ham _ ih =>
    obtain ⟨i, hi, hx⟩ := ih
    refine ⟨a * ms.prod + i, ?_, ?_⟩
    · rw [List.prod_cons]
      calc a * ms.prod + i < a * ms.prod + ms.prod := by omega
        _ = (a + 1) * ms.prod := by ring
        _ ≤ m * ms.prod := Nat.mul_le_mul_right _ ham
    · simp only [unravel]
      have hpos : 0 < ms.prod := by omega
      rw [Nat.add_comm, Nat.add_mul_mod_self_right, Nat.mod_eq_of_lt hi, Nat.add_mul_div_right _ _ hpos, Nat.div_eq_of_lt hi, hx]
      simp

theorem dist2_nonneg (a b : List Nat) : 0 ≤ dist2 a b := by
  unfold dist2
  induction a.zip b with
  | nil => simp
  | cons p l ih =>
    rw [List.map_cons, List.sum_cons]
    exact add_nonneg (mul_self_nonneg _) ih

theorem dist2_self (a : List Nat) : dist2 a a = 0 := by
  unfold dist2
  induction a with
  | nil => rfl
  | cons x a ih => simpa using ih

theorem nearFourth_first (x1 x2 x3 x4 : List Nat) : nearFourth x1 x2 x3 x4 x1 = false := by
  unfold nearFourth
  rw [dist2_self]
  simp only [decide_eq_false_iff_not, not_lt]
  exact (min_le_left _ _).trans ((min_le_left _ _).trans (dist2_nonneg _ _))

/-! ## the claim -/

/-- C47: for all sizes, options and draws, a crossover (other than the rotated one) either raises, only for the voronoi option with
arrays of size at most one, or takes each coordinate from the donor or the individual at the same position. At least one comes
from the donor; and at least one from the individual for the two-point and one-point crossovers. -/
theorem crossover_mixes_partial (half : α) (kind : Kind α) (d : Draws α) (donor individual : List β)
    (h : individual.length = donor.length) (hk : kind = .rotated → donor.length < 4) (hv : Valid donor.length kind d)
    (hshape : ∀ shape, kind = .voronoi (some shape) → shape.prod = donor.length) :
    (apply half kind d donor individual = none ∧ donor.length ≤ 1 ∧ ∃ s, kind = .voronoi s) ∨
    ∃ out S, apply half kind d donor individual = some out ∧ Mix S donor individual out ∧
      (∃ i < donor.length, S i = false) ∧
      ((kind = .twopoints ∧ 4 ≤ donor.length) ∨ (kind = .onepoint ∧ 3 ≤ donor.length) → ∃ i < donor.length, S i = true) := by
  have var : ∀ CR : α, ∃ out S, some (variablewise CR d.R d.us donor individual) = some out ∧ Mix S donor individual out ∧
      (∃ i < donor.length, S i = false) := by
    intro CR
    refine ⟨_, fun i => decide (i ≠ d.R ∧ CR < d.us i), rfl, ?_, d.R, hv.R, by simp⟩
    have := mapIdx_mix (fun i => decide (i ≠ d.R ∧ CR < d.us i)) donor individual h
    simpa [variablewise] using this
  have two : ∀ right, twopoints d.c1 d.c2 d.which d.r right donor individual = none ∧ donor.length ≤ 1 ∨
      ∃ out S, twopoints d.c1 d.c2 d.which d.r right donor individual = some out ∧ Mix S donor individual out ∧
        (∃ i < donor.length, S i = false) ∧ ∃ i < donor.length, S i = true := by
    intro right
    unfold twopoints
    cases hb : bounds donor.length d.c1 d.c2 d.which d.r with
    | none => exact Or.inl ⟨rfl, ((bounds_none _ _ _ _ _).mp hb).1⟩
    | some b =>
      obtain ⟨h1, h2, h3⟩ := bounds_spec _ _ _ _ _ hv.c1 hv.c2 hv.c12 hv.r b hb
      have hin : b.1 < donor.length ∧ decide (b.1 ≤ b.1 ∧ b.1 < b.2) = true := ⟨by omega, by simp [h1]⟩
      have hout : ∃ i < donor.length, decide (b.1 ≤ i ∧ i < b.2) = false := by
        by_cases hb1 : b.1 = 0
        · exact ⟨b.2, by omega, by simp⟩
        · exact ⟨0, by omega, by simp; omega⟩
      refine Or.inr ⟨_, _, rfl, copyTwo_mix b right donor individual h h1 h2, ?_⟩
      obtain ⟨j, hj, hjo⟩ := hout
      cases right with
      | true => exact ⟨⟨j, hj, by rw [hjo]; rfl⟩, ⟨b.1, hin.1, by simpa using hin.2⟩⟩
      | false => exact ⟨⟨b.1, hin.1, by simpa using hin.2⟩, ⟨j, hj, by rw [hjo]; rfl⟩⟩
  cases kind with
  | rate CR =>
    obtain ⟨out, S, h1, h2, h3⟩ := var CR
    exact Or.inr ⟨out, S, h1, h2, h3, by simp⟩
  | twopoints =>
    by_cases h4 : 4 ≤ donor.length
    · simp only [apply, h4, if_true]
      rcases two d.right with ⟨_, hc⟩ | ⟨out, S, h1, h2, h3, h4'⟩
      · omega
      · exact Or.inr ⟨out, S, h1, h2, h3, fun _ => h4'⟩
    · simp only [apply, h4, if_false]
      obtain ⟨out, S, h1, h2, h3⟩ := var half
      exact Or.inr ⟨out, S, h1, h2, h3, by simp [h4]⟩
  | rotated =>
    have h4 : ¬ 4 ≤ donor.length := by have := hk rfl; omega
    simp only [apply, h4, if_false]
    obtain ⟨out, S, h1, h2, h3⟩ := var half
    exact Or.inr ⟨out, S, h1, h2, h3, by simp⟩
  | onepoint =>
    by_cases h3 : 3 ≤ donor.length
    · simp only [apply, h3, if_true]
      have hR1 := hv.R1 ⟨rfl, h3⟩
      have hR := hv.R
      refine Or.inr ⟨_, _, rfl, onepoint_mix d.R d.right donor individual h hv.R, ?_⟩
      cases d.right with
      | true => exact ⟨⟨0, by omega, by simp; omega⟩, fun _ => ⟨d.R, hR, by simp⟩⟩
      | false => exact ⟨⟨d.R, hR, by simp⟩, fun _ => ⟨0, by omega, by simp; omega⟩⟩
    · simp only [apply, h3, if_false]
      obtain ⟨out, S, h1, h2, h3'⟩ := var half
      exact Or.inr ⟨out, S, h1, h2, h3', by simp [h3]⟩
  | voronoi s =>
    have fall : (twopoints d.c1 d.c2 d.which d.r d.right donor individual = none ∧ donor.length ≤ 1 ∧ ∃ s', Kind.voronoi (α := α) s = .voronoi s') ∨
        ∃ out S, twopoints d.c1 d.c2 d.which d.r d.right donor individual = some out ∧ Mix S donor individual out ∧
          (∃ i < donor.length, S i = false) := by
      rcases two d.right with ⟨h1, h2⟩ | ⟨out, S, h1, h2, h3, _⟩
      · exact Or.inl ⟨h1, h2, s, rfl⟩
      · exact Or.inr ⟨out, S, h1, h2, h3⟩
    cases s with
    | none =>
      simp only [apply]
      rcases fall with f | ⟨out, S, h1, h2, h3⟩
      · exact Or.inl f
      · exact Or.inr ⟨out, S, h1, h2, h3, by simp⟩
    | some shape =>
      simp only [apply]
      split
      · rcases fall with f | ⟨out, S, h1, h2, h3⟩
        · exact Or.inl f
        · exact Or.inr ⟨out, S, h1, h2, h3, by simp⟩
      · refine Or.inr ⟨_, fun i => nearFourth d.x1 d.x2 d.x3 d.x4 (unravel shape i), rfl, mapIdx_mix _ donor individual h, ?_, by simp⟩
        obtain ⟨i, hi, hx⟩ := unravel_surj shape d.x1 (hv.x1 shape rfl)
        refine ⟨i, by rw [← hshape shape rfl]; exact hi, ?_⟩
        simp only [hx]
        exact nearFourth_first _ _ _ _

/-- C47 (rotated): a block of at least one and not all coordinates is replaced by a block of consecutive coordinates of the
individual, the others are those of the donor; it never raises. -/
theorem rotated_spec (half : α) (d : Draws α) (donor individual : List β) (h : individual.length = donor.length)
    (h4 : 4 ≤ donor.length) (hv : Valid donor.length .rotated d) :
    ∃ out a b c, apply half .rotated d donor individual = some out ∧ out.length = donor.length ∧ a < b ∧ b ≤ donor.length ∧
      b - a < donor.length ∧ c + (b - a) ≤ individual.length ∧
      ∀ i, i < donor.length → out[i]? = if a ≤ i ∧ i < b then individual[c + (i - a)]? else donor[i]? := by
  simp only [apply, h4, if_true, rotated]
  cases hb : bounds donor.length d.c1 d.c2 d.which d.r with
  | none => have := ((bounds_none _ _ _ _ _).mp hb).1; omega
  | some b =>
    obtain ⟨h1, h2, h3⟩ := bounds_spec _ _ _ _ _ hv.c1 hv.c2 hv.c12 hv.r b hb
    have hc := hv.c b hb
    refine ⟨_, b.1, b.2, d.c, rfl, ?_, h1, h2, by omega, by omega, ?_⟩
    · unfold assign slice
      simp
      omega
    · intro i hi
      simp only [assign, slice]
      have e1 : (donor.take b.1).length = b.1 := by simp; omega
      have e2 : ((individual.take (d.c + b.2 - b.1)).drop d.c).length = b.2 - b.1 := by simp; omega
      by_cases hi1 : i < b.1
      · rw [List.append_assoc, List.getElem?_append_left (by omega), List.getElem?_take]
        have : ¬ (b.1 ≤ i ∧ i < b.2) := by omega
        simp [hi1, this]
      · by_cases hi2 : i < b.2
        · rw [List.getElem?_append_left (by simp only [List.length_append]; omega), List.getElem?_append_right (by omega), e1,
            List.getElem?_drop, List.getElem?_take]
          have e3 : d.c + (i - b.1) < d.c + b.2 - b.1 := by omega
          have : b.1 ≤ i ∧ i < b.2 := by omega
          simp [e3, this]
        · rw [List.getElem?_append_right (by simp only [List.length_append]; omega)]
          simp only [List.length_append, e1, e2, List.getElem?_drop]
          have e3 : b.2 + (i - (b.1 + (b.2 - b.1))) = i := by omega
          have : ¬ (b.1 ≤ i ∧ i < b.2) := by omega
          simp [e3, this]

/-- The voronoi crossover raises on arrays of size one: there is no `randint(1, 1)`. -/
theorem voronoi_fails (half : α) (d : Draws α) (x y : β) (hv : Valid 1 (.voronoi (α := α) none) d) :
    apply half (.voronoi none) d [x] [y] = none := by
  have h1 := hv.c1
  have h2 := hv.c2
  have h3 := hv.c12
  simp only [apply, twopoints, Option.map_eq_none_iff]
  rw [bounds_none]
  simp
  omega

/-! ## cases -/

def demo : Draws Int := ⟨2, fun i => if i = 1 then 9 else 0, true, 4, 1, true, 2, 0, [0, 0], [0, 1], [1, 0], [1, 1]⟩

example : apply 5 (.rate 5) demo "abcd".toList "wxyz".toList = some "axcd".toList := by decide +kernel
example : apply 5 .twopoints demo "abcd".toList "wxyz".toList = some "axyz".toList := by decide +kernel
example : apply 5 .onepoint demo "abcd".toList "wxyz".toList = some "abyz".toList := by decide +kernel
example : apply 5 .rotated demo "abcd".toList "wxyz".toList = some "awxy".toList := by decide +kernel
example : apply 5 (.voronoi (some [2, 2])) demo "abcd".toList "wxyz".toList = some "abcz".toList := by decide +kernel

end Cross
end NG
