import Verif.Model.Spsa
import Mathlib.Algebra.BigOperators.Intervals
import Mathlib.Tactic.FieldSimp
import Mathlib.Tactic.Ring
import Mathlib.Tactic.Positivity
import Mathlib.Tactic.Linarith

/-! # C69: SPSA -/

namespace NG
namespace Spsa

variable {ι : Type}

/-! ## Schedules -/

/-- **C69.** The perturbation and the learning rate are positive and decrease with each pair. -/
theorem ck_pos (k : Nat) : 0 < ck k := by unfold ck; positivity

theorem ak_pos (A k : Nat) : 0 < ak A k := by unfold ak; positivity

theorem ck_strict (k : Nat) : ck (k + 2) < ck k := by
  unfold ck
  have e : (k + 2) / 2 = k / 2 + 1 := by omega
  rw [e]
  refine div_lt_div_of_pos_left (by norm_num) (by positivity) ?_
  exact Real.rpow_lt_rpow (by positivity) (by push_cast; linarith) (by norm_num)

theorem ak_strict (A k : Nat) : ak A (k + 2) < ak A k := by
  unfold ak
  have e : (k + 2) / 2 = k / 2 + 1 := by omega
  rw [e]
  refine div_lt_div_of_pos_left (by norm_num) (by positivity) ?_
  exact Real.rpow_lt_rpow (by positivity) (by push_cast; linarith) (by norm_num)

theorem ck_pair (m : Nat) : ck (2 * m + 1) = ck (2 * m) := by
  unfold ck
  have e : (2 * m + 1) / 2 = 2 * m / 2 := by omega
  rw [e]

/-! ## Runs of pairs -/

/-- The direction drawn. -/
def sign (draw : ι → Bool) (i : ι) : ℝ := if draw i then 1 else -1

/-- Specification of the iterates: the start is the origin, and pair `j` (draw, loss at minus, loss at plus) moves it by
`- a (f+ - f-) / (2 c) δ`. -/
noncomputable def iterate (A : Nat) (rounds : Nat → (ι → Bool) × ℝ × ℝ) (m : Nat) (i : ι) : ℝ :=
  - (Finset.range m).sum (fun j =>
      ak A (2 * (j + 1)) * ((rounds j).2.2 - (rounds j).2.1) / (2 * ck (2 * (j + 1))) * sign (rounds j).1 i)

/-- Mean of the iterates 0, …, m. -/
noncomputable def meanIterate (A : Nat) (rounds : Nat → (ι → Bool) × ℝ × ℝ) (m : Nat) (i : ι) : ℝ :=
  (Finset.range (m + 1)).sum (fun j => iterate A rounds j i) / (m + 1)

/-- The state after `m` pairs. -/
noncomputable def after (A : Nat) (rounds : Nat → (ι → Bool) × ℝ × ℝ) : Nat → St ι
  | 0 => start
  | m + 1 => (pair A (after A rounds m) (rounds m)).2

/-- What holds at the beginning of pair `m`. -/
structure Ready (A : Nat) (rounds : Nat → (ι → Bool) × ℝ × ℝ) (m : Nat) (s : St ι) : Prop where
  idx : s.idx = 2 * m
  next : (update A s).t = some (iterate A rounds m) ∧ (update A s).avg = some (meanIterate A rounds m)

theorem ask_even (A : Nat) (draw : ι → Bool) (s : St ι) (h : s.idx % 2 = 0) :
    ask A draw s = (shifted (-ck s.idx) (some (sign draw)) (update A s).t, { update A s with delta := some (sign draw) }) := by
  unfold ask
  rw [if_pos h]
  rfl

theorem update_idx (A : Nat) (s : St ι) : (update A s).idx = s.idx ∧ (update A s).init = s.init ∧ (update A s).ym = s.ym ∧
    (update A s).yp = s.yp ∧ (update A s).delta = s.delta := by
  unfold update
  split
  · exact ⟨rfl, rfl, rfl, rfl, rfl⟩
  · split <;> exact ⟨rfl, rfl, rfl, rfl, rfl⟩

/-- The whole effect of a pair. -/
theorem pair_spec (A m : Nat) (s : St ι) (hidx : s.idx = 2 * m) (t avg : ι → ℝ) (ht : (update A s).t = some t)
    (ha : (update A s).avg = some avg) (draw : ι → Bool) (fm fp : ℝ) :
    (pair A s (draw, fm, fp)).1 = (some (fun i => t i - ck (2 * m) * sign draw i), some (fun i => t i + ck (2 * m) * sign draw i)) ∧
    (pair A s (draw, fm, fp)).2 = ⟨false, 2 * (m + 1), some (sign draw), some (fm : WithTop ℝ), some (fp : WithTop ℝ), some t, some avg⟩ := by
  have h0 : s.idx % 2 = 0 := by omega
  obtain ⟨u1, u2, u3, u4, u5⟩ := update_idx A s
  have e1 := ask_even A draw s h0
  have e2 : (tell (fm : WithTop ℝ) (ask A draw s).2) =
      ⟨s.init && s.yp.isNone, 2 * m + 1, some (sign draw), some (fm : WithTop ℝ), s.yp, some t, some avg⟩ := by
    rw [e1]
    unfold tell
    simp only [u1, u2, u4, h0, if_true, ht, ha]
    rw [hidx]
  have e3 : ∀ x : St ι, x.idx = 2 * m + 1 → ask A draw x = (shifted (ck x.idx) x.delta x.t, x) := by
    intro x hx
    unfold ask
    rw [if_neg (by omega)]
  unfold pair
  simp only
  rw [e2, e3 ⟨s.init && s.yp.isNone, 2 * m + 1, some (sign draw), some (fm : WithTop ℝ), s.yp, some t, some avg⟩ rfl]
  constructor
  · rw [e1, ht]
    simp only [shifted, hidx, ck_pair]
    congr 2
    funext i
    ring
  · unfold tell
    rw [if_neg (by simp only; omega)]
    simp
    rfl

theorem ready (A : Nat) (rounds : Nat → (ι → Bool) × ℝ × ℝ) (m : Nat) : Ready A rounds m (after A rounds m) := by
  induction m with
  | zero =>
    refine ⟨rfl, ?_, ?_⟩
    · simp only [after, update, start, if_true]
      congr 1
      funext i
      simp [iterate]
    · simp only [after, update, start, if_true]
      congr 1
      funext i
      simp [meanIterate, iterate]
  | succ m ih =>
    obtain ⟨h1, h2, h3⟩ := ih
    obtain ⟨-, e⟩ := pair_spec A m (after A rounds m) h1 _ _ h2 h3 (rounds m).1 (rounds m).2.1 (rounds m).2.2
    have e' : after A rounds (m + 1) = ⟨false, 2 * (m + 1), some (sign (rounds m).1), some ((rounds m).2.1 : WithTop ℝ),
        some ((rounds m).2.2 : WithTop ℝ), some (iterate A rounds m), some (meanIterate A rounds m)⟩ := e
    have hit : moved (ak A (2 * (m + 1))) (ck (2 * (m + 1))) ((rounds m).2.1 : WithTop ℝ) ((rounds m).2.2 : WithTop ℝ)
        (some (sign (rounds m).1)) (some (iterate A rounds m)) = some (iterate A rounds (m + 1)) := by
      show some _ = _
      congr 1
      funext i
      simp only [iterate, Finset.sum_range_succ]
      rw [div_div]
      ring
    refine ⟨by rw [e'], ?_, ?_⟩
    · rw [e']
      simp only [update, Bool.false_eq_true, if_false]
      exact hit
    · rw [e']
      simp only [update, Bool.false_eq_true, if_false, hit]
      show some _ = _
      congr 1
      funext i
      have hd : (2 * (m + 1)) / 2 = m + 1 := by omega
      rw [hd]
      simp only [meanIterate]
      rw [Finset.sum_range_succ _ (m + 1)]
      push_cast
      field_simp
      ring

/-- **C69.** The two points of pair `m` are on both sides of iterate `m`, at distance `c` in each coordinate; and what is recommended once the
first of them is asked is the mean of the iterates so far. -/
theorem points_partial (A : Nat) (rounds : Nat → (ι → Bool) × ℝ × ℝ) (m : Nat) :
    (pair A (after A rounds m) (rounds m)).1 =
      (some (fun i => iterate A rounds m i - ck (2 * m) * sign (rounds m).1 i),
        some (fun i => iterate A rounds m i + ck (2 * m) * sign (rounds m).1 i)) ∧
    (pair A (after A rounds m) (rounds m)).2.avg = some (meanIterate A rounds m) := by
  obtain ⟨h1, h2, h3⟩ := ready A rounds m
  obtain ⟨e1, e2⟩ := pair_spec A m (after A rounds m) h1 _ _ h2 h3 (rounds m).1 (rounds m).2.1 (rounds m).2.2
  exact ⟨e1, by rw [show rounds m = ((rounds m).1, (rounds m).2.1, (rounds m).2.2) from rfl, e2]⟩

/-- **C69.** The move after a pair goes from the worse of the two points towards the better one: along the direction drawn it has the sign of
`f- - f+`, and no coordinate moves when they are equal. -/
theorem move_direction (A : Nat) (rounds : Nat → (ι → Bool) × ℝ × ℝ) (m : Nat) (i : ι) :
    ∃ g : ℝ, 0 < g ∧ iterate A rounds (m + 1) i - iterate A rounds m i = g * ((rounds m).2.1 - (rounds m).2.2) * sign (rounds m).1 i := by
  refine ⟨ak A (2 * (m + 1)) / (2 * ck (2 * (m + 1))), div_pos (ak_pos _ _) (mul_pos two_pos (ck_pos _)), ?_⟩
  simp only [iterate, Finset.sum_range_succ]
  ring

/-- **C69 (disagreement).** The difference of losses is divided by the perturbation of the *next* pair, not by the one which was used: if the
difference quotient over the pair is `q`, the step is the learning rate times `r q` with `r > 1`. -/
theorem next_perturbation (A : Nat) (rounds : Nat → (ι → Bool) × ℝ × ℝ) (m : Nat) (i : ι) (q : ℝ)
    (hq : (rounds m).2.2 - (rounds m).2.1 = q * (2 * ck (2 * m))) :
    ∃ r : ℝ, 1 < r ∧ iterate A rounds (m + 1) i = iterate A rounds m i - ak A (2 * (m + 1)) * (r * q) * sign (rounds m).1 i := by
  have h := ck_strict (2 * m)
  have e : 2 * m + 2 = 2 * (m + 1) := by ring
  rw [e] at h
  have hp := ck_pos (2 * (m + 1))
  refine ⟨ck (2 * m) / ck (2 * (m + 1)), by rw [one_lt_div hp]; exact h, ?_⟩
  simp only [iterate, Finset.sum_range_succ, hq]
  field_simp
  ring

/-! ## Other uses -/

theorem update_dead (A : Nat) (s : St ι) (h : s.t = none) : (update A s).t = none := by
  unfold update
  split
  · exact h
  · split
    · show moved _ _ _ _ _ _ = none
      rw [h]
      unfold moved
      split <;> simp_all
    · exact h

theorem ask_dead (A : Nat) (draw : ι → Bool) (s : St ι) (h : s.t = none) :
    (ask A draw s).1 = none ∧ (ask A draw s).2.t = none := by
  unfold ask
  split
  · simp only [update_dead A s h]
    exact ⟨by unfold shifted; simp, trivial⟩
  · refine ⟨?_, h⟩
    rw [h]
    unfold shifted
    split <;> simp_all

/-- One call of the user, or a candidate rejected inside `ask`. -/
inductive Op (ι : Type) where
  | ask (draw : ι → Bool)
  | tell (loss : WithTop ℝ)

noncomputable def step (A : Nat) (s : St ι) : Op ι → St ι
  | .ask draw => (Spsa.ask A draw s).2
  | .tell loss => Spsa.tell loss s

/-- **C69 (disagreement).** One candidate rejected by a cheap constraint is told infinity. From the update of its pair on, the current point
is not finite any more and no ask ever gives a finite point again. -/
theorem rejected_for_good (A : Nat) (s : St ι) (m : WithTop ℝ) (p : WithTop ℝ) (hi : s.init = false) (h0 : s.idx % 2 = 0) (hm : s.ym = some m)
    (hp : s.yp = some p) (h : m = ⊤ ∨ p = ⊤) (draw : ι → Bool) (ops : List (Op ι)) (draw' : ι → Bool) :
    (ask A draw s).1 = none ∧ (ask A draw' (ops.foldl (step A) (ask A draw s).2)).1 = none := by
  have hu : (update A s).t = none := by
    unfold update
    rw [hi]
    simp only [Bool.false_eq_true, if_false, hm, hp]
    rcases h with rfl | rfl
    · rfl
    · cases m <;> rfl
  have h1 : (ask A draw s).1 = none ∧ (ask A draw s).2.t = none := by
    rw [ask_even A draw s h0]
    simp only [hu]
    exact ⟨rfl, trivial⟩
  refine ⟨h1.1, ?_⟩
  have key : ∀ (ops : List (Op ι)) (x : St ι), x.t = none → (ops.foldl (step A) x).t = none := by
    intro ops
    induction ops with
    | nil => intro x hx; exact hx
    | cons op ops ih =>
      intro x hx
      refine ih _ ?_
      cases op with
      | ask draw => exact (ask_dead A draw x hx).2
      | tell loss => show (Spsa.tell loss x).t = none; unfold tell; split <;> exact hx
  exact (ask_dead A draw' _ (key ops _ h1.2)).1

/-- The hypotheses above are met: the first candidate of a new optimizer is rejected, and the next one evaluated. -/
theorem rejected_reached (A : Nat) (d d' : ι → Bool) (loss : ℝ) :
    let s := tell (loss : WithTop ℝ) (ask A d' (rejected A d start)).2
    s.init = false ∧ s.idx % 2 = 0 ∧ s.ym = some ⊤ ∧ s.yp = some (loss : WithTop ℝ) := by
  simp [rejected, ask, start, update, tell]

/-- **C69 (disagreement).** Telling a point which was not asked to a new optimizer makes its first ask give NaN. -/
theorem not_asked_first (A : Nat) (loss : WithTop ℝ) (draw : ι → Bool) : (ask A draw (tell loss start)).1 = none := by
  simp [ask, tell, start, shifted]

/-- **C69 (disagreement).** Later on it takes the place of the loss of the asked point: the loss of the asked point is attributed to the other side
of the pair. -/
theorem not_asked_shifts (A m : Nat) (draw : ι → Bool) (s : St ι) (hidx : s.idx = 2 * m) (other : ℝ) (loss : ℝ) :
    (tell (loss : WithTop ℝ) (tell (other : WithTop ℝ) (ask A draw s).2)).ym = some (other : WithTop ℝ) ∧
    (tell (loss : WithTop ℝ) (tell (other : WithTop ℝ) (ask A draw s).2)).yp = some (loss : WithTop ℝ) := by
  have h0 : s.idx % 2 = 0 := by omega
  rw [ask_even A draw s h0]
  have u1 := (update_idx A s).1
  have e : tell (other : WithTop ℝ) { update A s with delta := some (sign draw) } =
      { update A s with delta := some (sign draw), ym := some (other : WithTop ℝ), idx := s.idx + 1, init := (update A s).init && (update A s).yp.isNone } := by
    unfold tell
    simp only [u1, h0, if_true]
  rw [e]
  unfold tell
  rw [if_neg (by simp only; omega)]
  exact ⟨rfl, rfl⟩

/-- **C69 (disagreement).** Asking again before telling applies the losses of the last pair a second time, along a direction they have nothing to
do with. -/
theorem two_asks (A : Nat) (s : St ι) (t : ι → ℝ) (δ : ι → ℝ) (fm fp : ℝ) (hi : s.init = false) (h0 : s.idx % 2 = 0) (hm : s.ym = some (fm : WithTop ℝ))
    (hp : s.yp = some (fp : WithTop ℝ)) (hd : s.delta = some δ) (ht : s.t = some t) (d1 d2 : ι → Bool) :
    (ask A d2 (ask A d1 s).2).2.t = some (fun i => t i - (ak A s.idx * (fp - fm) / 2 / ck s.idx) * δ i
      - (ak A s.idx * (fp - fm) / 2 / ck s.idx) * sign d1 i) := by
  obtain ⟨u1, u2, u3, u4, -⟩ := update_idx A s
  have key : ∀ (x : St ι) (τ ε : ι → ℝ), x.init = false → x.ym = some (fm : WithTop ℝ) → x.yp = some (fp : WithTop ℝ) → x.delta = some ε →
      x.t = some τ → (update A x).t = some (fun i => τ i - (ak A x.idx * (fp - fm) / 2 / ck x.idx) * ε i) := by
    intro x τ ε h1 h2 h3 h4 h5
    unfold update
    rw [h1]
    simp only [Bool.false_eq_true, if_false, h2, h3, h4, h5]
    rfl
  rw [ask_even A d1 s h0, ask_even A d2 _ (by simpa only [u1] using h0)]
  have := key { update A s with delta := some (sign d1) } _ (sign d1) (u2.trans hi) (u3.trans hm) (u4.trans hp) rfl (key s t δ hi hm hp hd ht)
  have e : ({ update A s with delta := some (sign d1) } : St ι).idx = s.idx := u1
  rw [e] at this
  exact this

/-! ## The offset of the learning rate -/

/-- At least 10, and the twentieth of the budget from 200 on: the largest number whose twenty-fold does not exceed the budget. -/
theorem bigA_spec (budget : Option Nat) :
    10 ≤ bigA budget ∧ ∀ b, budget = some b → (200 ≤ b → 20 * bigA budget ≤ b) ∧ b < 20 * (bigA budget + 1) := by
  cases budget with
  | none => simp [bigA]
  | some b =>
    refine ⟨by simp [bigA], ?_⟩
    intro b' h
    obtain rfl : b = b' := by simpa using h
    simp only [bigA]
    constructor <;> omega

/-! ## Concrete case -/

example : bigA (some 1000) = 50 ∧ bigA (some 60) = 10 := by decide

/-- After one pair with losses 1 and 3, the direction drawn being positive, the single coordinate becomes `-a / c` (for the second pair). -/
example : iterate (ι := Unit) 10 (fun _ => (fun _ => true, 1, 3)) 1 () = - (ak 10 2 / ck 2) := by
  have := (ck_pos 2).ne'
  simp [iterate, sign]
  field_simp
  ring

end Spsa
end NG
