import Verif.Model.Sims
import Mathlib.Tactic.Linarith
import Mathlib.Tactic.NormNum
import Mathlib.Tactic.Ring
import Mathlib.Tactic.Positivity
import Mathlib.Tactic.FieldSimp
import Mathlib.Algebra.Order.BigOperators.Group.List
import Mathlib.Algebra.Order.BigOperators.Group.Finset
import Mathlib.Analysis.Complex.Norm

/-!
# C114, C115, C116: fishing, unit commitment and travelling salesman
-/

set_option linter.unusedSectionVars false

namespace NG

/-! ## Fishing -/

namespace Fishing

variable {α : Type*} [Field α] [LinearOrder α] [IsStrictOrderedRing α]

/-- Both populations are between 0 and 1. -/
abbrev Alive (s : Sea α) : Prop := 0 ≤ s.dogfishes ∧ s.dogfishes ≤ 1 ∧ 0 ≤ s.haddocks ∧ s.haddocks ≤ 1

/-- What is fished on a day: at most a tenth of the effort, and the dogfishes of the day. -/
theorem day_spec (s : Sea α) (h : Alive s) (f : α) : ∃ s', day s f = some s' ∧ Alive s' ∧
    s'.total = s.total + min (max 0 f / 10) (s.dogfishes * (29 / 30 + s.haddocks / 3)) ∧
    s'.dogfishes = min 1 (s.dogfishes * (29 / 30 + s.haddocks / 3) - min (max 0 f / 10) (s.dogfishes * (29 / 30 + s.haddocks / 3))) := by
  obtain ⟨d0, d1, h0, h1⟩ := h
  have e1 : s.dogfishes - 1 / 30 * s.dogfishes + 5 / 2 * (s.dogfishes * s.haddocks * 4 / 30) = s.dogfishes * (29 / 30 + s.haddocks / 3) := by ring
  have e2 : 1 / 10 * max 0 f = max 0 f / 10 := by ring
  have e3 : s.haddocks + s.haddocks * 2 / 30 - s.dogfishes * s.haddocks * 4 / 30 = s.haddocks * (1 + 2 / 30 - s.dogfishes * 4 / 30) := by ring
  have hle := min_le_right (max 0 f / 10) (s.dogfishes * (29 / 30 + s.haddocks / 3))
  unfold day
  simp only
  rw [e1, e2, e3, if_pos (by linarith)]
  refine ⟨_, rfl, ⟨le_min zero_le_one (by linarith), min_le_left _ _, le_min zero_le_one ?_, min_le_left _ _⟩, rfl, rfl⟩
  exact mul_nonneg h0 (by linarith)

theorem days_append (a b : List α) (s : Sea α) : days (a ++ b) s = (days a s).bind (days b) := by
  induction a generalizing s with
  | nil => rfl
  | cons f a ih =>
    simp only [List.cons_append, days]
    rcases day s f with _ | s'
    · rfl
    · simp only [Option.bind_some, ih]

/-- The populations stay between 0 and 1, whatever the efforts: the assertion never fails. What is fished is at most a tenth of the efforts. -/
theorem days_spec (efforts : List α) (s : Sea α) (h : Alive s) : ∃ s', days efforts s = some s' ∧ Alive s' ∧ s.total ≤ s'.total ∧
    s'.total ≤ s.total + (efforts.map fun f => min (max 0 f / 10) (13 / 10)).sum := by
  induction efforts generalizing s with
  | nil => exact ⟨s, rfl, h, le_refl _, by simp⟩
  | cons f r ih =>
    obtain ⟨s1, hs1, ha, ht, _⟩ := day_spec s h f
    obtain ⟨s2, hs2, hb, h1, h2⟩ := ih s1 ha
    have hm : 0 ≤ max 0 f := le_max_left _ _
    have hd : 0 ≤ s.dogfishes * (29 / 30 + s.haddocks / 3) := mul_nonneg h.1 (by linarith [h.2.2.1])
    have hcap : 0 ≤ min (max 0 f / 10) (s.dogfishes * (29 / 30 + s.haddocks / 3)) := le_min (by linarith) hd
    have hup : min (max 0 f / 10) (s.dogfishes * (29 / 30 + s.haddocks / 3)) ≤ min (max 0 f / 10) (13 / 10) := by
      apply min_le_min le_rfl
      calc s.dogfishes * (29 / 30 + s.haddocks / 3) ≤ 1 * (29 / 30 + s.haddocks / 3) :=
            mul_le_mul_of_nonneg_right h.2.1 (by linarith [h.2.2.1])
        _ ≤ 13 / 10 := by linarith [h.2.2.2]
    refine ⟨s2, by rw [days, hs1, Option.bind_some, hs2], hb, by linarith, ?_⟩
    rw [List.map_cons, List.sum_cons]
    linarith

theorem start : Alive (⟨1 / 5, 4 / 5, 0⟩ : Sea α) := by
  refine ⟨?_, ?_, ?_, ?_⟩ <;> simp only <;> norm_num

/-- The loss is defined, non-positive, and bounded by the efforts. -/
theorem loss_bounds (efforts : List α) : ∃ v, loss efforts = some v ∧ v ≤ 0 ∧ -(efforts.map fun f => min (max 0 f / 10) (13 / 10)).sum ≤ v := by
  obtain ⟨s, hs, _, h1, h2⟩ := days_spec efforts _ (start (α := α))
  refine ⟨_, by rw [loss, hs]; rfl, ?_, ?_⟩
  · simp only at h1
    linarith
  · simp only at h2
    linarith

/-- Negative efforts are no efforts. -/
theorem loss_negative (efforts : List α) : loss (efforts.map fun f => max 0 f) = loss efforts := by
  have : ∀ s : Sea α, days (efforts.map fun f => max 0 f) s = days efforts s := by
    induction efforts with
    | nil => intro s; rfl
    | cons f r ih =>
      intro s
      have : day s (max 0 f) = day s f := by simp [day]
      rw [List.map_cons, days, days, this]
      rcases day s f with _ | s'
      · rfl
      · exact ih s'
  rw [loss, loss, this]

/-- Something is fished exactly when there is an effort. -/
theorem loss_zero (efforts : List α) : loss efforts = some 0 ↔ ∀ f ∈ efforts, f ≤ 0 := by
  have key : ∀ s : Sea α, Alive s → 0 < s.dogfishes → ∀ s', days efforts s = some s' → (s'.total = s.total ↔ ∀ f ∈ efforts, f ≤ 0) := by
    induction efforts with
    | nil =>
      intro s _ _ s' h
      rw [days] at h
      have := Option.some.inj h
      subst this
      simp
    | cons f r ih =>
      intro s ha hpos s' h
      obtain ⟨s1, hs1, hb, ht, hd⟩ := day_spec s ha f
      rw [days, hs1, Option.bind_some] at h
      have hD : 0 < s.dogfishes * (29 / 30 + s.haddocks / 3) := mul_pos hpos (by linarith [ha.2.2.1])
      by_cases hf : f ≤ 0
      · rw [max_eq_left hf, zero_div, min_eq_left hD.le] at ht hd
        have := ih s1 hb (by rw [hd, sub_zero]; exact lt_min one_pos hD) s' h
        rw [ht, add_zero] at this
        rw [this]
        simp [hf]
      · have hf' : 0 < f := not_le.1 hf
        rw [max_eq_right hf'.le] at ht
        have hcap : 0 < min (f / 10) (s.dogfishes * (29 / 30 + s.haddocks / 3)) := lt_min (by linarith) hD
        obtain ⟨s2, hs2, _, hge, _⟩ := days_spec r s1 hb
        rw [hs2] at h
        have := Option.some.inj h
        subst this
        constructor
        · intro he
          linarith
        · intro hall
          exact absurd (hall f List.mem_cons_self) hf
  obtain ⟨s, hs, _, _⟩ := days_spec efforts _ (start (α := α))
  have := key _ (start (α := α)) (by simp only; norm_num) s hs
  rw [loss, hs, Option.map_some, Option.some.injEq, neg_eq_zero]
  exact this

/-- One more day never increases the loss, and more effort on the last day neither. -/
theorem loss_last (efforts : List α) (f g : α) (h : f ≤ g) : ∃ u v w, loss efforts = some u ∧ loss (efforts ++ [f]) = some v ∧ loss (efforts ++ [g]) = some w ∧
    w ≤ v ∧ v ≤ u := by
  obtain ⟨s, hs, ha, _⟩ := days_spec efforts _ (start (α := α))
  obtain ⟨s1, hs1, _, t1, _⟩ := day_spec s ha f
  obtain ⟨s2, hs2, _, t2, _⟩ := day_spec s ha g
  refine ⟨-s.total, -s1.total, -s2.total, by rw [loss, hs]; rfl, ?_, ?_, ?_, ?_⟩
  · rw [loss, days_append, hs, Option.bind_some, days, hs1]
    rfl
  · rw [loss, days_append, hs, Option.bind_some, days, hs2]
    rfl
  · rw [t1, t2]
    have : max 0 f / 10 ≤ max 0 g / 10 := by
      have := max_le_max (le_refl (0 : α)) h
      linarith
    have := min_le_min this (le_refl (s.dogfishes * (29 / 30 + s.haddocks / 3)))
    linarith
  · rw [t1]
    have h1 : 0 ≤ max 0 f := le_max_left _ _
    have : 0 ≤ min (max 0 f / 10) (s.dogfishes * (29 / 30 + s.haddocks / 3)) :=
      le_min (by linarith) (mul_nonneg ha.1 (by linarith [ha.2.2.1]))
    linarith

/-- After a day with an effort of 13 or more, nothing more is ever fished. -/
theorem extinction (before after : List α) (f : α) (h : 13 ≤ f) : loss (before ++ f :: after) = loss (before ++ [f]) := by
  obtain ⟨s, hs, ha, _⟩ := days_spec before _ (start (α := α))
  obtain ⟨s1, hs1, hb, _, hd⟩ := day_spec s ha f
  have hle : s.dogfishes * (29 / 30 + s.haddocks / 3) ≤ max 0 f / 10 := by
    rw [max_eq_right (by linarith)]
    calc s.dogfishes * (29 / 30 + s.haddocks / 3) ≤ 1 * (29 / 30 + s.haddocks / 3) :=
          mul_le_mul_of_nonneg_right ha.2.1 (by linarith [ha.2.2.1])
      _ ≤ f / 10 := by linarith [ha.2.2.2]
  rw [min_eq_right hle, sub_self, min_eq_right zero_le_one] at hd
  have key : ∀ (l : List α) (s1 : Sea α), Alive s1 → s1.dogfishes = 0 → ∃ s2, days l s1 = some s2 ∧ s2.total = s1.total := by
    intro l
    induction l with
    | nil => intro s1 _ _; exact ⟨s1, rfl, rfl⟩
    | cons g l ih =>
      intro s1 hb hd
      obtain ⟨s2, hs2, hc, ht, hd2⟩ := day_spec s1 hb g
      have hm : 0 ≤ max 0 g := le_max_left _ _
      have hm' : 0 ≤ max 0 g / 10 := by linarith
      rw [hd, zero_mul, min_eq_right hm'] at ht
      rw [hd, zero_mul, min_eq_right hm', sub_zero, min_eq_right zero_le_one] at hd2
      obtain ⟨s3, hs3, ht3⟩ := ih s2 hc hd2
      exact ⟨s3, by rw [days, hs2, Option.bind_some, hs3], by rw [ht3, ht, add_zero]⟩
  obtain ⟨s2, hs2, ht⟩ := key after s1 hb hd
  rw [loss, loss, days_append, days_append, hs, Option.bind_some, Option.bind_some, days, days, hs1, Option.bind_some, Option.bind_some, hs2]
  simp only [days, Option.map_some, ht]

example : loss [1 / 2, -1, 5 / 2, (0 : ℚ)] = some (-3/10) := by decide +kernel

example : loss [1 / 2, -1, (0 : ℚ)] = some (-(1 / 20)) := by decide +kernel

end Fishing

/-! ## Unit commitment -/

namespace UnitCom

variable {α : Type*} [Field α] [LinearOrder α] [IsStrictOrderedRing α]

/-! ### Specification -/

/-- The constraints: the demand is produced, and a generator that is on produces between the two bounds and otherwise nothing. -/
structure Feasible (p : Problem α) (output : Nat → Nat → α) (on : Nat → Nat → Prop) : Prop where
  demand : ∀ t, t < p.timepoints → ∑ g ∈ Finset.range p.generators, output g t = p.demands t
  running : ∀ g t, g < p.generators → t < p.timepoints → on g t → p.pMin ≤ output g t ∧ output g t ≤ p.pMax
  stopped : ∀ g t, g < p.generators → t < p.timepoints → ¬ on g t → output g t = 0

/-- The states as a list of 0 and 1. -/
abbrev Binary (p : Problem α) (states : List α) : Prop := states.length = p.generators * p.timepoints ∧ ∀ v ∈ states, v = 0 ∨ v = 1

/-- A generator is on. -/
abbrev On (p : Problem α) (states : List α) (g t : Nat) : Prop := states[g * p.timepoints + t]? = some 1

/-- The cost of what is produced and of what is on. -/
def cost (p : Problem α) (output : Nat → Nat → α) (states : List α) : α :=
  ∑ g ∈ Finset.range p.generators, ∑ t ∈ Finset.range p.timepoints, (output g t * p.costA g + (if On p states g t then p.costB g else 0))

/-! ### The objective -/

theorem state_value (p : Problem α) (states : List α) (h : Binary p states) (g t : Nat) (hg : g < p.generators) (ht : t < p.timepoints) :
    states[g * p.timepoints + t]?.getD 0 = if On p states g t then 1 else 0 := by
  have hlt : g * p.timepoints + t < states.length := by
    rw [h.1]
    calc g * p.timepoints + t < g * p.timepoints + p.timepoints := by omega
      _ = (g + 1) * p.timepoints := by ring
      _ ≤ p.generators * p.timepoints := Nat.mul_le_mul_right _ hg
  unfold On
  rw [List.getElem?_eq_getElem hlt]
  rcases h.2 _ (List.getElem_mem hlt) with e | e
  · rw [e]; simp
  · rw [e]; simp

theorem running_cost (p : Problem α) (output : Nat → Nat → α) (states : List α) (h : Binary p states) :
    runningCost p output (fun g t => states[g * p.timepoints + t]?.getD 0) = cost p output states := by
  unfold runningCost cost
  apply Finset.sum_congr rfl
  intro g hg
  rw [Finset.sum_mul, Finset.sum_mul, ← Finset.sum_add_distrib]
  apply Finset.sum_congr rfl
  intro t ht
  simp only
  rw [state_value p states h g t (Finset.mem_range.1 hg) (Finset.mem_range.1 ht)]
  split <;> simp

/-- The objective is at least the running cost, and equal to it exactly when the constraints are satisfied. -/
theorem objective_spec (p : Problem α) (output : Nat → Nat → α) (states : List α) (h : Binary p states) (hw : 0 < p.penalty) :
    ∃ v, objective p output states = some v ∧ cost p output states ≤ v ∧ (v = cost p output states ↔ Feasible p output (On p states)) := by
  have h1 : 0 ≤ demandPenalty p output := Finset.sum_nonneg (fun _ _ => abs_nonneg _)
  have h2 : 0 ≤ lbPenalty p output (fun g t => states[g * p.timepoints + t]?.getD 0) :=
    Finset.sum_nonneg (fun _ _ => Finset.sum_nonneg (fun _ _ => le_max_left _ _))
  have h3 : 0 ≤ ubPenalty p output (fun g t => states[g * p.timepoints + t]?.getD 0) :=
    Finset.sum_nonneg (fun _ _ => Finset.sum_nonneg (fun _ _ => le_max_left _ _))
  refine ⟨_, by rw [objective, if_pos h.1], ?_, ?_⟩
  · rw [running_cost p output states h]
    have := mul_nonneg (add_nonneg (add_nonneg h1 h2) h3) hw.le
    linarith
  · rw [running_cost p output states h, add_eq_left, mul_eq_zero, or_iff_left hw.ne']
    have hsplit : demandPenalty p output + lbPenalty p output (fun g t => states[g * p.timepoints + t]?.getD 0)
        + ubPenalty p output (fun g t => states[g * p.timepoints + t]?.getD 0) = 0 ↔ demandPenalty p output = 0 ∧
        lbPenalty p output (fun g t => states[g * p.timepoints + t]?.getD 0) = 0 ∧ ubPenalty p output (fun g t => states[g * p.timepoints + t]?.getD 0) = 0 := by
      constructor
      · intro h
        refine ⟨?_, ?_, ?_⟩ <;> linarith
      · rintro ⟨a, b, c⟩
        rw [a, b, c]
        simp
    rw [hsplit]
    have e1 : demandPenalty p output = 0 ↔ ∀ t, t < p.timepoints → ∑ g ∈ Finset.range p.generators, output g t = p.demands t := by
      rw [demandPenalty, Finset.sum_eq_zero_iff_of_nonneg (fun _ _ => abs_nonneg _)]
      simp only [Finset.mem_range, abs_eq_zero, sub_eq_zero]
    have e2 : ∀ f : Nat → Nat → α, (∑ g ∈ Finset.range p.generators, ∑ t ∈ Finset.range p.timepoints, max 0 (f g t)) = 0 ↔
        ∀ g t, g < p.generators → t < p.timepoints → f g t ≤ 0 := by
      intro f
      rw [Finset.sum_eq_zero_iff_of_nonneg (fun _ _ => Finset.sum_nonneg (fun _ _ => le_max_left _ _))]
      constructor
      · intro h g t hg ht
        have := h g (Finset.mem_range.2 hg)
        rw [Finset.sum_eq_zero_iff_of_nonneg (fun _ _ => le_max_left _ _)] at this
        exact max_eq_left_iff.1 (this t (Finset.mem_range.2 ht))
      · intro h g hg
        apply Finset.sum_eq_zero
        intro t ht
        exact max_eq_left (h g t (Finset.mem_range.1 hg) (Finset.mem_range.1 ht))
    rw [e1, lbPenalty, e2, ubPenalty, e2]
    constructor
    · rintro ⟨a, b, c⟩
      refine ⟨a, ?_, ?_⟩
      · intro g t hg ht hon
        have hb := b g t hg ht
        have hc := c g t hg ht
        rw [state_value p states h g t hg ht, if_pos hon, mul_one] at hb hc
        exact ⟨by linarith, by linarith⟩
      · intro g t hg ht hon
        have hb := b g t hg ht
        have hc := c g t hg ht
        rw [state_value p states h g t hg ht, if_neg hon, mul_zero] at hb hc
        exact le_antisymm (by linarith) (by linarith)
    · rintro ⟨a, b, c⟩
      refine ⟨a, ?_, ?_⟩
      · intro g t hg ht
        rw [state_value p states h g t hg ht]
        by_cases hon : On p states g t
        · rw [if_pos hon, mul_one]
          linarith [(b g t hg ht hon).1]
        · rw [if_neg hon, mul_zero, c g t hg ht hon, sub_zero]
      · intro g t hg ht
        rw [state_value p states h g t hg ht]
        by_cases hon : On p states g t
        · rw [if_pos hon, mul_one]
          linarith [(b g t hg ht hon).2]
        · rw [if_neg hon, mul_zero, c g t hg ht hon, sub_zero]

/-! ### Is there a solution? -/

/-- The production of a time point is between the bounds times the number of generators that are on. -/
theorem reachable (p : Problem α) (output : Nat → Nat → α) (on : Nat → Nat → Prop) (h : Feasible p output on) (t : Nat) (ht : t < p.timepoints) :
    ∃ k : Nat, k ≤ p.generators ∧ k * p.pMin ≤ p.demands t ∧ p.demands t ≤ k * p.pMax := by
  classical
  rw [← h.demand t ht]
  refine ⟨((Finset.range p.generators).filter fun g => on g t).card, ?_, ?_, ?_⟩
  · exact (Finset.card_filter_le _ _).trans (by simp)
  · rw [← nsmul_eq_mul, ← Finset.sum_const, Finset.sum_filter]
    apply Finset.sum_le_sum
    intro g hg
    by_cases hon : on g t
    · rw [if_pos hon]
      exact (h.running g t (Finset.mem_range.1 hg) ht hon).1
    · rw [if_neg hon, h.stopped g t (Finset.mem_range.1 hg) ht hon]
  · rw [← nsmul_eq_mul, ← Finset.sum_const, Finset.sum_filter]
    apply Finset.sum_le_sum
    intro g hg
    by_cases hon : on g t
    · rw [if_pos hon]
      exact (h.running g t (Finset.mem_range.1 hg) ht hon).2
    · rw [if_neg hon, h.stopped g t (Finset.mem_range.1 hg) ht hon]

/-- Demands as drawn: between 100 and 200. -/
abbrev Demands (n : Nat) (d : Nat → α) : Prop := ∀ t, t < n → 100 ≤ d t ∧ d t ≤ 200

/-- The largest demand. -/
theorem make_spec (T n : Nat) (w : α) (d a b : Nat → α) (hT : 0 < T) (hn : 0 < n) : ∃ p M, make T n w d a b = some p ∧
    (∃ t, t < T ∧ d t = M) ∧ (∀ t, t < T → d t ≤ M) ∧ p.pMax = 2 * M / n ∧ p.pMin = 6 / 5 * M / n ∧ p.timepoints = T ∧ p.generators = n ∧ p.demands = d ∧ p.penalty = w := by
  have hne : (List.range T).map d ≠ [] := by
    intro h
    have := congrArg List.length h
    simp at this
    omega
  obtain ⟨M, hM⟩ : ∃ M, ((List.range T).map d).max? = some M := by
    rcases h : ((List.range T).map d).max? with _ | M
    · exact absurd (List.max?_eq_none_iff.1 h) hne
    · exact ⟨M, rfl⟩
  have hM' := List.max?_eq_some_iff.1 hM
  refine ⟨_, M, by simp only [make, hM]; rw [if_neg hn.ne'], ?_, ?_, rfl, ?_, rfl, rfl, rfl, rfl⟩
  · obtain ⟨t, ht, e⟩ := List.mem_map.1 hM'.1
    exact ⟨t, List.mem_range.1 ht, e⟩
  · intro t ht
    exact hM'.2 _ (List.mem_map.2 ⟨t, List.mem_range.2 ht, rfl⟩)
  · simp only
    ring

/-- With five generators or more, all the drawn problems have solutions. -/
theorem solvable_partial (T n : Nat) (w : α) (d a b : Nat → α) (hT : 0 < T) (hn : 5 ≤ n) (hd : Demands T d) :
    ∃ p, make T n w d a b = some p ∧ ∃ output on, Feasible p output on := by
  obtain ⟨p, M, hp, ⟨tm, htm, hM⟩, hall, hmax, hmin, eT, en, ed, _⟩ := make_spec T n w d a b hT (by omega)
  refine ⟨p, hp, ?_⟩
  have hM0 : 100 ≤ M := by rw [← hM]; exact (hd tm htm).1
  have hM1 : M ≤ 200 := by rw [← hM]; exact (hd tm htm).2
  have hn' : (5 : α) ≤ n := by exact_mod_cast hn
  have hn0 : (0 : α) < n := by linarith
  -- the number of generators that are on
  have hk : ∀ t, t < T → ∃ k : Nat, 0 < k ∧ k ≤ n ∧ k * p.pMin ≤ d t ∧ d t ≤ k * p.pMax := by
    intro t ht
    have h1 : M / 2 ≤ d t := by
      have := (hd t ht).1
      linarith
    have h2 := hall t ht
    -- the smallest number that suffices
    have hex : ∃ k : Nat, d t ≤ k * p.pMax := ⟨n, by rw [hmax, mul_div_assoc']; rw [mul_div_cancel_left₀ _ hn0.ne']; linarith⟩
    classical
    set k := Nat.find hex with hkdef
    have hle : d t ≤ k * p.pMax := Nat.find_spec hex
    have hkn : k ≤ n := Nat.find_min' hex (by rw [hmax, mul_div_assoc']; rw [mul_div_cancel_left₀ _ hn0.ne']; linarith)
    have hdpos : 0 < d t := by linarith [(hd t ht).1]
    have hkpos : 0 < k := by
      by_contra h0
      have : k = 0 := by omega
      rw [this] at hle
      simp at hle
      linarith
    have hmin' : (k - 1 : α) * p.pMax < d t := by
      have := Nat.find_min hex (m := k - 1) (by omega)
      rw [not_le] at this
      rwa [Nat.cast_sub hkpos, Nat.cast_one] at this
    have hsp : p.pMin * 5 = p.pMax * 3 := by
      rw [hmax, hmin]
      ring
    have hP : 0 < p.pMax := by
      rw [hmax]
      positivity
    refine ⟨max k 2, by omega, by omega, ?_, ?_⟩
    · rcases Nat.lt_or_ge k 3 with h3 | h3
      · have : max k 2 = 2 := by omega
        rw [this, hmin]
        have : (2 : α) * (6 / 5 * M / n) ≤ M / 2 := by
          rw [mul_div_assoc', div_le_div_iff₀ hn0 (by norm_num)]
          nlinarith
        push_cast
        linarith
      · have : max k 2 = k := by omega
        rw [this]
        have hk3 : (3 : α) ≤ k := by exact_mod_cast h3
        nlinarith
    · have : (k : α) ≤ ((max k 2 : Nat) : α) := by exact_mod_cast le_max_left k 2
      nlinarith
  choose! k hk0 hkn hkl hku using hk
  refine ⟨fun g t => if g < k t then d t / k t else 0, fun g t => g < k t, ?_, ?_, ?_⟩
  · intro t ht
    rw [eT] at ht
    rw [en, ed, ← Finset.sum_filter]
    have : (Finset.range n).filter (fun g => g < k t) = Finset.range (k t) := by
      ext g
      have := hkn t ht
      simp only [Finset.mem_filter, Finset.mem_range]
      omega
    rw [this, Finset.sum_const, Finset.card_range, nsmul_eq_mul]
    have : (k t : α) ≠ 0 := by exact_mod_cast (hk0 t ht).ne'
    field_simp
  · intro g t _ ht hon
    rw [eT] at ht
    simp only [if_pos hon]
    have hpos : (0 : α) < k t := by exact_mod_cast hk0 t ht
    constructor
    · rw [le_div_iff₀ hpos]
      linarith [hkl t ht]
    · rw [div_le_iff₀ hpos]
      linarith [hku t ht]
  · intro g t _ _ hon
    simp only [if_neg hon]

/-- A problem with a demand that no number of generators can give: above one generator at most and below two at least, or below one at least. -/
theorem unsolvable (T n : Nat) (w : α) (d a b : Nat → α) (hT : 0 < T) (hn : 0 < n) (hd : Demands T d) (t s : Nat) (ht : t < T) (hs : s < T)
    (hlt : n * d t < 6 / 5 * d s ∨ ((∀ r, r < T → 2 * d r < n * d t) ∧ n * d t < 12 / 5 * d s)) :
    ∃ p, make T n w d a b = some p ∧ ∀ output on, ¬ Feasible p output on := by
  obtain ⟨p, M, hp, ⟨tm, htm, hM⟩, hall, hmax, hmin, eT, en, ed, _⟩ := make_spec T n w d a b hT hn
  refine ⟨p, hp, ?_⟩
  intro output on hf
  obtain ⟨k, hk, h1, h2⟩ := reachable p output on hf t (by rw [eT]; exact ht)
  have hn0 : (0 : α) < n := by exact_mod_cast hn
  rw [ed] at h1 h2
  rw [hmin, mul_div_assoc', div_le_iff₀ hn0] at h1
  rw [hmax, mul_div_assoc', le_div_iff₀ hn0] at h2
  have hdt := (hd t ht).1
  have hsM := hall s hs
  have hds := (hd s hs).1
  have hM0 : 100 ≤ M := by linarith
  have hk0 : k ≠ 0 := by
    rintro rfl
    simp at h2
    nlinarith
  have hk1 : (1 : α) ≤ k := by exact_mod_cast Nat.one_le_iff_ne_zero.2 hk0
  rcases hlt with hlt | ⟨hgt, hlt⟩
  · nlinarith
  · rcases Nat.lt_or_ge k 2 with h3 | h3
    · have : k = 1 := by omega
      subst this
      have := hgt tm htm
      rw [hM] at this
      simp at h2
      linarith
    · have hk2 : (2 : α) ≤ k := by exact_mod_cast h3
      nlinarith

/-- With at most four generators (three by default) there are drawn problems without any solution, for all numbers of time points but one. -/
theorem unsolvable_few (T n : Nat) (w : α) (a b : Nat → α) (hT : 2 ≤ T) (hn : 1 ≤ n) (hn4 : n ≤ 4) : ∃ d p, Demands T d ∧ make T n w d a b = some p ∧
    ∀ output on, ¬ Feasible p output on := by
  have main : ∀ v : α, 100 ≤ v → v ≤ 200 → (n * v < 240 ∨ (400 < n * v ∧ 2 * v < n * v ∧ n * v < 480)) →
      ∃ d p, Demands T d ∧ make T n w d a b = some p ∧ ∀ output on, ¬ Feasible p output on := by
    intro v h1 h2 h3
    have hd : Demands T (fun t => if t = 0 then 200 else v : Nat → α) := by
      intro t _
      by_cases h : t = 0
      · simp only [if_pos h]
        constructor <;> norm_num
      · simp only [if_neg h]
        exact ⟨h1, h2⟩
    obtain ⟨p, hp, hf⟩ := unsolvable T n w _ a b (by omega) (by omega) hd 1 0 (by omega) (by omega) (by
      rcases h3 with h3 | ⟨h3, h4, h5⟩
      · left
        norm_num
        linarith
      · right
        constructor
        · intro r _
          by_cases h : r = 0
          · simp only [if_pos h, one_ne_zero, if_false]
            linarith
          · simp only [if_neg h, one_ne_zero, if_false]
            exact h4
        · norm_num
          linarith)
    exact ⟨_, p, hd, hp, hf⟩
  rcases (by omega : n = 1 ∨ n = 2 ∨ n = 3 ∨ n = 4) with rfl | rfl | rfl | rfl
  · exact main 150 (by norm_num) (by norm_num) (Or.inl (by norm_num))
  · exact main 110 (by norm_num) (by norm_num) (Or.inl (by norm_num))
  · exact main 145 (by norm_num) (by norm_num) (Or.inr ⟨by norm_num, by norm_num, by norm_num⟩)
  · exact main 110 (by norm_num) (by norm_num) (Or.inr ⟨by norm_num, by norm_num, by norm_num⟩)

/-- Two generators and two time points: the states are read generator by generator. -/
example : (make 2 2 (1000 : ℚ) (fun t => [150, 120][t]?.getD 0) (fun _ => 0) (fun g => [3, 4][g]?.getD 0)).bind
    (fun p => objective p (fun g t => [[150, 120], [0, 0]][g]?.getD [] |>.getD t 0) [1, 1, 0, 0]) = some 141 := by decide +kernel

/-- The second generator is on without producing: its minimum of 90 is missed. -/
example : (make 2 2 (1000 : ℚ) (fun t => [150, 120][t]?.getD 0) (fun _ => 0) (fun g => [3, 4][g]?.getD 0)).bind
    (fun p => objective p (fun g t => [[150, 120], [0, 0]][g]?.getD [] |>.getD t 0) [1, 1, 1, 0]) = some 90145 := by decide +kernel

end UnitCom

/-! ## Travelling salesman -/

namespace Stsp

theorem zipIdx_snd {α : Type*} (x : List α) : x.zipIdx.map Prod.snd = List.range x.length := by
  rw [List.zipIdx_map_snd, List.range_eq_range']

/-- Each city is visited once. -/
theorem argsort_perm {α : Type*} [LinearOrder α] (x : List α) : (argsort x).Perm (List.range x.length) := by
  rw [← zipIdx_snd x]
  exact (List.perm_insertionSort _ _).map _

/-- In the order of the entries. -/
theorem argsort_sorted {α : Type*} [LinearOrder α] (x : List α) : (argsort x).Pairwise (fun i j => ∀ a b, x[i]? = some a → x[j]? = some b → a ≤ b) := by
  have h1 : Std.Total (fun a b : α × Nat => a.1 ≤ b.1) := ⟨fun i j => le_total _ _⟩
  have h2 : IsTrans (α × Nat) (fun a b : α × Nat => a.1 ≤ b.1) := ⟨fun _ _ _ => le_trans⟩
  have hs := List.pairwise_insertionSort (fun a b : α × Nat => a.1 ≤ b.1) x.zipIdx
  rw [argsort, List.pairwise_map]
  apply List.Pairwise.imp_of_mem _ hs
  intro p q hp hq hle a b ha hb
  have hp' := List.mem_zipIdx_iff_getElem?.1 ((List.perm_insertionSort _ _).mem_iff.1 hp)
  have hq' := List.mem_zipIdx_iff_getElem?.1 ((List.perm_insertionSort _ _).mem_iff.1 hq)
  rw [hp'] at ha
  rw [hq'] at hb
  rw [← Option.some.inj ha, ← Option.some.inj hb]
  exact hle

/-- Without equal entries, there is only one such order. -/
theorem argsort_unique {α : Type*} [LinearOrder α] (x : List α) (hx : x.Nodup) (order : List Nat) (hp : order.Perm (List.range x.length))
    (hs : order.Pairwise (fun i j => ∀ a b, x[i]? = some a → x[j]? = some b → a ≤ b)) : argsort x = order := by
  apply List.Perm.eq_of_pairwise (le := fun i j => ∀ a b, x[i]? = some a → x[j]? = some b → a ≤ b) _ (argsort_sorted x) hs ((argsort_perm x).trans hp.symm)
  intro i j hi hj h1 h2
  have hi' := List.mem_range.1 ((argsort_perm x).mem_iff.1 hi)
  have hj' := List.mem_range.1 (hp.mem_iff.1 hj)
  have e := le_antisymm (h1 _ _ (List.getElem?_eq_getElem hi') (List.getElem?_eq_getElem hj'))
    (h2 _ _ (List.getElem?_eq_getElem hj') (List.getElem?_eq_getElem hi'))
  exact (List.Nodup.getElem_inj_iff hx).1 e

/-- Only the order of the entries matters. -/
theorem loss_monotone (cities : List (ℝ × ℝ)) (complex : Bool) (f : ℝ → ℝ) (hf : StrictMono f) (x : List ℝ) :
    loss cities complex (x.map f) = loss cities complex x := by
  have : argsort (x.map f) = argsort x := by
    unfold argsort
    rw [List.zipIdx_map, ← List.map_insertionSort (r := fun a b : ℝ × Nat => a.1 ≤ b.1) (s := fun a b : ℝ × Nat => a.1 ≤ b.1), List.map_map]
    · rfl
    · intro a _ b _
      exact (hf.le_iff_le).symm
  rw [loss, loss, this, List.length_map]

/-- Every tour is the one of some array. -/
theorem all_tours (cities : List (ℝ × ℝ)) (complex : Bool) (order : List Nat) (h : order.Perm (List.range cities.length)) :
    ∃ x : List ℝ, x.length = cities.length ∧ loss cities complex x = tour cities complex order := by
  have hnd : order.Nodup := h.nodup_iff.2 List.nodup_range
  refine ⟨(List.range cities.length).map fun i => (order.idxOf i : ℝ), by simp, ?_⟩
  rw [loss, if_pos (by simp)]
  congr 1
  apply argsort_unique
  · apply List.Nodup.map_on _ List.nodup_range
    intro i hi j _ e
    have e' : order.idxOf i = order.idxOf j := by exact_mod_cast e
    exact (List.idxOf_inj (h.mem_iff.2 hi)).1 e'
  · simpa using h
  · rw [List.pairwise_iff_getElem]
    intro i j hi hj hij a b ha hb
    have hget : ∀ k (hk : k < order.length) c, ((List.range cities.length).map fun i => (order.idxOf i : ℝ))[order[k]]? = some c → c = k := by
      intro k hk c hc
      have hlt := List.mem_range.1 (h.mem_iff.1 (List.getElem_mem hk))
      rw [List.getElem?_map, List.getElem?_range hlt, Option.map_some, List.Nodup.idxOf_getElem hnd] at hc
      exact (Option.some.inj hc).symm
    rw [hget i hi a ha, hget j hj b hb]
    exact_mod_cast hij.le

/-! ### The length of a tour -/

theorem dist_nonneg (a b : ℝ × ℝ) : 0 ≤ dist a b := Real.sqrt_nonneg _

theorem dist_comm (a b : ℝ × ℝ) : dist a b = dist b a := by
  unfold dist
  congr 1
  ring

theorem dist_norm (a b : ℝ × ℝ) : dist a b = ‖(⟨a.1, a.2⟩ : ℂ) - ⟨b.1, b.2⟩‖ := by
  rw [Complex.norm_eq_sqrt_sq_add_sq]
  rfl

theorem dist_triangle (a b c : ℝ × ℝ) : dist a c ≤ dist a b + dist b c := by
  rw [dist_norm, dist_norm, dist_norm]
  exact norm_sub_le_norm_sub_add_norm_sub _ _ _

theorem path_nonneg (l : List (ℝ × ℝ)) : 0 ≤ path l := by
  induction l with
  | nil => exact le_refl _
  | cons a l ih =>
    rcases l with _ | ⟨b, l⟩
    · exact le_refl _
    · exact add_nonneg (dist_nonneg a b) ih

/-- A closed tour on points. -/
noncomputable abbrev Length (l : List (ℝ × ℝ)) (v : ℝ) : Prop := ∃ a b, l.head? = some a ∧ l.getLast? = some b ∧ v = dist a b + path l

theorem tour_length (cities : List (ℝ × ℝ)) (order : List Nat) (h : order ≠ []) :
    ∃ v, tour cities false order = some v ∧ Length (order.map fun i => cities[i]?.getD (0, 0)) v := by
  have hne : order.map (fun i => cities[i]?.getD (0, 0)) ≠ [] := by simpa using h
  refine ⟨_, ?_, _, _, List.head?_eq_some_head hne, List.getLast?_eq_some_getLast hne, rfl⟩
  simp only [tour, List.head?_eq_some_head hne, List.getLast?_eq_some_getLast hne]
  simp

theorem dist_self (a : ℝ × ℝ) : dist a a = 0 := by simp [dist]

theorem path_split (u v : List (ℝ × ℝ)) (a : ℝ × ℝ) : path (u ++ a :: v) = path (u ++ [a]) + path (a :: v) := by
  induction u with
  | nil => simp [path]
  | cons b u ih =>
    rcases u with _ | ⟨c, u⟩
    · simp [path]
    · simp only [List.cons_append, path] at ih ⊢
      rw [ih]
      ring

theorem path_ends (l : List (ℝ × ℝ)) (a b : ℝ × ℝ) (ha : l.head? = some a) (hb : l.getLast? = some b) : dist a b ≤ path l := by
  induction l generalizing a with
  | nil => simp at ha
  | cons c l ih =>
    simp only [List.head?_cons, Option.some.injEq] at ha
    subst ha
    rcases l with _ | ⟨d, l⟩
    · simp only [List.getLast?_singleton, Option.some.injEq] at hb
      subst hb
      simp [dist_self, path]
    · rw [List.getLast?_cons_cons] at hb
      have := ih d rfl hb
      rw [path]
      linarith [dist_triangle c d b]

/-- A closed tour is at least twice as long as any distance between its points. -/
theorem length_ge (l : List (ℝ × ℝ)) (val : ℝ) (h : Length l val) (a b : ℝ × ℝ) (ha : a ∈ l) (hb : b ∈ l) : 2 * dist a b ≤ val := by
  have main : ∀ a b u v w, l = u ++ a :: v ++ b :: w → 2 * dist a b ≤ val := by
    intro a b u m w e
    obtain ⟨first, last, hf, hl, rfl⟩ := h
    have e1 : l = u ++ a :: (m ++ b :: w) := by rw [e]; simp
    have e2 : path l = path (u ++ [a]) + (path (a :: m ++ [b]) + path (b :: w)) := by
      rw [e1, path_split, ← List.cons_append, path_split (a :: m)]
    have h1 : dist first a ≤ path (u ++ [a]) := by
      apply path_ends
      · rw [e1] at hf
        rcases u with _ | ⟨c, u⟩
        · simpa using hf
        · simpa using hf
      · simp
    have h2 : dist a b ≤ path (a :: m ++ [b]) := path_ends _ _ _ rfl (List.getLast?_concat ..)
    have h3 : dist b last ≤ path (b :: w) := by
      apply path_ends _ _ _ rfl
      rw [e1] at hl
      rw [show u ++ a :: (m ++ b :: w) = (u ++ a :: m) ++ b :: w by simp] at hl
      rw [List.getLast?_append] at hl
      rcases hw : (b :: w).getLast? with _ | z
      · simp at hw
      · rw [hw] at hl
        simpa using hl
    have h4 := dist_triangle b last a
    have h5 := dist_triangle last first a
    have h6 := dist_comm last first
    have h7 := dist_comm b a
    rw [e2]
    linarith
  obtain ⟨u, m, e⟩ := List.append_of_mem ha
  rw [e] at hb
  rcases List.mem_append.1 hb with hb | hb
  · obtain ⟨x, y, e'⟩ := List.append_of_mem hb
    have := main b a x y m (by rw [e, e'])
    rw [dist_comm]
    exact this
  · rcases List.mem_cons.1 hb with rfl | hb
    · rw [dist_self]
      obtain ⟨f, g, _, _, rfl⟩ := h
      linarith [dist_nonneg f g, path_nonneg l]
    · obtain ⟨x, y, e'⟩ := List.append_of_mem hb
      exact main a b u x y (by rw [e, e']; simp)

/-- The loss is at least twice the distance of any two cities. -/
theorem loss_ge (cities : List (ℝ × ℝ)) (x : List ℝ) (hx : x.length = cities.length) (hc : cities ≠ []) :
    ∃ v, loss cities false x = some v ∧ 0 ≤ v ∧ ∀ a ∈ cities, ∀ b ∈ cities, 2 * dist a b ≤ v := by
  have hp := argsort_perm x
  have hne : argsort x ≠ [] := by
    intro h
    have := hp.length_eq
    rw [h, List.length_range, hx] at this
    exact hc (List.length_eq_zero_iff.1 this.symm)
  obtain ⟨v, hv, hl⟩ := tour_length cities (argsort x) hne
  have hall : ∀ a ∈ cities, ∀ b ∈ cities, 2 * dist a b ≤ v := by
    have hmem : ∀ a ∈ cities, a ∈ (argsort x).map fun i => cities[i]?.getD (0, 0) := by
      intro a ha
      obtain ⟨i, hi, rfl⟩ := List.getElem_of_mem ha
      refine List.mem_map.2 ⟨i, hp.mem_iff.2 (List.mem_range.2 (by omega)), ?_⟩
      rw [List.getElem?_eq_getElem hi]
      rfl
    intro a ha b hb
    exact length_ge _ v hl a b (hmem a ha) (hmem b hb)
  refine ⟨v, by rw [loss, if_pos hx, hv], ?_, hall⟩
  obtain ⟨c, r, rfl⟩ := List.exists_cons_of_ne_nil hc
  have := hall c List.mem_cons_self c List.mem_cons_self
  rw [dist_self] at this
  linarith

/-! ### Symmetries -/

theorem path_reverse (l : List (ℝ × ℝ)) : path l.reverse = path l := by
  induction l with
  | nil => rfl
  | cons a l ih =>
    rcases l with _ | ⟨b, l⟩
    · rfl
    · rw [List.reverse_cons, List.reverse_cons, List.append_assoc, List.singleton_append, path_split, ← List.reverse_cons, ih]
      simp only [path]
      rw [dist_comm b a]
      ring

/-- The direction of the tour does not matter. -/
theorem tour_reverse (cities : List (ℝ × ℝ)) (order : List Nat) : tour cities false order.reverse = tour cities false order := by
  rcases List.eq_nil_or_concat order with rfl | ⟨_, _, _⟩
  · rfl
  have h : order ≠ [] := by
    rintro rfl
    simp at *
  obtain ⟨v, hv, a, b, ha, hb, e⟩ := tour_length cities order h
  obtain ⟨w, hw, c, d, hc, hd, e'⟩ := tour_length cities order.reverse (by simpa using h)
  rw [List.map_reverse, List.head?_reverse, hb] at hc
  rw [List.map_reverse, List.getLast?_reverse, ha] at hd
  rw [hv, hw, e, e', List.map_reverse, path_reverse, ← Option.some.inj hc, ← Option.some.inj hd, dist_comm]

/-- The first city does not matter. -/
theorem tour_rotate (cities : List (ℝ × ℝ)) (i : Nat) (order : List Nat) : tour cities false (order ++ [i]) = tour cities false (i :: order) := by
  rcases order with _ | ⟨j, r⟩
  · rfl
  obtain ⟨v, hv, a, b, ha, hb, e⟩ := tour_length cities (j :: r ++ [i]) (by simp)
  obtain ⟨w, hw, c, d, hc, hd, e'⟩ := tour_length cities (i :: j :: r) (by simp)
  rw [hv, hw, e, e', Option.some.injEq]
  simp only [List.map_append, List.map_cons, List.map_nil, List.cons_append, List.head?_cons, Option.some.injEq] at ha hc
  subst ha
  subst hc
  rw [List.map_append, List.map_singleton, List.getLast?_concat, Option.some.injEq] at hb
  subst hb
  -- the last of the others
  rw [List.map_cons, List.map_cons, List.getLast?_cons_cons] at hd
  rw [List.map_append, List.map_singleton, List.map_cons, List.map_cons, List.map_cons]
  generalize cities[i]?.getD (0, 0) = p at *
  generalize cities[j]?.getD (0, 0) = q at *
  generalize List.map (fun i => cities[i]?.getD (0, 0)) r = l at *
  obtain ⟨m, hm⟩ : ∃ m, q :: l = m ++ [d] := by
    rcases List.eq_nil_or_concat (q :: l) with h | ⟨m, z, h⟩
    · simp at h
    · rw [h] at hd
      rw [List.concat_eq_append, List.getLast?_concat, Option.some.injEq] at hd
      exact ⟨m, by rw [h, hd, List.concat_eq_append]⟩
  have e1 : path (q :: l ++ [p]) = path (q :: l) + dist d p := by
    rw [hm, List.append_assoc, List.singleton_append, path_split]
    simp [path]
  have e2 : path (p :: q :: l) = dist p q + path (q :: l) := by simp [path]
  rw [e1, e2, dist_comm q p, dist_comm d p]
  ring

/-- The opposite array without equal entries gives the tour in the other direction, hence the same loss. -/
theorem loss_neg (cities : List (ℝ × ℝ)) (x : List ℝ) (hx : x.Nodup) : loss cities false (x.map fun v => -v) = loss cities false x := by
  have h : argsort (x.map fun v => -v) = (argsort x).reverse := by
    apply argsort_unique
    · exact hx.map (fun a b h => neg_injective h)
    · rw [List.length_map]
      exact (List.reverse_perm _).trans (argsort_perm x)
    · rw [List.pairwise_reverse]
      apply (argsort_sorted x).imp
      intro i j hij a b ha hb
      rw [List.getElem?_map] at ha hb
      obtain ⟨a', ha', rfl⟩ := Option.map_eq_some_iff.1 ha
      obtain ⟨b', hb', rfl⟩ := Option.map_eq_some_iff.1 hb
      exact neg_le_neg (hij b' a' hb' ha')
  rw [loss, loss, h, List.length_map]
  by_cases hl : x.length = cities.length
  · rw [if_pos hl, if_pos hl, tour_reverse]
  · rw [if_neg hl, if_neg hl]

/-- The complex version adds the squares of the jumps of the order. -/
theorem loss_complex (cities : List (ℝ × ℝ)) (x : List ℝ) (hx : x.length = cities.length) (hc : cities ≠ []) :
    ∃ u v, loss cities false x = some u ∧ loss cities true x = some v ∧ u ≤ v ∧ v = u + (jumps (argsort x) : ℝ) / Real.sqrt (cities.length + 1) := by
  have hj : ∀ l : List Nat, 0 ≤ jumps l := by
    intro l
    induction l with
    | nil => exact le_refl _
    | cons a l ih =>
      rcases l with _ | ⟨b, l⟩
      · exact le_refl _
      · exact add_nonneg (sq_nonneg _) ih
  obtain ⟨u, hu, _⟩ := loss_ge cities x hx hc
  refine ⟨u, _, hu, ?_, ?_, rfl⟩
  · rw [loss, if_pos hx] at hu ⊢
    unfold tour at hu ⊢
    simp only at hu ⊢
    split at hu
    · rename_i a b h1 h2
      simp only [if_true, Option.some.injEq] at hu ⊢
      rw [← hu]
      simp
    · simp at hu
  · have : (0 : ℝ) ≤ jumps (argsort x) := by exact_mod_cast hj _
    have := div_nonneg this (Real.sqrt_nonneg ((cities.length : ℝ) + 1))
    linarith

example : argsort [3, 1, (2 : ℤ)] = [1, 2, 0] := by decide

example : jumps [1, 2, 0] = 5 := by decide

/-- A square: in the given order, its perimeter. -/
example : tour [(0, 0), (1, 0), (1, 1), (0, 1)] false [0, 1, 2, 3] = some 4 := by
  simp [tour, path, dist]
  norm_num

end Stsp
end NG
