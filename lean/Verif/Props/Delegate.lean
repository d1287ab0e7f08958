import Verif.Model.Delegate
import Verif.Model.Cma
import Mathlib.Data.Fin.VecNotation
import Mathlib.Tactic.NormNum
import Mathlib.Tactic.Ring
import Mathlib.Tactic.Linarith
import Mathlib.Tactic.Positivity
import Mathlib.Data.List.MinMax
import Mathlib.Algebra.BigOperators.Ring.Finset
import Mathlib.Algebra.Ring.Parity

/-!
# Delegation to another optimizer, and the metamodel
-/

namespace NG
namespace Delegate

variable {R : Type}

/-! ## Specification -/

/-- The points told by the user with their losses, in order. -/
def tells : List (Op R) → List (Nat × R)
  | [] => []
  | .tell uid loss :: ops => (uid, loss) :: tells ops
  | _ :: ops => tells ops

/-- How many `ask` calls did not reach the inner optimizer. -/
def owns : List (Op R) → Nat
  | [] => 0
  | .askOwn _ _ :: ops => owns ops + 1
  | _ :: ops => owns ops

theorem tell_some [Add R] {cfg : Cfg R} {uid : Nat} {loss : R} {s s' : St R} (h : tell cfg uid loss s = some s') :
    s' = { outer := told cfg.outerPen uid loss s.outer
           inner := told cfg.innerPen uid (penalised cfg.outerPen uid loss) s.inner
           losses := (uid, penalised cfg.outerPen uid loss) :: (uid, loss) :: s.losses } := by
  unfold tell at h
  split at h
  · simpa using h.symm
  · simp at h

/-- Whatever the calls, the inner optimizer receives exactly what the user tells, once each and in the same order, with the losses penalised by the
two constraint managers one after the other, both counters of tells agree, and the counters of asks only differ by the suggestions. -/
theorem run_received [Add R] (cfg : Cfg R) : ∀ (ops : List (Op R)) (s s' : St R), run cfg ops s = some s' →
    s'.inner.received = s.inner.received ++ (tells ops).map (fun p => (p.1, penalised cfg.innerPen p.1 (penalised cfg.outerPen p.1 p.2)))
      ∧ s'.outer.numTell = s.outer.numTell + (tells ops).length ∧ s'.inner.numTell = s.inner.numTell + (tells ops).length
      ∧ s'.outer.numAsk + s.inner.numAsk = s'.inner.numAsk + s.outer.numAsk + owns ops := by
  intro ops
  induction ops with
  | nil =>
    intro s s' h
    simp only [run, Option.some.injEq] at h
    subst h
    simp [tells, owns, Nat.add_comm]
  | cons op ops ih =>
    intro s s' h
    simp only [run] at h
    cases h1 : step cfg op s with
    | none => simp [h1] at h
    | some s1 =>
      rw [h1] at h
      obtain ⟨a, b, c, d⟩ := ih s1 s' h
      cases op with
      | ask uid =>
        simp only [step, Option.some.injEq] at h1
        subst h1
        simp only [ask] at a b c d
        simp only [tells, owns]
        exact ⟨a, b, c, by omega⟩
      | askOwn own uid =>
        simp only [step, Option.some.injEq] at h1
        subst h1
        simp only [askOwn] at a b c d
        simp only [tells, owns]
        exact ⟨a, b, c, by omega⟩
      | tell uid loss =>
        have := tell_some h1
        subst this
        simp only [told] at a b c d
        simp only [tells, owns]
        refine ⟨?_, ?_, ?_, by omega⟩
        · rw [a]; simp
        · rw [b]; simp; omega
        · rw [c]; simp; omega

/-- Both archives, hence both sets of best points, receive the same points with the same losses: all feasible ones, and no others. -/
theorem run_archives [Add R] (cfg : Cfg R) (hpen : ∀ u, (cfg.outerPen u).isNone = (cfg.innerPen u).isNone) :
    ∀ (ops : List (Op R)) (s s' : St R), run cfg ops s = some s' →
    s'.outer.archived = s.outer.archived ++ (tells ops).filter (fun p => (cfg.outerPen p.1).isNone)
      ∧ s'.inner.archived = s.inner.archived ++ (tells ops).filter (fun p => (cfg.outerPen p.1).isNone) := by
  intro ops
  induction ops with
  | nil =>
    intro s s' h
    simp only [run, Option.some.injEq] at h
    subst h
    simp [tells]
  | cons op ops ih =>
    intro s s' h
    simp only [run] at h
    cases h1 : step cfg op s with
    | none => simp [h1] at h
    | some s1 =>
      rw [h1] at h
      obtain ⟨a, b⟩ := ih s1 s' h
      cases op with
      | ask uid =>
        simp only [step, Option.some.injEq] at h1
        subst h1
        exact ⟨a, b⟩
      | askOwn own uid =>
        simp only [step, Option.some.injEq] at h1
        subst h1
        exact ⟨a, b⟩
      | tell uid loss =>
        have := tell_some h1
        subst this
        simp only [told, ← hpen] at a b
        simp only [tells, List.filter_cons]
        cases hp : cfg.outerPen uid with
        | none => simp [hp] at a b; simp [a, b, penalised, hp]
        | some q => simp [hp] at a b; simp [a, b]

/-- Points which the inner optimizer considers as asked are considered so by the outer one; without points of its own, both sets are equal. -/
theorem run_asked [Add R] (cfg : Cfg R) : ∀ (ops : List (Op R)) (s s' : St R), run cfg ops s = some s' →
    (∀ uid, .askOwn true uid ∉ ops) → s.outer.asked = s.inner.asked → s'.outer.asked = s'.inner.asked := by
  intro ops
  induction ops with
  | nil =>
    intro s s' h _ he
    simp only [run, Option.some.injEq] at h
    subst h; exact he
  | cons op ops ih =>
    intro s s' h hno he
    simp only [run] at h
    cases h1 : step cfg op s with
    | none => simp [h1] at h
    | some s1 =>
      rw [h1] at h
      refine ih s1 s' h (fun uid hu => hno uid (by simp [hu])) ?_
      cases op with
      | ask uid =>
        simp only [step, Option.some.injEq] at h1
        subst h1; simp [ask, he]
      | askOwn own uid =>
        simp only [step, Option.some.injEq] at h1
        subst h1
        cases own with
        | true => exact absurd (by simp) (hno uid)
        | false => simpa [askOwn] using he
      | tell uid loss =>
        have := tell_some h1
        subst this; simp [told, he]

/-- A tell fails exactly when the inner optimizer only accepts its own points and has not asked for this one, in particular for a point
suggested by the user (`suggest`, then `ask`, then `tell`) or proposed by the metamodel. -/
theorem tell_raises_iff [Add R] (cfg : Cfg R) (uid : Nat) (loss : R) (s : St R) :
    tell cfg uid loss s = none ↔ uid ∉ s.inner.asked ∧ cfg.acceptsNotAsked = false := by
  unfold tell
  split
  · rename_i h
    simp only [reduceCtorEq, false_iff, not_and, Bool.not_eq_false]
    intro h'; exact h.resolve_left h'
  · rename_i h
    simp only [true_iff]
    rw [not_or] at h
    exact ⟨h.1, by simpa using h.2⟩

/-- The claim "a suggested point can be told" is false for a delegating optimizer whose inner optimizer refuses points it has not asked for
(for instance NGOptBase on a noisy problem selects TBPSA): whatever was done before. -/
theorem suggestion_raises [Add R] (cfg : Cfg R) (hc : cfg.acceptsNotAsked = false) (own : Bool) (uid : Nat) (loss : R) (s : St R)
    (hfresh : uid ∉ s.inner.asked) : tell cfg uid loss (askOwn own uid s) = none := by
  rw [tell_raises_iff]
  exact ⟨hfresh, hc⟩

/-- Asking, then telling, always works. -/
theorem ask_tell [Add R] (cfg : Cfg R) (uid : Nat) (loss : R) (s : St R) : ∃ s', tell cfg uid loss (ask uid s) = some s' := by
  cases h : tell cfg uid loss (ask uid s) with
  | some s' => exact ⟨s', rfl⟩
  | none =>
    rw [tell_raises_iff] at h
    exact absurd (by simp [ask]) h.1

/-- A point can be told only once if the inner optimizer refuses points which it has not asked for. -/
theorem tell_twice [Add R] (cfg : Cfg R) (hc : cfg.acceptsNotAsked = false) (uid : Nat) (l₁ l₂ : R) (s s' : St R) (hs : s.inner.asked.Nodup)
    (h : tell cfg uid l₁ s = some s') : tell cfg uid l₂ s' = none := by
  rw [tell_raises_iff]
  refine ⟨?_, hc⟩
  have := tell_some h
  subst this
  exact fun hm => (hs.mem_erase_iff.1 hm).1 rfl

/-- The loss stored in the candidate after `tell` is the told one for feasible points. -/
theorem loss_partial [Add R] (cfg : Cfg R) (uid : Nat) (loss : R) (s s' : St R) (h : tell cfg uid loss s = some s')
    (hp : cfg.outerPen uid = none) : lossOf s' uid = some loss := by
  have := tell_some h
  subst this
  simp [lossOf, penalised, hp]

/-- The claims "`candidate.loss` is the loss the user told" and "the penalty is added once" are false for a delegating optimizer: a point told
with loss 1 and penalties 10 and 20 ends with the field `loss` 11 and is given to the inner algorithm with loss 31. -/
theorem double_penalty : ∃ (cfg : Cfg Nat) (s : St Nat), tell cfg 7 1 (ask 7 {}) = some s ∧ lossOf s 7 = some 11
    ∧ s.inner.received = [(7, 31)] ∧ s.outer.received = [(7, 11)] :=
  ⟨⟨true, fun _ => some 10, fun _ => some 20⟩, _, rfl, by decide, by decide, by decide⟩

example : ((run (R := Nat) ⟨true, fun _ => none, fun _ => none⟩ [.ask 1, .ask 2, .askOwn false 3, .tell 2 5, .tell 3 6] {}).map
    (fun s => (s.inner.received, s.outer.asked, s.inner.notAsked))) = some ([(2, 5), (3, 6)], [1], 1) := by decide

end Delegate

namespace MetaModel

/-! ## When the metamodel is used -/

/-- The archive must contain exactly as many points as a quadratic function has coefficients, `(d + 1) (d + 2) / 2` (the comment in the code
says "a bit more points than what is really necessary"). -/
theorem sampleSize_coefficients (d : Nat) : 2 * sampleSize d = (d + 1) * (d + 2) := by
  unfold sampleSize
  cases d with
  | zero => rfl
  | succ n =>
    have h : Even ((n + 1) * (n + 1 - 1)) := by
      have := Nat.even_mul_succ_self n
      rwa [Nat.add_sub_cancel, Nat.mul_comm]
    have h2 : 2 * ((n + 1) * (n + 1 - 1) / 2) = (n + 1) * (n + 1 - 1) := Nat.two_mul_div_two_of_even h
    rw [Nat.add_sub_cancel] at h2 ⊢
    nlinarith

/-- Two tries are separated by at least 13 asks, by as many as workers, and as dimensions. -/
theorem tries_spacing {workers d scaled a a' n n' : Nat} (h : tries workers d scaled a n = true) (h' : tries workers d scaled a' n' = true)
    (hlt : n < n') : n + 13 ≤ n' ∧ n + workers ≤ n' ∧ n + d ≤ n' := by
  simp only [tries, Bool.and_eq_true, decide_eq_true_eq] at h h'
  obtain ⟨k, hk⟩ := Nat.dvd_of_mod_eq_zero h.2
  obtain ⟨k', hk'⟩ := Nat.dvd_of_mod_eq_zero h'.2
  have hf : 13 ≤ freq workers d scaled ∧ workers ≤ freq workers d scaled ∧ d ≤ freq workers d scaled := by unfold freq; omega
  generalize freq workers d scaled = f at *
  subst hk hk'
  have hkk : k < k' := Nat.lt_of_mul_lt_mul_left hlt
  have : f * k + f ≤ f * k' := by
    calc f * k + f = f * (k + 1) := by ring
      _ ≤ f * k' := Nat.mul_le_mul_left _ hkk
  omega

/-- Never before the archive holds enough points to determine the model. -/
theorem tries_archive {workers d scaled a n : Nat} (h : tries workers d scaled a n = true) : (d + 1) * (d + 2) ≤ 2 * a := by
  simp only [tries, Bool.and_eq_true, decide_eq_true_eq] at h
  rw [← sampleSize_coefficients]; omega

/-- The threshold used by the `high_speed` recommendation of CMA is below the number of coefficients from dimension 3 on: its quadratic model is
then not determined by the data. -/
theorem cma_underdetermined (d : Nat) (hd : 3 ≤ d) : Cma.sampleSize d < sampleSize d := by
  have h := sampleSize_coefficients d
  unfold Cma.sampleSize
  have : d * d + d + 6 < (d + 1) * (d + 2) := by nlinarith
  omega

example : Cma.sampleSize 4 = 13 ∧ sampleSize 4 = 15 := by decide

example : sampleSize 2 = 6 ∧ tries 1 2 5 6 13 = true ∧ tries 1 2 5 5 13 = false ∧ tries 1 2 5 6 14 = false := by decide

/-! ## What it proposes -/

variable {ι : Type} [Fintype ι]

omit [Fintype ι] in
/-- The points learnt from are the `k` best of the archive by average loss. -/
theorem kBest_spec (k : Nat) (items : List (Item ι)) : (kBest k items).length = min k items.length
    ∧ ∃ rest, (kBest k items ++ rest).Perm items ∧ ∀ a ∈ kBest k items, ∀ b ∈ rest, a.average ≤ b.average := by
  have hperm := List.perm_insertionSort (fun a b : Item ι => a.average ≤ b.average) items
  have hs : (items.insertionSort (fun a b => a.average ≤ b.average)).Pairwise (fun a b => a.average ≤ b.average) :=
    haveI : Std.Total (fun a b : Item ι => a.average ≤ b.average) := ⟨fun a b => le_total a.average b.average⟩
    haveI : IsTrans (Item ι) (fun a b => a.average ≤ b.average) := ⟨fun a b c => le_trans⟩
    List.pairwise_insertionSort _ items
  refine ⟨by simp [kBest, List.length_insertionSort], (items.insertionSort (fun a b => a.average ≤ b.average)).drop k, ?_, ?_⟩
  · unfold kBest; rw [List.take_append_drop]; exact hperm
  · intro a ha b hb
    rw [← List.take_append_drop k (items.insertionSort _)] at hs
    exact (List.pairwise_append.1 hs).2.2 a ha b hb

theorem normalization_pos (l : List (Item ι)) : 0 < normalization l := by
  unfold normalization
  split
  · rename_i a b _ _
    have : 0 ≤ dist2 b.x a.x := Real.sqrt_nonneg _
    positivity
  · positivity

/-- It raises exactly when the archive holds fewer than `k` points. -/
theorem learn_assertion (k : Nat) (items : List (Item ι)) (fit) (search) :
    learn k items fit search = .assertion ↔ items.length < k := by
  have hl := (kBest_spec k items).1
  unfold learn
  dsimp only
  constructor
  · intro h
    split at h
    · omega
    · exfalso
      repeat' split at h
      all_goals simp at h
  · intro h
    rw [if_pos (by omega)]

/-- Every proposed point is within the distance `1e-15 + (distance between the best and the worst of the k best)` of their mean, whatever the
regression and the search. -/
theorem learn_near (k : Nat) (items : List (Item ι)) (fit) (search) (x : ι → ℝ) (h : learn k items fit search = .point x) :
    dist2 x (middle k (kBest k items)) ≤ normalization (kBest k items) := by
  unfold learn at h
  dsimp only at h
  split at h
  · simp at h
  split at h
  · simp at h
  split at h
  · simp at h
  split at h
  · rename_i m first _ _
    split at h
    · simp at h
    split at h
    · simp at h
    · rename_i hm
      simp only [Out.point.injEq] at h
      subst h
      have hpos := normalization_pos (kBest k items)
      unfold dist2
      rw [Real.sqrt_le_left hpos.le]
      have : Finset.univ.sum (fun i => (middle k (kBest k items) i + normalization (kBest k items) * m i - middle k (kBest k items) i) ^ 2)
          = normalization (kBest k items) ^ 2 * Finset.univ.sum (fun i => m i ^ 2) := by
        rw [Finset.mul_sum]
        refine Finset.sum_congr rfl (fun i _ => ?_)
        ring
      rw [this]
      have h1 : Finset.univ.sum (fun i => m i ^ 2) ≤ 1 := not_lt.1 hm
      nlinarith [sq_nonneg (normalization (kBest k items))]
  · simp at h

omit [Fintype ι] in
theorem kBest_sorted (k : Nat) (items : List (Item ι)) : (kBest k items).Pairwise (fun a b => a.average ≤ b.average) := by
  have hs : (items.insertionSort (fun a b => a.average ≤ b.average)).Pairwise (fun a b => a.average ≤ b.average) :=
    haveI : Std.Total (fun a b : Item ι => a.average ≤ b.average) := ⟨fun a b => le_total a.average b.average⟩
    haveI : IsTrans (Item ι) (fun a b => a.average ≤ b.average) := ⟨fun a b c => le_trans⟩
    List.pairwise_insertionSort _ items
  exact hs.sublist (List.take_sublist _ _)

/-- The bound is the distance between a point of smallest and a point of largest average among the `k` best, plus `1e-15`. -/
theorem learn_spread (k : Nat) (items : List (Item ι)) (fit) (search) (x : ι → ℝ) (h : learn k items fit search = .point x) (hk : 0 < k) :
    ∃ first ∈ kBest k items, ∃ last ∈ kBest k items, (∀ c ∈ kBest k items, first.average ≤ c.average ∧ c.average ≤ last.average)
      ∧ dist2 x (middle k (kBest k items)) ≤ 1 / 10 ^ 15 + dist2 last.x first.x := by
  have hn := learn_near k items fit search x h
  have hlen : (kBest k items).length = k := by
    have hl := (kBest_spec k items).1
    have : ¬ items.length < k := by
      intro h'
      rw [(learn_assertion k items fit search).2 h'] at h
      simp at h
    omega
  have hs := kBest_sorted k items
  generalize middle k (kBest k items) = mid at hn ⊢
  revert hn hs hlen
  generalize kBest k items = l
  intro hlen hs hn
  cases l with
  | nil => simp at hlen; omega
  | cons a r =>
    refine ⟨a, by simp, (a :: r).getLast (by simp), List.getLast_mem _, ?_, ?_⟩
    · intro c hc
      constructor
      · rcases List.mem_cons.1 hc with rfl | hc
        · exact le_refl _
        · exact (List.pairwise_cons.1 hs).1 c hc
      · rw [← List.dropLast_append_getLast (l := a :: r) (by simp)] at hs hc
        rcases List.mem_append.1 hc with hc | hc
        · exact (List.pairwise_append.1 hs).2.2 c hc _ (by simp)
        · simp only [List.mem_singleton] at hc
          rw [hc]
    · have : normalization (a :: r) = 1 / 10 ^ 15 + dist2 ((a :: r).getLast (by simp)).x a.x := by
        simp [normalization, List.getLast?_eq_getLast_of_ne_nil]
      rw [← this]; exact hn

/-- The proposed point is never predicted worse than the best point of the archive: the prediction at the corresponding normalized point is at most
the scaled loss of the first of the `k` best. -/
theorem learn_improves (k : Nat) (items : List (Item ι)) (fit) (search) (x : ι → ℝ) (h : learn k items fit search = .point x) :
    ∃ (first : Item ι) (rest : List (Item ι)) (lo hi : ℝ) (data : List ((ι → ℝ) × ℝ)), kBest k items = first :: rest
      ∧ lo ≤ first.pessimistic ∧ first.pessimistic ≤ hi ∧ lo < hi
      ∧ data = (kBest k items).map (fun a => ((fun i => (a.x i - middle k (kBest k items) i) / normalization (kBest k items)),
          (a.pessimistic - lo) / (hi - lo)))
      ∧ fit data (fun i => (x i - middle k (kBest k items) i) / normalization (kBest k items)) ≤ (first.pessimistic - lo) / (hi - lo) := by
  unfold learn at h
  dsimp only at h
  split at h
  · simp at h
  split at h
  · simp at h
  rename_i hlohi
  split at h
  · simp at h
  split at h
  · rename_i m first _ hfirst
    split at h
    · simp at h
    rename_i himp
    split at h
    · simp at h
    · simp only [Out.point.injEq] at h
      subst h
      have hpos := normalization_pos (kBest k items)
      have hx : (fun i => (middle k (kBest k items) i + normalization (kBest k items) * m i - middle k (kBest k items) i)
          / normalization (kBest k items)) = m := by
        funext i
        rw [add_sub_cancel_left, mul_div_cancel_left₀ _ hpos.ne']
      rw [hx]
      cases hb : kBest k items with
      | nil => simp [hb] at hfirst
      | cons a l =>
        rw [hb] at hfirst hlohi himp
        simp only [List.map_cons, List.head?_cons, Option.some.injEq] at hfirst
        subst hfirst
        have h20 : (0 : ℝ) < 1 / 10 ^ 20 := by positivity
        have hne : (a :: l).map (fun a => a.pessimistic) ≠ [] := by simp
        refine ⟨a, l, (((a :: l).map (fun a : Item ι => a.pessimistic)).min?).getD 0,
          (((a :: l).map (fun a : Item ι => a.pessimistic)).max?).getD 0, _, rfl, ?_, ?_, ?_, rfl, not_lt.1 himp⟩
        · have := List.min?_eq_some_iff.1 (List.min?_eq_some_min hne)
          rw [List.min?_eq_some_min hne]
          exact this.2 _ (by simp)
        · have := List.max?_eq_some_iff.1 (List.max?_eq_some_max hne)
          rw [List.max?_eq_some_max hne]
          exact this.2 _ (by simp)
        · have := not_not.1 hlohi
          linarith
  · simp at h

/-- When all the `k` best points have the same loss (a plateau), the metamodel gives up and the inner optimizer is asked. -/
theorem learn_flat (k : Nat) (items : List (Item ι)) (fit) (search) (c : ℝ) (hk : k ≤ items.length)
    (hc : ∀ a ∈ kBest k items, a.pessimistic = c) : learn k items fit search = .failure := by
  have hl := (kBest_spec k items).1
  have hlen : (kBest k items).length = k := by omega
  have hmap : (kBest k items).map (fun a => a.pessimistic) = List.replicate k c := by
    refine List.eq_replicate_iff.2 ⟨by simpa using hlen, ?_⟩
    intro y hy
    obtain ⟨a, ha, rfl⟩ := List.mem_map.1 hy
    exact hc a ha
  unfold learn
  dsimp only
  rw [if_neg (by simpa using hlen), if_pos]
  rw [hmap]
  cases k with
  | zero => simp
  | succ k =>
    rw [List.min?_replicate_of_pos (by omega), List.max?_replicate_of_pos (by omega)]
    simp

open Classical in
/-- When two of the `k` best points have the same loss and the regression reproduces its data (as a quadratic through `(d + 1) (d + 2) / 2` points
in general position does), the metamodel gives up as well. -/
theorem learn_ties (k : Nat) (items : List (Item ι)) (fit) (search) (hk : k ≤ items.length)
    (hfit : ∀ data, ∀ a ∈ data, fit data a.1 = a.2) (hties : ¬ ((kBest k items).map (fun a => a.pessimistic)).Nodup) :
    learn k items fit search = .failure := by
  have hl := (kBest_spec k items).1
  have hlen : (kBest k items).length = k := by omega
  unfold learn
  dsimp only
  rw [if_neg (by simpa using hlen)]
  generalize ((((kBest k items).map (fun a => a.pessimistic)).min?).getD 0) = lo
  generalize ((((kBest k items).map (fun a => a.pessimistic)).max?).getD 0) = hi
  split
  · rfl
  rw [if_pos]
  intro hp
  apply hties
  set data := (kBest k items).map (fun a => ((fun i => (a.x i - middle k (kBest k items) i) / normalization (kBest k items) : ι → ℝ),
    scaled lo hi a.pessimistic)) with hdata
  have hperm := List.perm_insertionSort (fun a b : (ι → ℝ) × ℝ => a.2 ≤ b.2) data
  have h1 : (data.insertionSort (fun a b => a.2 ≤ b.2)).map (fun a => fit data a.1)
      = (data.insertionSort (fun a b => a.2 ≤ b.2)).map (fun a => a.2) := by
    refine List.map_congr_left (fun a ha => hfit data a (hperm.mem_iff.1 ha))
  rw [h1] at hp
  have h2 : ((data.insertionSort (fun a b => a.2 ≤ b.2)).map (fun a => a.2)).Nodup := hp.imp (fun h => h.ne)
  have h3 : (data.map (fun a => a.2)).Nodup := (hperm.map _).nodup_iff.1 h2
  have h4 : data.map (fun a => a.2) = ((kBest k items).map (fun a => a.pessimistic)).map (scaled lo hi) := by
    rw [hdata]; simp [Function.comp_def]
  rw [h4] at h3
  exact List.Nodup.of_map _ h3

omit [Fintype ι] in
/-- The mean of the points learnt from is in every box containing them. -/
theorem middle_box (k : Nat) (hk : 0 < k) (l : List (Item ι)) (hl : l.length = k) (i : ι) (lo hi : ℝ) (h : ∀ a ∈ l, lo ≤ a.x i ∧ a.x i ≤ hi) :
    lo ≤ middle k l i ∧ middle k l i ≤ hi := by
  have key : ∀ l : List (Item ι), (∀ a ∈ l, lo ≤ a.x i ∧ a.x i ≤ hi) →
      l.length * lo ≤ (l.map (fun a => a.x i)).sum ∧ (l.map (fun a => a.x i)).sum ≤ l.length * hi := by
    intro l
    induction l with
    | nil => intro _; simp
    | cons a l ih =>
      intro h
      obtain ⟨h1, h2⟩ := ih (fun b hb => h b (by simp [hb]))
      obtain ⟨h3, h4⟩ := h a (by simp)
      simp only [List.map_cons, List.sum_cons, List.length_cons, Nat.cast_add, Nat.cast_one]
      constructor <;> linarith
  obtain ⟨h1, h2⟩ := key l h
  rw [hl] at h1 h2
  have hk' : (0 : ℝ) < k := by exact_mod_cast hk
  unfold middle
  constructor
  · rw [le_div_iff₀ hk']; linarith
  · rw [div_le_iff₀ hk']; linarith

/-- Two points on a line with losses 0 and 1, a regression which is the coordinate itself, and a search returning `-1/2`: a point is proposed, on the
better side of the best one. -/
example : ∃ x, learn (ι := Fin 1) 2 [⟨fun _ => 1, 1, 1⟩, ⟨fun _ => 0, 0, 0⟩] (fun _ x => x 0) (fun _ => some (fun _ => -1/2)) = .point x ∧ x 0 < 1/4 := by
  have hb : kBest (ι := Fin 1) 2 [⟨fun _ => 1, 1, 1⟩, ⟨fun _ => 0, 0, 0⟩] = [⟨fun _ => 0, 0, 0⟩, ⟨fun _ => 1, 1, 1⟩] := by
    norm_num [kBest, List.insertionSort, List.orderedInsert]
  have hm : middle (ι := Fin 1) 2 [⟨fun _ => 0, 0, 0⟩, ⟨fun _ => 1, 1, 1⟩] = fun _ => 1/2 := by
    funext i; norm_num [middle]
  have hn : normalization (ι := Fin 1) [⟨fun _ => 0, 0, 0⟩, ⟨fun _ => 1, 1, 1⟩] = 1 / 10 ^ 15 + 1 := by
    norm_num [normalization, dist2]
  refine ⟨fun _ => 1/2 + (1 / 10 ^ 15 + 1) * (-1/2), ?_, by norm_num⟩
  unfold learn
  simp only [hb, hm, hn]
  norm_num [scaled, List.insertionSort, List.orderedInsert]

end MetaModel
end NG
