import Verif.Model.LazyChoice

/-!
# C165: the algorithm chosen by `CMA`
-/

namespace NG
namespace LazyChoice
variable {A : Type}

/-- `CMA` falls back to the unconfigured algorithm exactly for an unknown budget, a parametrization which is not continuous, noise, or several objectives. -/
theorem old_iff (v : Env) (k : Nat) :
    metaCma v k = .oldCma ↔ v.budget = none ∨ v.continuous = false ∨ v.noise = true ∨ 2 ≤ k := by
  unfold metaCma
  cases hb : v.budget with
  | none => simp
  | some b =>
    cases v.continuous <;> cases v.noise <;> simp
    by_cases hk : k < 2 <;> simp [hk]
    · split
      · simpa using hk
      · split
        · simpa using hk
        · split
          · split <;> simpa using hk
          · split <;> simpa using hk
    · omega

/-- In the other cases: the (1+1) algorithm in dimension one, even with bounds; then the configuration for bounded domains, whatever the budget; then the budget 50, below which the
number of workers does not count and from which the dimension does not count. -/
theorem configured (v : Env) (b k : Nat) (hb : v.budget = some b) (hc : v.continuous = true) (hn : v.noise = false) (hk : k < 2) :
    (metaCma v k = .onePlusOne ↔ v.dim = 1)
      ∧ (metaCma v k = .cmaBounded ↔ v.dim ≠ 1 ∧ v.bounded = true)
      ∧ (metaCma v k = .cmaTuning ↔ v.dim ≠ 1 ∧ v.bounded = false ∧ b < 50 ∧ v.dim ≤ 15)
      ∧ (metaCma v k = .cmaSmall ↔ v.bounded = false ∧ b < 50 ∧ 15 < v.dim)
      ∧ (metaCma v k = .cmaPara ↔ v.dim ≠ 1 ∧ v.bounded = false ∧ 50 ≤ b ∧ 20 < v.workers)
      ∧ (metaCma v k = .cmaStd ↔ v.dim ≠ 1 ∧ v.bounded = false ∧ 50 ≤ b ∧ v.workers ≤ 20) := by
  unfold metaCma
  rw [hb]
  simp only [hc, hn, hk, and_self, if_true]
  by_cases h1 : v.dim = 1
  · simp [h1]
  · cases h2 : v.bounded with
    | true => simp [h1]
    | false =>
      by_cases h3 : b < 50
      · by_cases h4 : v.dim ≤ 15
        · simp [h1, h3, h4]; omega
        · simp [h1, h3, h4]; omega
      · by_cases h5 : 20 < v.workers
        · simp [h1, h3, h5]; omega
        · simp [h1, h3, h5]; omega

example : metaCma ⟨some 40, true, false, false, 16, 100⟩ 1 = .cmaSmall := by decide
example : metaCma ⟨some 40, true, false, true, 1, 100⟩ 0 = .onePlusOne := by decide

/-- The number of objectives of one call, if the call gives one. -/
def Op.number : Op → Option Int
  | .setObjectives n => some n
  | .tell n => some n
  | .reference n => some n
  | _ => none

/-- The number of objectives which the calls declare: the first positive one. -/
def declared : List Op → Nat
  | [] => 0
  | op :: ops =>
    match op.number with
    | none => declared ops
    | some n => if 0 < n then n.toNat else declared ops

theorem setNum_some {k : Nat} {n : Int} {k' : Nat} (h : setNum k n = some k') :
    0 < n ∧ (k' : Int) = n ∧ (k = 0 ∨ k = k') := by
  unfold setNum at h
  split at h
  · simp at h
  · split at h
    · simp at h; omega
    · split at h
      · simp at h
      · simp at h; omega

theorem setNum_none {k : Nat} {n : Int} : setNum k n = none ↔ n ≤ 0 ∨ (k ≠ 0 ∧ n ≠ k) := by
  unfold setNum
  split
  · simp; omega
  · split
    · simp; omega
    · split
      · simp; omega
      · simp; omega

theorem touch_objectives (select : Nat → A) (s : St A) : (touch select s).objectives = s.objectives := by
  unfold touch; split <;> rfl

theorem innerTell_objectives (s : St A) : (innerTell s).1.objectives = s.objectives := by
  unfold innerTell
  split
  · rfl
  · split <;> rfl

/-- The number known after one call. -/
theorem step_objectives (select : Nat → A) (s : St A) (op : Op) :
    (step select s op).1.objectives
      = match op.number with
        | none => s.objectives
        | some n => if s.objectives = 0 ∧ 0 < n then n.toNat else s.objectives := by
  have key : ∀ n : Int, (setNum s.objectives n).getD s.objectives = if s.objectives = 0 ∧ 0 < n then n.toNat else s.objectives := by
    intro n
    cases h : setNum s.objectives n with
    | none =>
      rw [setNum_none] at h
      rw [if_neg (by omega)]; rfl
    | some k =>
      have := setNum_some h
      simp only [Option.getD_some]
      split <;> omega
  cases op with
  | setObjectives n =>
    simp only [step, Op.number]
    rw [← key n]
    cases setNum s.objectives n <;> rfl
  | tell n =>
    simp only [step, Op.number]
    rw [← key n]
    cases setNum s.objectives n with
    | none => rfl
    | some k => simp only [innerTell_objectives, touch_objectives, Option.getD_some]
  | reference n =>
    simp only [step, Op.number]
    rw [← key n]
    cases setNum s.objectives n with
    | none => rfl
    | some k =>
      simp only [Option.getD_some]
      split
      · rfl
      · split <;> rfl
  | suggest => rfl
  | ask =>
    simp only [step, Op.number]
    split
    · rfl
    · exact touch_objectives _ _
  | recommend => exact touch_objectives _ _
  | info => exact touch_objectives _ _
  | pickle => exact touch_objectives _ _

theorem run_append (select : Nat → A) (s : St A) (a b : List Op) : run select s (a ++ b) = run select (run select s a) b :=
  List.foldl_append

theorem run_objectives_of (select : Nat → A) (ops : List Op) (s : St A) :
    (run select s ops).objectives = if s.objectives = 0 then declared ops else s.objectives := by
  induction ops generalizing s with
  | nil =>
    simp only [run, List.foldl_nil, declared]
    split <;> omega
  | cons op ops ih =>
    have e : run select s (op :: ops) = run select (step select s op).1 ops := rfl
    rw [e, ih, step_objectives]
    simp only [declared]
    cases h : op.number with
    | none => rfl
    | some n =>
      simp only
      by_cases h0 : s.objectives = 0
      · by_cases hn : 0 < n
        · have h1 : ¬ n.toNat = 0 := by omega
          simp only [h0, hn, and_self, if_true, h1, if_false]
        · simp only [h0, hn, and_false, if_false, if_true]
      · simp only [h0, false_and, if_false]

/-- **C165**: the number of objectives of an optimizer is the first positive number it was given, by the setter, by a told loss or by a reference, whatever happens later. -/
theorem run_objectives (select : Nat → A) (ops : List Op) : (run select {} ops).objectives = declared ops := by
  rw [run_objectives_of]; rfl

theorem innerTell_fst (s : St A) : (innerTell s).1.inner.map Prod.fst = s.inner.map Prod.fst := by
  unfold innerTell
  split
  · rfl
  · split
    · rfl
    · rename_i h _ _ _; rw [h]; rfl

theorem touch_some (select : Nat → A) (s : St A) (p : A × Nat) (h : s.inner = some p) : touch select s = s := by
  unfold touch; rw [h]

/-- One call never changes an algorithm which has been chosen. -/
theorem step_stable (select : Nat → A) (s : St A) (op : Op) (a : A) (h : s.inner.map Prod.fst = some a) :
    (step select s op).1.inner.map Prod.fst = some a := by
  obtain ⟨p, hp, ha⟩ := Option.map_eq_some_iff.1 h
  have ht := touch_some select s p hp
  cases op with
  | setObjectives n =>
    simp only [step]
    cases setNum s.objectives n <;> exact h
  | suggest => exact h
  | ask =>
    simp only [step]
    split
    · exact h
    · rw [ht]; exact h
  | tell n =>
    simp only [step]
    cases setNum s.objectives n with
    | none => exact h
    | some k =>
      simp only [innerTell_fst]
      have := touch_some select { s with objectives := k, front := s.front || decide (n ≠ 1) } p hp
      rw [this]; exact h
  | reference n =>
    simp only [step]
    cases setNum s.objectives n with
    | none => exact h
    | some k =>
      simp only
      split
      · exact h
      · split <;> exact h
  | recommend => simp only [step]; rw [ht]; exact h
  | info => simp only [step]; rw [ht]; exact h
  | pickle => simp only [step]; rw [ht]; exact h

/-- **C165**: an algorithm which has been chosen is kept for ever. -/
theorem run_stable (select : Nat → A) (ops : List Op) (s : St A) (a : A) (h : s.inner.map Prod.fst = some a) :
    (run select s ops).inner.map Prod.fst = some a := by
  induction ops generalizing s with
  | nil => exact h
  | cons op ops ih => exact ih _ (step_stable select s op a h)

/-- The calls which need the inner optimizer. -/
def Uses (s : St A) : Op → Prop
  | .ask => s.suggestions = 0
  | .tell n => n ≠ 0 ∧ (s.objectives = 0 ∨ s.objectives = n)
  | .recommend | .info | .pickle => True
  | _ => False

/-- While nothing is chosen, the calls which choose are: `ask` without a suggestion, `tell` with a number of losses which is accepted, `recommend`, `_info` and `enable_pickling`;
they choose for the number of objectives known after the call. -/
theorem step_chooses (select : Nat → A) (s : St A) (op : Op) (h : s.inner = none) (a : A) :
    (step select s op).1.inner.map Prod.fst = some a ↔ Uses s op ∧ a = select (step select s op).1.objectives := by
  have ht : ∀ s : St A, s.inner = none → (touch select s).inner = some (select s.objectives, 0) := by
    intro s h; unfold touch; rw [h]
  cases op with
  | setObjectives n =>
    simp only [step, Uses]
    cases setNum s.objectives n <;> simp [h]
  | suggest => simp [step, Uses, h]
  | ask =>
    simp only [step, Uses]
    split
    · have : s.suggestions ≠ 0 := by omega
      simp [h, this]
    · have : s.suggestions = 0 := by omega
      simp [ht s h, this, touch_objectives, eq_comm]
  | tell n =>
    simp only [step, Uses]
    cases hk : setNum s.objectives n with
    | none =>
      rw [setNum_none] at hk
      have : ¬ (n ≠ 0 ∧ (s.objectives = 0 ∨ s.objectives = n)) := by omega
      simp only [h, Option.map_none, reduceCtorEq, this, false_and]
    | some k =>
      have hk' := setNum_some hk
      have hu : n ≠ 0 ∧ (s.objectives = 0 ∨ s.objectives = n) := by omega
      simp only [innerTell_fst, innerTell_objectives, touch_objectives]
      have := ht { s with objectives := k, front := s.front || decide (n ≠ 1) } h
      rw [this]
      simp only [Option.map_some, Option.some.injEq]
      exact ⟨fun e => ⟨hu, e.symm⟩, fun e => e.2.symm⟩
  | reference n =>
    simp only [step, Uses]
    cases setNum s.objectives n with
    | none => simp [h]
    | some k =>
      simp only
      split
      · simp [h]
      · split <;> simp [h]
  | recommend => simp [step, Uses, ht s h, touch_objectives, eq_comm]
  | info => simp [step, Uses, ht s h, touch_objectives, eq_comm]
  | pickle => simp [step, Uses, ht s h, touch_objectives, eq_comm]

/-- **C165**: the algorithm in use is the one for the number of objectives known at the first call which needs it. -/
theorem run_chosen (select : Nat → A) (ops : List Op) (a : A) :
    (run select {} ops).inner.map Prod.fst = some a ↔
      ∃ pre op post, ops = pre ++ op :: post ∧ (run select {} pre).inner = none ∧ Uses (run select {} pre) op
        ∧ a = select (declared (pre ++ [op])) := by
  constructor
  · intro h
    induction ops using List.reverseRec with
    | nil => simp [run] at h
    | append_singleton ops op ih =>
      by_cases hn : (run select {} ops).inner = none
      · rw [run_append] at h
        have h' := (step_chooses select _ op hn a).1 h
        refine ⟨ops, op, [], rfl, hn, h'.1, ?_⟩
        rw [← run_objectives select, run_append]
        exact h'.2
      · obtain ⟨p, hp⟩ := Option.ne_none_iff_exists'.1 hn
        have h1 : (run select {} ops).inner.map Prod.fst = some p.1 := by rw [hp]; rfl
        have h2 := run_stable select [op] _ _ h1
        rw [← run_append, h] at h2
        obtain ⟨pre, o, post, e, r⟩ := ih (by rw [h1, ← h2])
        exact ⟨pre, o, post ++ [op], by rw [e]; simp, r⟩
  · rintro ⟨pre, op, post, e, hn, hu, ha⟩
    have h1 : (run select {} (pre ++ [op])).inner.map Prod.fst = some a := by
      rw [run_append]
      refine (step_chooses select _ op hn a).2 ⟨hu, ?_⟩
      rw [ha, ← run_objectives select, run_append]; rfl
    have : ops = (pre ++ [op]) ++ post := by rw [e]; simp
    rw [this, run_append]
    exact run_stable select post _ _ h1

example : (run (metaCma ⟨some 100, true, false, false, 3, 1⟩) {} [.suggest, .ask, .tell 2, .ask]).inner = some (.oldCma, 1) := by decide

/-- **Against the code**: the number of objectives of a loss told after the first `ask` does not change the algorithm. With a budget and a continuous parametrization without noise,
`CMA` asked once and told two losses has two objectives and keeps a configuration for one objective. -/
theorem late_objectives (v : Env) (b : Nat) (hb : v.budget = some b) (hc : v.continuous = true) (hn : v.noise = false) (k : Nat) (hk : 2 ≤ k) (ops : List Op) :
    (run (metaCma v) {} (.ask :: .tell k :: ops)).objectives = k
      ∧ ∃ a, (run (metaCma v) {} (.ask :: .tell k :: ops)).inner.map Prod.fst = some a ∧ a ≠ .oldCma := by
  constructor
  · rw [run_objectives]
    have : (0 : Int) < k := by omega
    simp only [declared, Op.number, this, if_true, Int.toNat_natCast]
  · refine ⟨metaCma v 0, ?_, ?_⟩
    · rw [run_chosen]
      exact ⟨[], .ask, .tell k :: ops, rfl, rfl, rfl, rfl⟩
    · intro h
      rw [old_iff] at h
      simp [hb, hc, hn] at h

/-- **C165**, the part which holds: if the first number given is at least two and is given before the first call which needs the algorithm, `CMA` uses the unconfigured algorithm. -/
theorem early_partial (v : Env) (k : Nat) (hk : 2 ≤ k) (ops : List Op) (a : Alg)
    (h : (run (metaCma v) {} (.setObjectives k :: ops)).inner.map Prod.fst = some a) : a = .oldCma := by
  rw [run_chosen] at h
  obtain ⟨pre, op, post, e, hn, hu, ha⟩ := h
  rw [ha, old_iff]
  refine Or.inr (Or.inr (Or.inr ?_))
  cases pre with
  | nil =>
    simp only [List.nil_append, List.cons.injEq] at e
    rw [← e.1] at hu
    exact absurd hu (by simp [Uses])
  | cons o pre =>
    simp only [List.cons_append, List.cons.injEq] at e
    have : (0 : Int) < k := by omega
    rw [← e.1]
    simp only [List.cons_append, declared, Op.number, this, if_true, Int.toNat_natCast, hk]

/-- The inner optimizer knows at most one objective. -/
def InnerOne (s : St A) : Prop := ∀ a k, s.inner = some (a, k) → k ≤ 1

theorem touch_innerOne (select : Nat → A) (s : St A) (h : InnerOne s) : InnerOne (touch select s) := by
  unfold touch
  split
  · exact h
  · intro a k e; simp at e; omega

theorem innerTell_innerOne (s : St A) (h : InnerOne s) : InnerOne (innerTell s).1 ∧ (innerTell s).2 = .done := by
  unfold innerTell
  split
  · exact ⟨h, rfl⟩
  · rename_i a k e
    have hk := h a k e
    split
    · rename_i e2
      rw [setNum_none] at e2; omega
    · rename_i k' e2
      have := setNum_some e2
      refine ⟨?_, rfl⟩
      intro b j e3
      simp at e3; omega

theorem step_innerOne (select : Nat → A) (s : St A) (op : Op) (h : InnerOne s) : InnerOne (step select s op).1 := by
  cases op with
  | setObjectives n => simp only [step]; cases setNum s.objectives n <;> exact h
  | suggest => exact h
  | ask =>
    simp only [step]
    split
    · exact h
    · exact touch_innerOne select s h
  | tell n =>
    simp only [step]
    cases setNum s.objectives n with
    | none => exact h
    | some k =>
      exact (innerTell_innerOne _ (touch_innerOne select { s with objectives := k, front := s.front || decide (n ≠ 1) } h)).1
  | reference n =>
    simp only [step]
    cases setNum s.objectives n with
    | none => exact h
    | some k =>
      simp only
      split
      · exact h
      · split <;> exact h
  | recommend => exact touch_innerOne select s h
  | info => exact touch_innerOne select s h
  | pickle => exact touch_innerOne select s h

theorem run_innerOne (select : Nat → A) (ops : List Op) (s : St A) (h : InnerOne s) : InnerOne (run select s ops) := by
  induction ops generalizing s with
  | nil => exact h
  | cons op ops ih => exact ih _ (step_innerOne select s op h)

/-- **Against the code**: `recommend` should raise as soon as several objectives are known (`baseRecommend`), there being no best candidate. On an optimizer which chooses another one
it never raises: the inner optimizer is only told floats, so it knows at most one objective. -/
theorem recommend_never_raises (select : Nat → A) (ops : List Op) : (step select (run select {} ops) .recommend).2 = .done := by
  have h := touch_innerOne select _ (run_innerOne select ops {} (by intro a k e; simp at e))
  simp only [step]
  split
  · rfl
  · rename_i a k e
    have := h a k e
    unfold baseRecommend
    rw [if_neg (by omega)]

/-- The two differ for every sequence of calls whose first number of objectives is at least two. -/
theorem recommend_differs (select : Nat → A) (ops : List Op) (h : 2 ≤ declared ops) :
    baseRecommend (run select {} ops).objectives = .raises ∧ (step select (run select {} ops) .recommend).2 = .done := by
  refine ⟨?_, recommend_never_raises select ops⟩
  rw [run_objectives]
  unfold baseRecommend
  rw [if_pos (by omega)]

/-- Calls raise exactly when they give a number of objectives which is not positive or differs from the known one, or for a reference with one loss or after a front exists. -/
theorem step_raises (select : Nat → A) (ops : List Op) (op : Op) :
    (step select (run select {} ops) op).2 = .raises ↔
      (∃ n, op.number = some n ∧ (n ≤ 0 ∨ (declared ops ≠ 0 ∧ n ≠ declared ops)))
        ∨ (∃ n, op = .reference n ∧ (n = 1 ∨ (run select {} ops).front = true)) := by
  have hi := run_innerOne select ops {} (by intro a k e; simp at e)
  have hr := recommend_never_raises select ops
  have ho := run_objectives select ops
  generalize run select {} ops = s at hi hr ho
  rw [← ho]
  cases op with
  | setObjectives n =>
    simp only [step, Op.number, Option.some.injEq, reduceCtorEq, false_and, exists_false, or_false, exists_eq_left']
    rw [← setNum_none]
    cases setNum s.objectives n <;> simp
  | tell n =>
    simp only [step, Op.number, Option.some.injEq, reduceCtorEq, false_and, exists_false, or_false, exists_eq_left']
    rw [← setNum_none]
    cases setNum s.objectives n with
    | none => simp
    | some k =>
      have := (innerTell_innerOne _ (touch_innerOne select { s with objectives := k, front := s.front || decide (n ≠ 1) } hi)).2
      simp only [this, reduceCtorEq]
  | reference n =>
    simp only [step, Op.number, Option.some.injEq, exists_eq_left', Op.reference.injEq]
    rw [← setNum_none]
    cases setNum s.objectives n with
    | none => simp
    | some k =>
      by_cases h1 : s.front = true
      · simp [h1]
      · by_cases h2 : n = 1
        · simp [h1, h2]
        · simp [h1, h2]
  | suggest => simp [step, Op.number]
  | ask => simp only [step]; split <;> simp [Op.number]
  | recommend => rw [hr]; simp [Op.number]
  | info => simp [step, Op.number]
  | pickle => simp [step, Op.number]

example : (step (metaCma ⟨some 100, true, false, false, 3, 1⟩) (run (metaCma ⟨some 100, true, false, false, 3, 1⟩) {} [.ask, .tell 2]) (.tell 3)).2 = .raises := by decide

end LazyChoice
end NG
