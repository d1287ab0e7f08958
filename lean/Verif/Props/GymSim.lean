/-
C133: the simulations of the gym problems.
-/
import Verif.Model.GymSim
import Mathlib.Algebra.BigOperators.Group.Finset.Basic
import Mathlib.Algebra.Order.Field.Basic
import Mathlib.Tactic.FieldSimp
import Mathlib.Tactic.Linarith
import Mathlib.Tactic.NormNum
import Mathlib.Tactic.Positivity
import Mathlib.Tactic.Ring

namespace NG.GymSim

section
variable {E Ob A : Type} [DecidableEq Ob]

/-! ### Specification -/

/-- The controller and the environment together, from the time step `i` on, `n` steps at most: the rewards, and the time step of an illegal action. `fixed` is the stacked input. -/
inductive Episode (c : Cfg E Ob A) (limited : Bool) (fixed : List ℝ) : Nat → Nat → E → Ob → List ℝ → List ℝ → Option Nat → Prop
  | out {i e o mem} : Episode c limited fixed 0 i e o mem [] none
  | illegal {n i e o mem a m} : c.act i (c.see o ++ mem ++ fixed) = (a, m) → c.step e a = none → Episode c limited fixed (n + 1) i e o mem [] (some i)
  | stop {n i e o mem a m o' r done e'} : c.act i (c.see o ++ mem ++ fixed) = (a, m) → c.step e a = some (o', r, done, e') →
      (done = true ∨ c.shortened = true ∧ 500 ≤ i ∧ limited = true) → Episode c limited fixed (n + 1) i e o mem [r] none
  | go {n i e o mem a m o' r e' rs f} : c.act i (c.see o ++ mem ++ fixed) = (a, m) → c.step e a = some (o', r, false, e') → ¬ (c.shortened = true ∧ 500 ≤ i ∧ limited = true) →
      Episode c limited fixed n (i + 1) e' o' m rs f → Episode c limited fixed (n + 1) i e o mem (r :: rs) f

/-- The loss of an episode: minus the sum of the rewards, or a large number that decreases with the time of the illegal action. -/
noncomputable def lossOf (rs : List ℝ) : Option Nat → ℝ
  | none => -rs.sum
  | some i => 1e20 / (1 + i)

/-- The sizes of observations, memories, actions and inputs fit together. -/
structure Fits (c : Cfg E Ob A) (rawIn extLen : Nat) : Prop where
  dim : c.inDim = rawIn + c.memLen + extLen
  see : ∀ o, (c.see o).length = rawIn
  mem : ∀ i input, input.length = c.inDim → (c.act i input).2.length = c.memLen
  enc : c.stacking = true → ∀ a, (c.enc a).length + rawIn ≤ extLen

/-! ### Losses -/

theorem done_eq (c : Cfg E Ob A) (limited done : Bool) (i : Nat) :
    (done || (c.shortened && decide (i + 1 > 500) && limited)) = true ↔ done = true ∨ c.shortened = true ∧ 500 ≤ i ∧ limited = true := by
  simp only [Bool.or_eq_true, Bool.and_eq_true, decide_eq_true_eq]
  constructor
  · rintro (h | ⟨⟨h1, h2⟩, h3⟩)
    · exact Or.inl h
    · exact Or.inr ⟨h1, by omega, h3⟩
  · rintro (h | ⟨h1, h2, h3⟩)
    · exact Or.inl h
    · exact Or.inr ⟨⟨h1, by omega⟩, h3⟩

theorem go_spec {c : Cfg E Ob A} {rawIn extLen : Nat} (hf : Fits c rawIn extLen) (hs : c.stacking = false) (limited : Bool) (s : Obj Ob A) (hext : s.ext.length = extLen) :
    ∀ (n i : Nat) (e : E) (o : Ob) (mem : List ℝ) (reward : ℝ) (obs : List Ob) (acts : List A) (cur : ℝ), mem.length = c.memLen →
      ∃ rs f, Episode c limited s.ext n i e o mem rs f ∧ rs.length ≤ n ∧ simGo c limited n i e o mem reward obs acts cur s = some (match f with | none => -(reward + rs.sum) | some j => lossOf [] (some j), s) := by
  intro n
  induction n with
  | zero => intro i e o mem reward obs acts cur _; exact ⟨[], none, .out, le_rfl, by simp [simGo]⟩
  | succ n ih =>
    intro i e o mem reward obs acts cur hm
    have hlen : (c.see o ++ mem ++ s.ext).length = c.inDim := by
      rw [List.length_append, List.length_append, hf.see, hm, hext, hf.dim]
    obtain ⟨a, m, ha⟩ : ∃ a m, c.act i (c.see o ++ mem ++ s.ext) = (a, m) := ⟨_, _, rfl⟩
    have hm' : m.length = c.memLen := by have := hf.mem i _ hlen; rwa [ha] at this
    cases hst : c.step e a with
    | none =>
      exact ⟨[], some i, .illegal ha hst, Nat.zero_le _, by simp only [simGo]; rw [if_neg (not_not.mpr hlen), ha]; simp only [hst]; rfl⟩
    | some q =>
      obtain ⟨o', r, done, e'⟩ := q
      by_cases hd : done = true ∨ c.shortened = true ∧ 500 ≤ i ∧ limited = true
      · refine ⟨[r], none, .stop ha hst hd, by simp, ?_⟩
        simp only [simGo]
        rw [if_neg (not_not.mpr hlen), ha]
        simp only [hst, hs, (done_eq c limited done i).mpr hd, Bool.and_false, if_true, Bool.false_eq_true, if_false]
        simp
      · have hdf : done = false := by cases done <;> simp_all
        subst hdf
        have hd' : (false || (c.shortened && decide (i + 1 > 500) && limited)) = false := by
          rw [Bool.eq_false_iff]; intro h; exact hd ((done_eq c limited false i).mp h)
        obtain ⟨rs, f, h1, h2, h3⟩ := ih (i + 1) e' o' m (reward + r) (obs ++ [o']) (acts ++ [a]) (cur * c.gamma + r) hm'
        refine ⟨r :: rs, f, .go ha hst (fun h => hd (Or.inr h)) h1, by simp [h2], ?_⟩
        simp only [simGo]
        rw [if_neg (not_not.mpr hlen), ha]
        simp only [hst, hs, hd', Bool.and_false, Bool.false_eq_true, if_false, h3]
        cases f with
        | none => simp [List.sum_cons, add_assoc]
        | some j => rfl

/-- A simulation is an episode of at most the number of time steps, its loss is that of the episode, and nothing is left in the object. Partial: without the controls that stack the heuristic. -/
theorem loss_partial {c : Cfg E Ob A} {rawIn extLen : Nat} (hf : Fits c rawIn extLen) (hs : c.stacking = false) (limited : Bool) (s : Obj Ob A) (hext : s.ext.length = extLen) (steps : Nat) (e : E) (o : Ob) :
    ∃ rs f, Episode c limited s.ext steps 0 e o (List.replicate c.memLen 0) rs f ∧ rs.length ≤ steps ∧ simulate c limited steps e o s = some (lossOf rs f, s) := by
  obtain ⟨rs, f, h1, h2, h3⟩ := go_spec hf hs limited s hext steps 0 e o (List.replicate c.memLen 0) 0 [] [] 0 (by simp)
  refine ⟨rs, f, h1, h2, ?_⟩
  rw [simulate, h3]
  cases f <;> simp [lossOf]

/-- Episodes are determined by the weights and the environment. -/
theorem episode_det {c : Cfg E Ob A} {limited : Bool} {fixed : List ℝ} {n i : Nat} {e : E} {o : Ob} {mem rs rs' : List ℝ} {f f' : Option Nat}
    (h : Episode c limited fixed n i e o mem rs f) (h' : Episode c limited fixed n i e o mem rs' f') : rs = rs' ∧ f = f' := by
  induction h generalizing rs' f' with
  | out => cases h'; exact ⟨rfl, rfl⟩
  | illegal h1 h2 =>
    cases h' with
    | illegal h3 h4 => exact ⟨rfl, rfl⟩
    | stop h3 h4 _ => rw [h1] at h3; cases h3; rw [h2] at h4; cases h4
    | go h3 h4 _ _ => rw [h1] at h3; cases h3; rw [h2] at h4; cases h4
  | stop h1 h2 hd =>
    cases h' with
    | illegal h3 h4 => rw [h1] at h3; cases h3; rw [h2] at h4; cases h4
    | stop h3 h4 _ => rw [h1] at h3; cases h3; rw [h2] at h4; cases h4; exact ⟨rfl, rfl⟩
    | go h3 h4 h5 _ =>
      rw [h1] at h3; cases h3; rw [h2] at h4; cases h4
      rcases hd with hd | hd
      · cases hd
      · exact absurd hd h5
  | go h1 h2 hn _ ih =>
    cases h' with
    | illegal h3 h4 => rw [h1] at h3; cases h3; rw [h2] at h4; cases h4
    | stop h3 h4 hd =>
      rw [h1] at h3; cases h3; rw [h2] at h4; cases h4
      rcases hd with hd | hd
      · cases hd
      · exact absurd hd hn
    | go h3 h4 _ h6 =>
      rw [h1] at h3; cases h3; rw [h2] at h4; cases h4
      obtain ⟨h7, h8⟩ := ih h6
      exact ⟨by rw [h7], h8⟩

/-- A later illegal action has a smaller loss. -/
theorem late_failure {i j : Nat} (h : i < j) (rs rs' : List ℝ) : lossOf rs' (some j) < lossOf rs (some i) := by
  have : (i : ℝ) < j := by exact_mod_cast h
  have hi : (0 : ℝ) ≤ i := by positivity
  exact div_lt_div_of_pos_left (by norm_num) (by linarith) (by linarith)

/-! ### The length of the input -/

theorem add_ext (s : Obj Ob A) (acts : List A) (obs : List Ob) (r : ℝ) : (s.add acts obs r).ext = s.ext := rfl

theorem heuristic_ext (s : Obj Ob A) (x : Bool) (o : Ob) (obs : List Ob) : (s.heuristic x o obs).2.ext = s.ext := rfl

/-- The stacked input is moved by one step: the advice, or zeros for an unknown observation, and what is seen come last, and the oldest entries go. -/
theorem stack_spec (s : Obj Ob A) (a see : List ℝ) : (s.stack none a see).ext = s.ext.drop (a.length + see.length) ++ (List.replicate a.length 0 ++ see) ∧
    ∀ v, (s.stack (some v) a see).ext = s.ext.drop (v.length + see.length) ++ (v ++ see) := by
  refine ⟨?_, fun v => by simp [Obj.stack]⟩
  have : a.map (fun v => 0 * v) = List.replicate a.length 0 := by simp
  simp only [Obj.stack, Option.getD_none, this, List.length_append, List.length_replicate]

/-- The input of the controller always has its length, with or without memory and stacking: the assertion on it never fails. -/
theorem input_ok {c : Cfg E Ob A} {rawIn extLen : Nat} (hf : Fits c rawIn extLen) (limited : Bool) :
    ∀ (n i : Nat) (e : E) (o : Ob) (mem : List ℝ) (reward : ℝ) (obs : List Ob) (acts : List A) (cur : ℝ) (s : Obj Ob A), mem.length = c.memLen → s.ext.length = extLen →
      ∃ loss s', simGo c limited n i e o mem reward obs acts cur s = some (loss, s') ∧ s'.ext.length = extLen := by
  intro n
  induction n with
  | zero => intro i e o mem reward obs acts cur s _ hx; exact ⟨_, s, rfl, hx⟩
  | succ n ih =>
    intro i e o mem reward obs acts cur s hm hx
    have hlen : (c.see o ++ mem ++ s.ext).length = c.inDim := by
      rw [List.length_append, List.length_append, hf.see, hm, hx, hf.dim]
    obtain ⟨a, m, ha⟩ : ∃ a m, c.act i (c.see o ++ mem ++ s.ext) = (a, m) := ⟨_, _, rfl⟩
    have hm' : m.length = c.memLen := by have := hf.mem i _ hlen; rwa [ha] at this
    simp only [simGo]
    rw [if_neg (not_not.mpr hlen), ha]
    cases hst : c.step e a with
    | none => exact ⟨_, s, rfl, hx⟩
    | some q =>
      obtain ⟨o', r, done, e'⟩ := q
      simp only
      set s1 := (if (done || (c.shortened && decide (i + 1 > 500) && limited)) && c.stacking then s.add (acts ++ [a]) (obs ++ [o']) (cur * c.gamma + r) else s) with hs1
      have h1 : s1.ext.length = extLen := by rw [hs1]; split <;> simpa [add_ext] using hx
      set s2 := (if c.stacking then
          (s1.heuristic c.extrapolate o' (obs ++ [o'])).2.stack ((s1.heuristic c.extrapolate o' (obs ++ [o'])).1.map c.enc) (c.enc a) (c.see o) else s1) with hs2
      have h2 : s2.ext.length = extLen := by
        rw [hs2]
        split
        · rename_i hst'
          simp only [Obj.stack, heuristic_ext, List.length_append, List.length_drop, h1, hf.see]
          cases (s1.heuristic c.extrapolate o' (obs ++ [o'])).1 with
          | none => have := hf.enc hst' a; simp; omega
          | some b => have := hf.enc hst' b; simp; omega
        · exact h1
      split
      · exact ⟨_, s2, rfl, h2⟩
      · exact ih _ _ _ _ _ _ _ _ s2 hm' h2

/-! ### The archive -/

/-- An object as it is made. -/
def Obj.fresh (extLen : Nat) : Obj Ob A := ⟨List.replicate extLen 0, [], 0, 0⟩

/-- `mean_loss` is the mean of the rewards that were archived. -/
theorem mean_spec (extLen : Nat) (rs : List (List A × List Ob × ℝ)) :
    let s := rs.foldl (fun (s : Obj Ob A) q => s.add q.1 q.2.1 q.2.2) (Obj.fresh extLen)
    s.numLosses = rs.length ∧ (rs ≠ [] → s.meanLoss = (rs.map fun q => q.2.2).sum / rs.length) := by
  have key : ∀ (rs : List (List A × List Ob × ℝ)) (s : Obj Ob A),
      (rs.foldl (fun (s : Obj Ob A) q => s.add q.1 q.2.1 q.2.2) s).numLosses = s.numLosses + rs.length ∧
      (rs.foldl (fun (s : Obj Ob A) q => s.add q.1 q.2.1 q.2.2) s).meanLoss * ((s.numLosses + rs.length : ℕ) : ℝ) = s.meanLoss * s.numLosses + (rs.map fun q => q.2.2).sum := by
    intro rs
    induction rs with
    | nil => intro s; simp
    | cons q rs ih =>
      intro s
      obtain ⟨h1, h2⟩ := ih (s.add q.1 q.2.1 q.2.2)
      refine ⟨by rw [List.foldl_cons, h1]; simp [Obj.add]; omega, ?_⟩
      have hnum : (s.add q.1 q.2.1 q.2.2).numLosses = s.numLosses + 1 := rfl
      have hmean : (s.add q.1 q.2.1 q.2.2).meanLoss * ((s.numLosses + 1 : ℕ) : ℝ) = s.meanLoss * s.numLosses + q.2.2 := by
        have : ((s.numLosses + 1 : ℕ) : ℝ) ≠ 0 := by positivity
        simp only [Obj.add]
        field_simp
        push_cast
        ring
      rw [hnum] at h2
      rw [List.foldl_cons, List.map_cons, List.sum_cons, List.length_cons]
      rw [hmean] at h2
      have e : s.numLosses + (rs.length + 1) = s.numLosses + 1 + rs.length := by omega
      rw [e, h2]
      ring
  intro s
  obtain ⟨h1, h2⟩ := key rs (Obj.fresh extLen)
  simp only [Obj.fresh, Nat.zero_add, Nat.cast_zero, mul_zero, zero_add] at h1 h2
  refine ⟨h1, fun hne => ?_⟩
  have : (rs.length : ℝ) ≠ 0 := by
    have : rs.length ≠ 0 := by simpa using hne
    exact_mod_cast this
  rw [eq_div_iff this]
  exact h2

/-- No two traces of the archive have the same observations. -/
theorem add_distinct (s : Obj Ob A) (acts : List A) (obs : List Ob) (r : ℝ) (h : s.archive.Pairwise fun a b => a.obs ≠ b.obs) : (s.add acts obs r).archive.Pairwise fun a b => a.obs ≠ b.obs := by
  simp only [Obj.add]
  split
  · exact h
  · rename_i hn
    simp only [List.any_eq_true, decide_eq_true_eq, not_exists, not_and] at hn
    refine List.pairwise_append.mpr ⟨h, by simp, ?_⟩
    intro a ha b hb
    simp only [List.mem_singleton] at hb
    subst hb
    exact hn a ha

theorem mem_sorted {s : Obj Ob A} {x : Bool} {o : Ob} {obs : List Ob} {t : Trace Ob A} : t ∈ (s.heuristic x o obs).2.archive ↔ t ∈ s.archive ∧ t.reward ≤ s.meanLoss := by
  simp only [Obj.heuristic, (List.perm_insertionSort _ _).mem_iff, List.mem_filter, decide_eq_true_eq]

/-- The archive keeps the traces whose reward is not more than the mean: the better ones are dropped. -/
theorem best_dropped {s : Obj Ob A} (x : Bool) (o : Ob) (obs : List Ob) {t : Trace Ob A} (h : s.meanLoss < t.reward) : t ∉ (s.heuristic x o obs).2.archive := by
  intro hm
  have := (mem_sorted.mp hm).2
  linarith

theorem search_spec {x : Bool} {cur : List Ob} (hc : cur ≠ []) : ∀ {ts : List (Trace Ob A)} {a : A}, search x cur ts = some a →
    ∃ t ∈ ts, cur <:+ t.obs ∧ t.acts[cur.length - 1]? = some a
  | [], a, h => by simp [search] at h
  | t :: ts, a, h => by
    simp only [search] at h
    split at h
    · obtain ⟨u, hu, h1⟩ := search_spec hc h
      exact ⟨u, List.mem_cons_of_mem _ hu, h1⟩
    split at h
    · rename_i h1 h2
      exact ⟨t, by simp, ⟨t.obs.take (t.obs.length - cur.length), by conv_rhs => rw [← List.take_append_drop (t.obs.length - cur.length) t.obs, h2]⟩, h⟩
    · obtain ⟨u, hu, h1⟩ := search_spec hc h
      exact ⟨u, List.mem_cons_of_mem _ hu, h1⟩

/-- The advice is an action of a trace that is not better than the mean and that ends with all the current observations, the last of them twice. -/
theorem advice_spec {s : Obj Ob A} {x : Bool} {o : Ob} {obs : List Ob} {a : A} (h : (s.heuristic x o (obs ++ [o])).1 = some a) :
    ∃ t ∈ s.archive, t.reward ≤ s.meanLoss ∧ obs ++ [o, o] <:+ t.obs ∧ t.acts[obs.length + 1]? = some a := by
  simp only [Obj.heuristic] at h
  obtain ⟨t, ht, h1, h2⟩ := search_spec (by simp) h
  simp only [(List.perm_insertionSort _ _).mem_iff, List.mem_filter, decide_eq_true_eq] at ht
  refine ⟨t, ht.1, ht.2, by simpa using h1, by simpa using h2⟩

/-- There is no advice when no trace ends with the same observation twice. -/
theorem advice_none {s : Obj Ob A} (x : Bool) (o : Ob) (obs : List Ob) (h : ∀ t ∈ s.archive, ¬ [o, o] <:+ t.obs) : (s.heuristic x o (obs ++ [o])).1 = none := by
  cases hh : (s.heuristic x o (obs ++ [o])).1 with
  | none => rfl
  | some a =>
    obtain ⟨t, ht, -, h1, -⟩ := advice_spec hh
    exact absurd (List.IsSuffix.trans (List.suffix_append obs [o, o]) h1) (h t ht)

/-- The word "extrapolate" in the control changes nothing. -/
theorem extrapolate_same (s : Obj Ob A) (o : Ob) (obs : List Ob) : s.heuristic true o obs = s.heuristic false o obs := by
  have : ∀ ts : List (Trace Ob A), search true (obs ++ [o]) ts = search false (obs ++ [o]) ts := by
    intro ts
    induction ts with
    | nil => rfl
    | cons t ts ih =>
      simp only [search, ih]
      by_cases hl : (obs ++ [o]).length > t.obs.length
      · have hne : ¬ t.obs.drop (t.obs.length - (obs ++ [o]).length) = obs ++ [o] := by
          intro h
          have := congrArg List.length h
          rw [List.length_drop] at this
          omega
        rw [List.length_append, List.length_singleton] at hne
        simp [hne]
      · rw [List.length_append, List.length_singleton] at hl
        simp [hl]
  simp only [Obj.heuristic, this]

/-! ### Conformant planning -/

/-- The rewards of a list of actions, until the end of the episode. -/
inductive Open (step : E → A → Option (Ob × ℝ × Bool × E)) : List A → E → List ℝ → Prop
  | nil {e} : Open step [] e []
  | stop {a as e o r e'} : step e a = some (o, r, true, e') → Open step (a :: as) e [r]
  | go {a as e o r e' rs} : step e a = some (o, r, false, e') → Open step as e' rs → Open step (a :: as) e (r :: rs)

/-- The loss of conformant planning: minus the sum of the rewards, each with a power of `gamma` that is smaller for later ones. -/
theorem conformant_spec {step : E → A → Option (Ob × ℝ × Bool × E)} (gamma : ℝ) {as : List A} {e : E} {rs : List ℝ} (h : Open step as e rs) :
    conformant step gamma as e 0 = some (-(rs.mapIdx fun t r => gamma ^ (rs.length - 1 - t) * r).sum) := by
  have key : ∀ {as : List A} {e : E} {rs : List ℝ}, Open step as e rs → ∀ reward,
      conformant step gamma as e reward = some (-(reward * gamma ^ rs.length + (rs.mapIdx fun t r => gamma ^ (rs.length - 1 - t) * r).sum)) := by
    intro as e rs h
    induction h with
    | nil => intro reward; simp [conformant]
    | stop hs => intro reward; simp [conformant, hs]
    | go hs _ ih =>
      intro reward
      simp only [conformant, hs, Bool.false_eq_true, if_false, ih]
      rw [List.mapIdx_cons, List.sum_cons, List.length_cons]
      simp only [Nat.add_sub_cancel, Nat.sub_zero]
      have : ∀ n t : Nat, n - (t + 1) = n - 1 - t := by intro n t; omega
      rw [show (fun (t : ℕ) (r : ℝ) => gamma ^ (_ - (t + 1)) * r) = _ from funext fun t => funext fun r => by rw [this]]
      congr 2
      rw [pow_succ]
      ring
  rw [key h 0]
  simp

/-- Without a discount the loss is minus the sum of the rewards. Partial: for `gamma` equal to 1. -/
theorem conformant_partial {step : E → A → Option (Ob × ℝ × Bool × E)} {as : List A} {e : E} {rs : List ℝ} (h : Open step as e rs) : conformant step 1 as e 0 = some (-rs.sum) := by
  rw [conformant_spec 1 h]
  congr 2
  simp only [one_pow, one_mul]
  congr 1
  apply List.ext_getElem <;> simp

end

/-! ### Averages -/

/-- The mean over the seeds 0 to 6, one seed 0 for conformant planning, or one random seed; the assertion on the seeds never fails. -/
theorem multi_spec (draws : List Nat) (sim : Nat → ℝ) :
    multi false false draws sim = some ((sim 0 + sim 1 + sim 2 + sim 3 + sim 4 + sim 5 + sim 6) / 7) ∧ multi true false draws sim = some (sim 0) ∧
    ∀ isConformant, multi isConformant true draws sim = some (sim (draws.getD 0 0)) := by
  refine ⟨?_, ?_, fun b => ?_⟩
  · simp [multi, seeds, List.range_succ, add_assoc]
  · simp [multi, seeds, List.range_succ]
  · simp [multi, seeds, List.range_succ]

/-- The evaluation of a recommendation is the mean of at least 23 calls, or one call without randomness; its calls are counted. -/
theorem evaluate_spec (numCalls : Nat) (f : Nat → ℝ) (v : ℝ) :
    (evaluate false numCalls f).1 = f numCalls ∧ 23 ≤ numEval true numCalls ∧ (evaluate true numCalls f).2 = numCalls + numEval true numCalls ∧ ((∀ i, f i = v) → (evaluate true numCalls f).1 = v) ∧
    ((evaluate true numCalls f).1 * numEval true numCalls = ((List.range (numEval true numCalls)).map fun i => f (numCalls + i)).sum) := by
  have h23 : 23 ≤ numEval true numCalls := by simp [numEval]
  have hne : (numEval true numCalls : ℝ) ≠ 0 := by exact_mod_cast (by omega : numEval true numCalls ≠ 0)
  refine ⟨rfl, h23, rfl, fun h => ?_, ?_⟩
  · simp only [evaluate, if_true, h]
    simp [hne]
  · simp only [evaluate, if_true]
    rw [div_mul_cancel₀ _ hne]

/-- The evaluation makes at most a fifth of the number of calls. Partial: when there were at least 115 calls. -/
theorem share_partial {numCalls : Nat} (h : 115 ≤ numCalls) : 5 * numEval true numCalls ≤ numCalls := by
  simp only [numEval, if_true]
  omega

/-- With less calls it makes more. -/
theorem share_wrong {numCalls : Nat} (h : numCalls < 115) : numCalls < 5 * numEval true numCalls := by
  simp only [numEval, if_true]
  omega

/-! ### Sparse nets -/

/-- The penalty is 0 up to the limit, and more weights than the limit are always penalized by at least 1 for each of them. -/
theorem sparse_spec (limit : Nat) (enablers : List Nat) (loss : ℝ) :
    (enablers.sum ≤ limit → sparseLoss limit enablers loss = loss) ∧ (limit < enablers.sum → loss + ((enablers.sum : ℝ) - limit) ≤ sparseLoss limit enablers loss) := by
  constructor
  · intro h
    have : (enablers.sum : ℝ) ≤ limit := by exact_mod_cast h
    rw [sparseLoss, max_eq_left (by linarith)]; ring
  · intro h
    have : (limit : ℝ) < enablers.sum := by exact_mod_cast h
    rw [sparseLoss, max_eq_right (by linarith)]
    have h1 : 0 ≤ |loss| := abs_nonneg _
    nlinarith

/-- Sparse nets can be called when the weights have one dimension. Partial: not for the linear control and for one net for each time step. -/
theorem sparse_partial (n : Nat) : sparseShape [n] n = some [n] := by simp [sparseShape]

/-- With two dimensions all calls fail, as the enablers are in one list. -/
theorem sparse_fails {a n : Nat} (ha : 2 ≤ a) (hn : 0 < n) : sparseShape [a, n] (a * n) = none := by
  rw [sparseShape]
  have h1 : n < a * n := by nlinarith
  split
  · rw [if_neg]
    rw [max_eq_right h1.le]
    intro h
    have := Nat.eq_of_mul_eq_mul_left (by omega) h
    omega
  · rfl

/-! ### Weights -/

/-- Scrambled and noisy weights: all nets can still be reached, each by one point. -/
theorem prepare_bij {n : Nat} (σ : Option (Equiv.Perm (Fin n))) (z : Option (Fin n → ℝ)) : Function.Bijective (prepare σ z) := by
  have h1 : Function.Bijective fun x : Fin n → ℝ => (match σ with | none => x | some σ => fun i => x (σ i)) := by
    cases σ with
    | none => exact Function.bijective_id
    | some σ =>
      constructor
      · intro x y h
        funext i
        have := congrFun h (σ.symm i)
        simpa using this
      · intro y
        exact ⟨fun i => y (σ.symm i), by simp⟩
  have h2 : Function.Bijective fun x : Fin n → ℝ => (match z with | none => x | some z => fun i => x i + 1 / 100 * z i) := by
    cases z with
    | none => exact Function.bijective_id
    | some z =>
      constructor
      · intro x y h
        funext i
        have := congrFun h i
        simpa using this
      · intro y
        exact ⟨fun i => y i - 1 / 100 * z i, by simp⟩
  exact h2.comp h1

/-! ### The environment with tuples -/

/-- Several steps. -/
def TupleEnv.steps : List (List (List ℤ)) → TupleEnv → Option (List (ℤ × Bool) × TupleEnv)
  | [], t => some ([], t)
  | a :: as, t => do
    let (r, d, t') ← t.step a
    let (l, t'') ← TupleEnv.steps as t'
    return ((r, d) :: l, t'')

/-- The rewards and the end of a first episode: it ends at the step 168 and not before. -/
theorem tuple_first (as : List (List ℤ × List ℤ)) (h : ∀ a ∈ as, a.1.length = 71) (k : Nat) (r0 : ℤ) :
    TupleEnv.steps (as.map fun a => [a.1, a.2]) ⟨k, r0⟩ =
      some (as.mapIdx fun t a => (a.2.sum - a.1.sum, decide (k + t + 1 = 168)), ⟨k + as.length, (as.getLast?.map fun a => a.2.sum - a.1.sum).getD r0⟩) := by
  induction as generalizing k r0 with
  | nil => simp [TupleEnv.steps]
  | cons a as ih =>
    simp only [List.map_cons, TupleEnv.steps, TupleEnv.step, h a (by simp), if_true, Option.bind_eq_bind, Option.bind_some]
    rw [ih (fun b hb => h b (by simp [hb]))]
    simp only [Option.bind_some, List.mapIdx_cons, List.length_cons]
    have e1 : ∀ t : Nat, k + 1 + t + 1 = k + (t + 1) + 1 := by intro t; omega
    simp only [e1]
    congr 1
    refine Prod.ext rfl ?_
    simp only
    cases as with
    | nil => simp
    | cons b bs =>
      rw [List.getLast?_cons_cons]
      cases hl : (b :: bs).getLast? with
      | none => simp at hl
      | some z => simp; omega

/-- After a reset no step ends the episode any more. -/
theorem tuple_endless {t : TupleEnv} (ht : 168 ≤ t.current) (as : List (List ℤ × List ℤ)) (h : ∀ a ∈ as, a.1.length = 71) :
    ∃ l t', TupleEnv.steps (as.map fun a => [a.1, a.2]) t.reset = some (l, t') ∧ l.length = as.length ∧ ∀ q ∈ l, q.2 = false := by
  obtain ⟨k, r0⟩ := t
  refine ⟨_, _, tuple_first as h k r0, by simp, ?_⟩
  intro q hq
  obtain ⟨i, hi, rfl⟩ := List.mem_mapIdx.mp hq
  simp only at ht ⊢
  rw [decide_eq_false_iff_not]
  omega

/-! ### Cases -/

/-- An environment of one step whose reward is the action. -/
noncomputable def one : Cfg Unit Unit ℝ where
  inDim := 3
  memLen := 0
  step := fun _ a => some ((), a, true, ())
  act := fun _ input => (input.getD 2 0, [])
  see := fun _ => [1]
  enc := fun a => [a]
  stacking := true
  extrapolate := false
  gamma := 1
  shortened := false

/-- The stacked input of a simulation is still there in the next one: the same weights give two losses in an environment without randomness. -/
theorem stacking_leak : ∃ s : Obj Unit ℝ, simulate one false 1 () () (Obj.fresh 2) = some (0, s) ∧ ∃ s', simulate one false 1 () () s = some (-1, s') := by
  have h1 : simulate one false 1 () () (Obj.fresh 2) = some (0, ⟨[0, 1], [⟨[()], [0], 0⟩], 0, 1⟩) := by
    simp [simulate, simGo, one, Obj.fresh, Obj.add, Obj.heuristic, Obj.stack, search]
  refine ⟨_, h1, ?_⟩
  have h2 : ∀ s : Obj Unit ℝ, s.ext = [0, 1] → ∃ s', simulate one false 1 () () s = some (-1, s') := by
    intro s hs
    simp [simulate, simGo, one, hs]
  exact h2 _ rfl

/-- Sizes of that problem. -/
theorem one_fits : Fits one 1 2 := ⟨rfl, fun _ => rfl, fun _ _ _ => rfl, fun _ _ => by simp [one]⟩

/-- A walk on the integers: the action is added to the state, the reward is the state, and negative states are illegal. -/
def walk : Cfg ℤ ℤ ℤ where
  inDim := 1
  memLen := 0
  step := fun e a => if e + a < 0 then none else some (e + a, ((e + a : ℤ) : ℝ), decide (5 ≤ e + a), e + a)
  act := fun i _ => (if i = 2 then 3 else 1, [])
  see := fun o => [(o : ℝ)]
  enc := fun _ => []
  stacking := false
  extrapolate := false
  gamma := 1
  shortened := false

/-- The loss of the walk from 0: the states 1, 2, 5. -/
example (s : Obj ℤ ℤ) (hs : s.ext = []) : simulate walk false 10 0 0 s = some (-8, s) := by
  simp [simulate, simGo, walk, hs]
  norm_num

/-- With a discount the last reward counts most: a reward at the first of two steps is worth less than at the second one. -/
theorem discount_backward : ∃ (step : Bool → Bool → Option (Unit × ℝ × Bool × Bool)) (gamma : ℝ), 0 < gamma ∧ gamma < 1 ∧
    conformant step gamma [true, false] true 0 = some (-gamma) ∧ conformant step gamma [false, true] true 0 = some (-1) := by
  refine ⟨fun e a => some ((), if a then 1 else 0, false, e), 1 / 2, by norm_num, by norm_num, ?_, ?_⟩ <;> simp [conformant]

/-- After two archived rewards 1 and 3, the mean is 2 and only the trace with the reward 1 is kept. -/
example : let s := ((Obj.fresh 0 : Obj Nat Nat).add [0] [5] 1).add [1] [6] 3
    s.meanLoss = 2 ∧ ∀ t, t ∈ (s.heuristic false 0 []).2.archive ↔ t = ⟨[5], [0], 1⟩ := by
  intro s
  have hm : s.meanLoss = 2 := by simp [s, Obj.add, Obj.fresh]; norm_num
  have ha : s.archive = [⟨[5], [0], 1⟩, ⟨[6], [1], 3⟩] := by simp [s, Obj.add, Obj.fresh]
  refine ⟨hm, fun t => ?_⟩
  rw [mem_sorted, hm, ha]
  constructor
  · rintro ⟨h, h2⟩
    simp only [List.mem_cons, List.not_mem_nil, or_false] at h
    rcases h with rfl | rfl
    · rfl
    · norm_num at h2
  · rintro rfl
    simp

/-- The shapes of a sparse linear control with 5 rows and one column. -/
example : sparseShape [5, 1] 5 = none ∧ sparseShape [40] 40 = some [40] := by decide

end NG.GymSim
