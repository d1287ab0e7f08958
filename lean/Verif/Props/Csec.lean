import Verif.Model.Csec
import Verif.Props.NGOpt

/-!
# The algorithm selected by NgIohTuned
-/

namespace NG
namespace Csec

open NGOpt

/-! ## A budget is needed, and not always enough -/

/-- `NgIohTuned` raises on every problem if no budget is given. -/
theorem no_budget (v : Problem) (h : v.budget = none) : csec11 v = .assertionError ∧ csec10 v = .assertionError := by
  constructor <;> simp [csec11, csec10, csecN, h]

theorem ofNG_ok {o : Option NGOpt.Alg} (h : ∃ a, o = some a) : ∃ a, Sel.ofNG o = .ok a := by
  obtain ⟨a, rfl⟩ := h; exact ⟨_, rfl⟩

theorem base_ok {v : Problem} {b : Nat} (h : v.budget = some b) : ∃ a, base v = .ok a :=
  ofNG_ok (selectBase_total (v := v.toEnv.renewed) h)

theorem ioh4_ok {v : Problem} {b : Nat} (h : v.budget = some b) : ∃ a, ioh4 v = .ok a := by
  unfold ioh4; repeat' split
  all_goals first | exact ⟨_, rfl⟩ | exact base_ok h

theorem frame_ok {v : Problem} {b : Nat} (h : v.budget = some b) (s : Nat → Nat → Option Alg) (c : Alg) : ∃ a, frame v s c = .ok a := by
  simp only [frame]; repeat' split
  all_goals first | exact ⟨_, rfl⟩ | exact base_ok h

theorem ds2_ok {v : Problem} {b : Nat} (h : v.budget = some b) : ∃ a, ds2 v = .ok a := by
  unfold ds2 ioh21; split <;> exact frame_ok h _ _

theorem csecTail_ok {v : Problem} {b : Nat} (h : v.budget = some b) (l : Nat) (m : Bool) : ∃ a, csecTail v l m = .ok a := by
  unfold csecTail; repeat' split
  all_goals first | exact ⟨_, rfl⟩ | exact frame_ok h _ _ | exact ioh4_ok h | exact ds2_ok h

/-- The problems declared as hyper-parameter tuning with continuous variables only, noise-free, with at least 12 evaluations per dimension. -/
abbrev Tuning (v : Problem) (b : Nat) : Prop :=
  v.realWorld = true ∧ v.hptuning = true ∧ v.neural = false ∧ v.hasConstraints = false ∧ v.continuous = true ∧ v.noise = false ∧ 12 * v.dim ≤ b

theorem dsrw_false {v : Problem} {b : Nat} (h : v.budget = some b) :
    (dsrw false v = .typeError ∧ v.continuous = true ∧ v.noise = false ∧ 12 * v.dim ≤ b)
    ∨ ((∃ a, dsrw false v = .ok a) ∧ ¬ (v.continuous = true ∧ v.noise = false ∧ 12 * v.dim ≤ b)) := by
  have hr : ∃ a, (if v.known (fun b => decide (b < v.dim)) then ds2 v else Sel.ofNG (select39 v.toEnv)) = .ok a := by
    split
    · exact ds2_ok h
    · exact ofNG_ok (select39_total_partial (v := v.toEnv) h)
  simp only [dsrw, h]
  by_cases hc : (v.continuous && !v.noise) = true
  · rw [if_pos hc]
    simp only [Bool.and_eq_true, Bool.not_eq_true'] at hc
    by_cases hb : 12 * v.dim ≤ b
    · left; simp [hb, hc]
    · right
      rw [if_neg hb]
      exact ⟨hr, fun hh => hb hh.2.2⟩
  · rw [if_neg hc]
    simp only [Bool.and_eq_true, Bool.not_eq_true'] at hc
    exact .inr ⟨hr, fun hh => hc ⟨hh.1, hh.2.1⟩⟩

/-- Nothing was returned, or an algorithm. -/
inductive Fine : Option Sel → Prop
  | none : Fine none
  | ok (a : Alg) : Fine (some (.ok a))

theorem some_ok {s : Sel} (h : ∃ a, s = .ok a) : Fine (some s) := by
  obtain ⟨a, rfl⟩ := h; exact .ok a

theorem csecHead_cases {v : Problem} {b : Nat} (h : v.budget = some b) :
    (Tuning v b ∧ csecHead v b = some .typeError) ∨ (¬ Tuning v b ∧ Fine (csecHead v b)) := by
  have hd := some_ok (ds2_ok h)
  have h39 := some_ok (ofNG_ok (select39_total_partial (v := v.toEnv) h))
  have hrw := dsrw_false h
  unfold csecHead Tuning
  generalize select39 v.toEnv = s39 at *
  generalize ds2 v = sds at *
  generalize dsrw false v = srw at *
  cases e1 : v.realWorld <;> cases e2 : v.hptuning <;> cases e3 : v.neural <;> cases e4 : v.hasConstraints <;> cases e5 : v.continuous
    <;> cases e6 : v.noise
  all_goals simp only [e5, e6, Bool.not_true, Bool.not_false, Bool.and_true, Bool.and_false, Bool.true_and, Bool.false_and,
    if_true, if_false, Bool.false_eq_true, Bool.true_eq_false, reduceCtorEq, true_and, false_and, and_true, and_false,
    not_false_eq_true, false_or] at hrw ⊢
  all_goals first
    | exact .none | exact .ok _ | exact hd | exact h39 | exact some_ok hrw
    | (repeat' split
       all_goals first | exact .none | exact .ok _ | exact hd | exact h39 | exact some_ok hrw)
    | (rcases hrw with ⟨h1, h2⟩ | ⟨h1, h2⟩
       · exact .inl ⟨h2, congrArg some h1⟩
       · exact .inr ⟨h2, some_ok h1⟩)

/-- With a budget, `NgIohTuned` selects an algorithm, except for the hyper-parameter tuning problems above, on which it raises a TypeError. -/
theorem csec_total {v : Problem} {b : Nat} (h : v.budget = some b) (l : Nat) :
    (Tuning v b ∧ csecN l v = .typeError) ∨ (¬ Tuning v b ∧ ∃ a, csecN l v = .ok a) := by
  unfold csecN
  rw [h]
  dsimp only
  rcases csecHead_cases h with ⟨h1, h2⟩ | ⟨h1, h2⟩
  · rw [h2]; exact .inl ⟨h1, rfl⟩
  · generalize csecHead v b = s at h2
    cases h2 with
    | none => exact .inr ⟨h1, csecTail_ok h _ _⟩
    | ok a => exact .inr ⟨h1, a, rfl⟩

/-- The problems declared as nothing in particular. -/
abbrev Plain (v : Problem) : Prop := v.realWorld = false ∧ v.hasConstraints = false

/-- With a budget and without declarations, `NgIohTuned` always selects an algorithm. -/
theorem csec_total_partial {v : Problem} {b : Nat} (h : v.budget = some b) (hp : v.realWorld = false) : ∃ a, csec11 v = .ok a := by
  rcases csec_total h 300 with ⟨h1, -⟩ | ⟨-, h2⟩
  · exact absurd h1.1 (by simp [hp])
  · exact h2

/-- Tuning two continuous hyper-parameters with a budget of 30 fails. -/
theorem tuning_raises : ∃ v : Problem, v.budget = some 30 ∧ v.dim = 2 ∧ v.workers = 1 ∧ v.layers = [] ∧ v.funcDet = true ∧ csec11 v = .typeError :=
  ⟨{ layers := [], funcDet := true, metrizable := true, bounded := true, dim := 2, logTerm := 2, budget := some 30, workers := 1, realWorld := true,
     hptuning := true }, rfl, rfl, rfl, rfl, rfl, by decide⟩

/-! ## Parallel use -/

theorem ofNG_inj {o : Option NGOpt.Alg} {a : Alg} (h : Sel.ofNG o = .ok a) : ∃ x, o = some x ∧ a = .known x := by
  cases o with
  | none => simp [Sel.ofNG] at h
  | some x => simp only [Sel.ofNG, Sel.ok.injEq] at h; exact ⟨x, rfl, h.symm⟩

theorem base_parallel {v : Problem} (hw : 1 < v.workers) {a : Alg} (h : base v = .ok a) : a.sequential = false := by
  obtain ⟨x, h1, rfl⟩ := ofNG_inj h
  exact selectBase_parallel (v := v.toEnv.renewed) hw h1

theorem ioh4_parallel {v : Problem} (hw : 1 < v.workers) {a : Alg} (h : ioh4 v = .ok a) : a.sequential = false := by
  have h1 : ¬ v.workers = 1 := by omega
  unfold ioh4 at h
  simp only [h1, decide_false, Bool.and_false, Bool.false_and, Bool.false_eq_true, if_false] at h
  repeat' split at h
  all_goals first | exact base_parallel hw h | (simp only [Sel.ok.injEq] at h; subst h; rfl)

theorem frame_parallel {v : Problem} (hw : 1 < v.workers) {s : Nat → Nat → Option Alg} {c a : Alg} (h : frame v s c = .ok a) :
    a.sequential = false := by
  have h1 : ¬ v.workers = 1 := by omega
  simp only [frame, h1, decide_false, Bool.and_false, Bool.false_and, Bool.false_eq_true, if_false] at h
  repeat' split at h
  all_goals first | exact base_parallel hw h | (simp only [Sel.ok.injEq] at h; subst h; rfl)

theorem ds2_parallel {v : Problem} (hw : 1 < v.workers) {a : Alg} (h : ds2 v = .ok a) : a.sequential = false := by
  unfold ds2 ioh21 at h
  split at h <;> exact frame_parallel hw h

theorem csecTail_parallel {v : Problem} (hw : 1 < v.workers) {l : Nat} {m : Bool} {a : Alg} (h : csecTail v l m = .ok a) :
    a.sequential = false := by
  unfold csecTail ioh21 at h
  repeat' split at h
  all_goals first
    | exact frame_parallel hw h | exact ioh4_parallel hw h | exact ds2_parallel hw h | (simp only [Sel.ok.injEq] at h; subst h; rfl)

theorem ng39_parallel {v : Problem} (hw : 1 < v.workers) {a : Alg} (h : Sel.ofNG (select39 v.toEnv) = .ok a) : a.sequential = false := by
  obtain ⟨x, h1, rfl⟩ := ofNG_inj h
  exact select39_parallel (v := v.toEnv) hw h1

theorem dsrw_parallel {v : Problem} (hw : 1 < v.workers) {r : Bool} {a : Alg} (h : dsrw r v = .ok a) : a.sequential = false := by
  simp only [dsrw] at h
  repeat' split at h
  all_goals first
    | exact ds2_parallel hw h | exact ng39_parallel hw h | (simp only [Sel.ok.injEq] at h; subst h; rfl) | exact absurd h (by simp)

theorem csecHead_parallel {v : Problem} (hw : 1 < v.workers) {b : Nat} {a : Alg} (h : csecHead v b = some (.ok a)) : a.sequential = false := by
  have h1 : ¬ v.workers = 1 := by omega
  unfold csecHead at h
  simp only [h1, false_and, decide_false, Bool.and_false, Bool.false_eq_true, if_false] at h
  repeat' split at h
  all_goals first
    | exact ds2_parallel hw (Option.some.inj h) | exact ng39_parallel hw (Option.some.inj h) | exact dsrw_parallel hw (Option.some.inj h)
    | (simp only [Option.some.injEq, Sel.ok.injEq] at h; subst h; rfl) | exact absurd h (by simp)

/-- With several workers, `NgIohTuned` and its previous versions never select an algorithm which can only run sequentially. -/
theorem csec_parallel {v : Problem} (hw : 1 < v.workers) {a : Alg} (h : csec11 v = .ok a ∨ csec10 v = .ok a ∨ csec v = .ok a) :
    a.sequential = false := by
  have hN : ∀ l, csecN l v = .ok a → a.sequential = false := by
    intro l h
    unfold csecN at h
    repeat' split at h
    · simp at h
    · rename_i hs; rw [h] at hs; exact csecHead_parallel hw hs
    · exact csecTail_parallel hw h
  rcases h with h | h | h
  · exact hN _ h
  · exact hN _ h
  · exact csecTail_parallel hw h

/-! ## What is selected -/

/-- The smooth problems solved by one worker with a budget: no integer variable, deterministic function. -/
structure Smooth (v : Problem) (b : Nat) : Prop where
  layers : v.layers = []
  det : v.funcDet = true
  budget : v.budget = some b
  workers : v.workers = 1

/-- What is expected from 300 to 2000 evaluations per dimension. -/
def byDim (d : Nat) : Alg :=
  if d = 2 then .carola14 else if d = 3 then .carola4 else if d < 8 then .carola5 else if d < 15 then .carola9
  else if d < 30 then .carola8 else .carola9

/-- What is expected with at most 20 evaluations per dimension, in dimension at most 30. -/
def tiny (d b : Nat) : NGOpt.Alg :=
  if 5 ≤ b then .cobyla else if b < 2 ∨ b < d then .metaRecentering else .naiveTBPSA

theorem smooth_facts {v : Problem} {b : Nat} (h : Smooth v b) : v.continuous = true ∧ v.noise = false ∧ v.notSoftmax = false := by
  obtain ⟨h1, h2⟩ := (smooth_iff v.toEnv).2 ⟨h.layers, h.det⟩
  exact ⟨h1, h2, by simp [Env.notSoftmax, h.layers]⟩

theorem base_smooth {v : Problem} {b : Nat} (h : Smooth v b) (hm : v.metrizable = true) (hd : v.dim ≤ 30) (hb : b < 30 * v.dim) :
    base v = .ok (.known (tiny v.dim b)) := by
  obtain ⟨h1, h2, h3⟩ := smooth_facts h
  have e1 : v.toEnv.renewed.budget = some b := h.budget
  have e2 : v.toEnv.renewed.noise = false := h2
  have e3 : v.toEnv.renewed.continuous = true := h1
  have e4 : v.toEnv.renewed.notSoftmax = false := h3
  have e5 : v.toEnv.renewed.metrizable = true := hm
  have e6 : v.toEnv.renewed.workers = 1 := h.workers
  have e7 : v.toEnv.renewed.dim = v.dim := rfl
  unfold base selectBase tiny
  rw [e1]
  simp only [e2, e3, e4, e5, e6, e7, Env.realNoise, show v.toEnv.renewed.funcDet = true from h.det]
  have k1 : ¬ (6000 < b ∧ 7 < v.dim) := by omega
  have k2 : ¬ (30 < v.dim) := by omega
  have k3 : b < v.dim * 30 := by omega
  by_cases c : 5 ≤ b
  · have : ¬ (b < 5 * 1) := by omega
    simp [c, this, k1, k2, k3, Sel.ofNG]
  · have : b < 5 * 1 := by omega
    have e : (b < 2 * 1 ∨ b < v.dim) ↔ (b < 2 ∨ b < v.dim) := by omega
    simp only [this, c, if_true, if_false, e, Bool.false_and, Bool.not_true, Bool.or_false, Bool.false_eq_true]
    split <;> rfl

/-- The expected algorithm on smooth problems in dimensions 2 to 49, with one worker: it is given by the number of evaluations per dimension. -/
def expected (d b : Nat) (metrizable : Bool) : Alg :=
  if 2000 * d < b then .metaVLPCMA
  else if 300 * d < b then byDim d
  else if b = 300 * d then (if d < 30 then .multiCMA else .carola2)
  else if 30 * d ≤ b then .carola2
  else if 30 < d then (if d < b then .chainMetaModelSQP else .chainMetaModelDSSQP)
  else if 20 * d < b then .carola2
  else if metrizable then .known (tiny d b) else .known .doubleFast

theorem base_rough {v : Problem} {b : Nat} (h : Smooth v b) (hm : v.metrizable = false) : base v = .ok (.known .doubleFast) := by
  obtain ⟨h1, h2, h3⟩ := smooth_facts h
  have e1 : v.toEnv.renewed.budget = some b := h.budget
  have e2 : v.toEnv.renewed.noise = false := h2
  have e5 : v.toEnv.renewed.metrizable = false := hm
  unfold base selectBase
  rw [e1]
  simp [e2, e5, Env.realNoise, show v.toEnv.renewed.funcDet = true from h.det, Sel.ofNG]

/-- Evaluate a table whose conditions are decided by the hypotheses. -/
local macro "walk" : tactic => `(tactic| (repeat first | rfl | rw [if_neg (by omega)] | rw [if_pos (by omega)]))

/-- The inner table of NgIoh21, between 300 and 2000 evaluations per dimension. -/
theorem ioh21Seq_byDim {d b : Nat} (h1 : 1 < d) (h2 : d < 50) (h3 : 300 * d < b) (h4 : b ≤ 2000 * d) : ioh21Seq d b = some (byDim d) := by
  unfold ioh21Seq byDim
  by_cases c1 : d = 2
  · walk
  by_cases c2 : d = 3
  · walk
  by_cases c3 : d < 8
  · walk
  by_cases c4 : d < 15
  · walk
  by_cases c5 : d < 30
  · walk
  · walk

theorem frame_smooth {v : Problem} {b : Nat} (h : Smooth v b) (s : Nat → Nat → Option Alg) (c : Alg) (hb : b ≤ 2000 * v.dim) :
    frame v s c = match s v.dim b with
      | some a => .ok a
      | none =>
        if (b < 1000 * v.dim ∧ 20 * v.dim < b) ∧ 1 < v.dim ∧ v.dim < 100 then .ok c
        else if 1000 * v.dim ≤ b ∧ 1 < v.dim ∧ v.dim < 50 then .ok c
        else base v := by
  obtain ⟨h1, h2, h3⟩ := smooth_facts h
  have k : ¬ 2000 * v.dim < b := by omega
  simp only [frame, h1, h2, h.workers, Env.known, h.budget, k, decide_false, decide_true, Bool.and_false, Bool.and_true, Bool.false_and,
    Bool.not_true, Bool.not_false, Bool.true_and, Bool.false_eq_true, if_false, if_true, Option.bind_some]
  cases s v.dim b with
  | some a => rfl
  | none => simp only [Bool.and_eq_true, decide_eq_true_eq]

theorem ioh4_smooth {v : Problem} {b : Nat} (h : Smooth v b) (h1 : 1 < v.dim) (h2 : v.dim < 50) (hb : 20 * v.dim < b) : ioh4 v = .ok .carola2 := by
  obtain ⟨c1, c2, c3⟩ := smooth_facts h
  have k1 : v.dim < 100 := by omega
  simp only [ioh4, c1, c2, h.workers, Env.known, h.budget, h1, h2, k1, hb, and_true, decide_true, Bool.and_true, Bool.true_and, Bool.not_false,
    decide_eq_true_eq]
  by_cases c : b < 1000 * v.dim
  · simp [c]
  · have : 1000 * v.dim ≤ b := by omega
    simp [c, this]

/-- On plain smooth problems in dimensions 2 to 49 with one worker, `NgIohTuned` selects the expected algorithm, for every budget. -/
theorem smooth_selection {v : Problem} {b : Nat} (h : Smooth v b) (hp : Plain v) (h1 : 1 < v.dim) (h2 : v.dim < 50) :
    csec11 v = .ok (expected v.dim b v.metrizable) := by
  obtain ⟨c1, c2, c3⟩ := smooth_facts h
  have hh : csecHead v b = none := by unfold csecHead; simp [hp.1, hp.2, c1]
  unfold csec11 csecN
  rw [h.budget]
  dsimp only
  rw [hh]
  dsimp only
  simp only [csecTail, c1, c2, h.workers, Env.known, h.budget, h1, h2, and_self, decide_true, Bool.and_true, Bool.true_and, Bool.not_false,
    decide_eq_true_eq]
  unfold expected
  by_cases a1 : 2000 * v.dim < b
  · have : 300 * v.dim ≤ b := by omega
    rw [if_pos this, if_pos a1]
    simp [ioh21, frame, c1, c2, Env.known, h.budget, a1]
  rw [if_neg a1]
  have a1' : b ≤ 2000 * v.dim := by omega
  by_cases a2 : 300 * v.dim < b
  · rw [if_pos (by omega), if_pos a2]
    unfold ioh21
    rw [frame_smooth h _ _ a1', ioh21Seq_byDim h1 h2 a2 a1']
  rw [if_neg a2]
  by_cases a3 : b = 300 * v.dim
  · rw [if_pos (by omega), if_pos a3]
    unfold ioh21
    rw [frame_smooth h _ _ a1']
    by_cases a4 : v.dim < 30
    · have : ioh21Seq v.dim b = some .multiCMA := by
        unfold ioh21Seq
        walk
      rw [this, if_pos a4]
    · have : ioh21Seq v.dim b = none := by
        unfold ioh21Seq
        walk
      rw [this, if_neg a4]
      dsimp only
      rw [if_pos (by omega)]
  rw [if_neg a3, if_neg (by omega)]
  by_cases a5 : 30 * v.dim ≤ b
  · rw [if_pos a5, if_pos a5]; exact ioh4_smooth h h1 h2 (by omega)
  rw [if_neg a5, if_neg a5]
  have hm : (v.overLog && decide (30 * v.dim ≤ b)) = false := by simp [a5]
  rw [hm, if_neg (by simp)]
  unfold ds2 ioh21
  simp only [Env.known, h.budget, decide_eq_true_eq]
  by_cases a6 : 30 < v.dim
  · rw [if_pos a6]
    by_cases a7 : v.dim < b
    · rw [if_pos a7, if_pos a7, frame_smooth h _ _ a1']
      have : ioh21Seq v.dim b = some .chainMetaModelSQP := by
        unfold ioh21Seq
        walk
      rw [this]
    · rw [if_neg a7, if_neg a7, frame_smooth h _ _ a1']
      have : ds2Seq v.dim b = some .chainMetaModelDSSQP := by
        unfold ds2Seq
        walk
      rw [this]
  · rw [if_neg a6]
    have n1 : ioh21Seq v.dim b = none := by
      unfold ioh21Seq
      walk
    have n2 : ds2Seq v.dim b = none := by
      unfold ds2Seq
      walk
    have hbase : base v = .ok (if v.metrizable = true then .known (tiny v.dim b) else .known .doubleFast) := by
      cases hmz : v.metrizable with
      | true => rw [if_pos rfl]; exact base_smooth h hmz (by omega) (by omega)
      | false => rw [if_neg (by simp)]; exact base_rough h hmz
    by_cases a8 : 20 * v.dim < b
    · rw [if_pos (by omega), if_pos a8, frame_smooth h _ _ a1', n1]
      dsimp only
      rw [if_pos (by omega)]
    · rw [if_neg a8]
      split
      · rw [frame_smooth h _ _ a1', n1]
        dsimp only
        rw [if_neg (by omega), if_neg (by omega), hbase]
      · rw [frame_smooth h _ _ a1', n2]
        dsimp only
        rw [if_neg (by omega), if_neg (by omega), hbase]

/-- `CSEC10` only differs from `CSEC11` on smooth problems in dimensions 2 to 49 with one worker, from 300 to 3000 evaluations per dimension. -/
theorem versions_differ {v : Problem} (h : csec10 v ≠ csec11 v) :
    ∃ b, v.budget = some b ∧ v.continuous = true ∧ v.noise = false ∧ v.workers = 1 ∧ 1 < v.dim ∧ v.dim < 50 ∧ 300 * v.dim ≤ b ∧ b < 3000 * v.dim := by
  unfold csec10 csec11 csecN at h
  cases hb : v.budget with
  | none => simp [hb] at h
  | some b =>
    rw [hb] at h
    dsimp only at h
    cases hh : csecHead v b with
    | some s => rw [hh] at h; exact absurd rfl h
    | none =>
      rw [hh] at h
      dsimp only at h
      refine ⟨b, rfl, ?_⟩
      unfold csecTail at h
      simp only [Env.known, hb, Bool.and_eq_true, decide_eq_true_eq, Bool.not_eq_true'] at h
      by_contra hc
      apply h
      by_cases k : (((v.continuous = true ∧ v.workers = 1) ∧ 300 * v.dim ≤ b) ∧ v.noise = false) ∧ 1 < v.dim ∧ v.dim < 50
      · have k3 : 3000 * v.dim ≤ b := by
          by_contra k3
          exact hc ⟨k.1.1.1.1, k.1.2, k.1.1.1.2, k.2.1, k.2.2, k.1.1.2, by omega⟩
        rw [if_pos k, if_pos ⟨⟨⟨k.1.1.1, k3⟩, k.1.2⟩, k.2⟩]
      · have k' : ¬ ((((v.continuous = true ∧ v.workers = 1) ∧ 3000 * v.dim ≤ b) ∧ v.noise = false) ∧ 1 < v.dim ∧ v.dim < 50) := by
          intro q
          exact k ⟨⟨⟨q.1.1.1, by have := q.1.1.2; omega⟩, q.1.2⟩, q.2⟩
        rw [if_neg k, if_neg k']

/-! ## Branches which are never used -/

/-- The algorithms which only appear in unreachable branches. -/
def Alg.dead : Alg → Bool
  | .fcarola6 | .metaModelFmin2 | .ds2 | .ds4 | .ds5 | .ds6 | .ds8 | .ds9 | .ds14 | .multiDS | .metaModelDS => true
  | _ => false

theorem base_live {v : Problem} {a : Alg} (h : base v = .ok a) : a.dead = false := by
  obtain ⟨x, -, rfl⟩ := ofNG_inj h; rfl

theorem ioh4_live {v : Problem} {a : Alg} (h : ioh4 v = .ok a) : a.dead = false := by
  unfold ioh4 at h
  repeat' split at h
  all_goals first | exact base_live h | (simp only [Sel.ok.injEq] at h; subst h; rfl)

theorem ite_some {c : Prop} [Decidable c] {x a : Alg} {t : Option Alg} (h : (if c then some x else t) = some a) :
    (c ∧ x = a) ∨ (¬ c ∧ t = some a) := by
  split at h
  · rename_i hc; exact .inl ⟨hc, Option.some.inj h⟩
  · rename_i hc; exact .inr ⟨hc, h⟩

theorem ioh21Seq_live {d b : Nat} (hb : b ≤ 2000 * d) {a : Alg} (h : ioh21Seq d b = some a) : a.dead = false := by
  unfold ioh21Seq at h
  iterate 14
    obtain ⟨hc, rfl⟩ | ⟨hn, h⟩ := ite_some h
    · first | rfl | (exfalso; omega)
  exact absurd h (by simp)

theorem ds2Seq_live {d b : Nat} (hb : b ≤ d) {a : Alg} (h : ds2Seq d b = some a) : a.dead = false := by
  unfold ds2Seq at h
  iterate 14
    obtain ⟨hc, rfl⟩ | ⟨hn, h⟩ := ite_some h
    · first | rfl | (exfalso; omega)
  exact absurd h (by simp)

theorem ioh21_live {v : Problem} {a : Alg} (h : ioh21 v = .ok a) : a.dead = false := by
  simp only [ioh21, frame] at h
  split at h
  · simp only [Sel.ok.injEq] at h; subst h; rfl
  split at h
  · simp only [Sel.ok.injEq] at h; subst h; rfl
  rename_i hk
  split at h
  · rename_i x hx
    simp only [Sel.ok.injEq] at h; subst h
    split at hx
    · rename_i hc
      cases hb : v.budget with
      | none => rw [hb] at hx; simp at hx
      | some b =>
        rw [hb] at hx
        simp only [Bool.and_eq_true, Bool.not_eq_true', decide_eq_true_eq] at hc
        simp only [hc.1.1, hc.2, Env.known, hb, Bool.true_and, Bool.and_true, Bool.not_false, decide_eq_true_eq] at hk
        exact ioh21Seq_live (by omega) hx
    · simp at hx
  · repeat' split at h
    all_goals first | exact base_live h | (simp only [Sel.ok.injEq] at h; subst h; rfl)

theorem ds2_live {v : Problem} {a : Alg} (h : ds2 v = .ok a) : a.dead = false := by
  unfold ds2 at h
  split at h
  · exact ioh21_live h
  rename_i hk
  cases hb : v.budget with
  | none =>
    simp only [frame, hb, Env.known, Option.bind_none, ite_self, Bool.and_false, Bool.false_and, Bool.false_eq_true, if_false] at h
    repeat' split at h
    all_goals first | exact base_live h | (simp only [Sel.ok.injEq] at h; subst h; rfl)
  | some b =>
    simp only [Env.known, hb, decide_eq_true_eq] at hk
    have hk' : b ≤ v.dim := by omega
    simp only [frame] at h
    split at h
    · simp only [Sel.ok.injEq] at h; subst h; rfl
    split at h
    · simp only [Sel.ok.injEq] at h; subst h; rfl
    split at h
    · rename_i x hx
      simp only [Sel.ok.injEq] at h; subst h
      split at hx
      · rw [hb] at hx; exact ds2Seq_live hk' hx
      · simp at hx
    · have n1 : ¬ (b < 1000 * v.dim ∧ 20 * v.dim < b) := by omega
      simp only [Env.known, hb, n1, decide_false, Bool.and_false, Bool.false_and, Bool.false_eq_true, if_false] at h
      split at h
      · rename_i hc
        simp only [Bool.and_eq_true, decide_eq_true_eq] at hc
        omega
      · repeat' split at h
        all_goals first | exact base_live h | (simp only [Sel.ok.injEq] at h; subst h; rfl)

theorem ng39_live {v : Problem} {a : Alg} (h : Sel.ofNG (select39 v.toEnv) = .ok a) : a.dead = false := by
  obtain ⟨x, -, rfl⟩ := ofNG_inj h; rfl

theorem dsrw_live {v : Problem} {r : Bool} {a : Alg} (h : dsrw r v = .ok a) : a.dead = false := by
  simp only [dsrw] at h
  repeat' split at h
  all_goals first
    | exact ds2_live h | exact ng39_live h | (simp only [Sel.ok.injEq] at h; subst h; rfl) | exact absurd h (by simp)

theorem csecTail_live {v : Problem} {l : Nat} {m : Bool} {a : Alg} (h : csecTail v l m = .ok a) : a.dead = false := by
  unfold csecTail at h
  repeat' split at h
  all_goals first
    | exact ioh21_live h | exact ioh4_live h | exact ds2_live h | (simp only [Sel.ok.injEq] at h; subst h; rfl)

/-- `NgIohTuned`, its previous versions and `NgDS2` never use the `DS` algorithms, `MultiDS`, `FCarola6` nor the meta-models of CmaFmin2 and DSproba:
the branches of `NgIoh21` and `NgDS2` which return them cannot be reached. -/
theorem never_used {v : Problem} {a : Alg} (h : csec11 v = .ok a ∨ csec10 v = .ok a ∨ csec v = .ok a ∨ ds2 v = .ok a) : a.dead = false := by
  have hN : ∀ l, csecN l v = .ok a → a.dead = false := by
    intro l h
    unfold csecN at h
    repeat' split at h
    · simp at h
    · rename_i hs
      rw [h] at hs
      unfold csecHead at hs
      repeat' split at hs
      all_goals first
        | exact ds2_live (Option.some.inj hs) | exact ng39_live (Option.some.inj hs) | exact dsrw_live (Option.some.inj hs)
        | (simp only [Option.some.injEq, Sel.ok.injEq] at hs; subst hs; rfl) | exact absurd hs (by simp)
    · exact csecTail_live h
  rcases h with h | h | h | h
  · exact hN _ h
  · exact hN _ h
  · exact csecTail_live h
  · exact ds2_live h

/-! ## Declared problems -/

/-- On problems which are not continuous, CSEC is NgDS2; CSEC10 and CSEC11 too unless the real-world part applies. -/
theorem rough_selection {v : Problem} {b : Nat} (h : v.budget = some b) (hc : v.continuous = false) :
    csec v = ds2 v ∧ (v.realWorld = false → v.hasConstraints = false → (v.isArray = false ∨ v.noise = true) → csec11 v = ds2 v ∧ csec10 v = ds2 v) := by
  constructor
  · simp [csec, csecTail, hc]
  · intro h1 h2 h3
    have : csecHead v b = none := by
      rcases h3 with h3 | h3 <;> simp [csecHead, h1, h2, h3]
    simp [csec11, csec10, csecN, h, this, csecTail, hc]

/-- Arrays of integers without noise. -/
theorem integer_array {v : Problem} {b : Nat} (h : v.budget = some b) (h1 : v.isArray = true) (h2 : v.continuous = false) (h3 : v.noise = false) :
    csec11 v = .ok .geneticDE := by
  unfold csec11 csecN csecHead; simp [h, h1, h2, h3]

/-- Neural problems: the algorithm depends on whether determinism is known or enforced. -/
theorem neural {v : Problem} {b : Nat} (h : v.budget = some b) (h1 : v.realWorld = true) (h2 : v.neural = true) (h3 : v.hasConstraints = false)
    (h4 : v.continuous = true) : csec11 v = .ok (if v.funcDet = true ∨ v.enforceDet = true then .sqopso else .noisyRL2) := by
  unfold csec11 csecN csecHead
  cases e1 : v.funcDet <;> cases e2 : v.enforceDet <;> simp [h, h1, h2, h3, h4]

/-- Real-world continuous problems, otherwise undeclared: NGOpt, unless few evaluations are allowed and the problem is not noisy. -/
theorem real_world {v : Problem} {b : Nat} (h : v.budget = some b) (h1 : v.realWorld = true) (h2 : v.neural = false) (h3 : v.hptuning = false)
    (h4 : v.hasConstraints = false) (h5 : v.continuous = true) (h6 : v.metrizable = true) (h7 : 8 * v.dim ≤ b ∨ v.noise = true) :
    csec11 v = Sel.ofNG (select39 v.toEnv) := by
  unfold csec11 csecN csecHead
  cases e : v.noise with
  | true => simp [h, h1, h2, h3, h4, h5, h6]
  | false =>
    have h7 : 8 * v.dim ≤ b := by rcases h7 with h7 | h7; exact h7; simp [e] at h7
    have k1 : ¬ (v.workers = 1 ∧ b < v.dim) := by omega
    have k2 : ¬ (v.workers ^ 2 < 1 + v.dim ∧ b < 8 * v.dim) := by omega
    simp [h, h1, h2, h3, h4, h5, h6, k1, k2]

/-! ## Concrete cases -/

/-- A deterministic function of `d` continuous variables. -/
def smoothProblem (d b w : Nat) : Problem :=
  { layers := [], funcDet := true, metrizable := true, bounded := false, dim := d, logTerm := 3, budget := some b, workers := w }

example : csec11 (smoothProblem 2 1000 1) = .ok .carola14 := by decide
example : csec11 (smoothProblem 2 600 1) = .ok .multiCMA := by decide
example : csec11 (smoothProblem 10 100 1) = .ok (.known .cobyla) := by decide
example : csec11 (smoothProblem 40 30 1) = .ok .chainMetaModelDSSQP := by decide
example : csec11 (smoothProblem 10 1000 5) = .ok (.known .metaCMA) := by decide
example : csec10 (smoothProblem 2 1000 1) = .ok .carola2 := by decide
example : csec11 { smoothProblem 5 1000 1 with budget := none } = .assertionError := by decide
example : csec11 { smoothProblem 5 300 1 with realWorld := true } = .ok (.known .metaModel) := by decide
example : csec11 { smoothProblem 5 100 1 with realWorld := true, hptuning := true } = .typeError := by decide
example : csec11 { smoothProblem 5 30 1 with realWorld := true, hptuning := true } ≠ .typeError := by decide

end Csec
end NG
