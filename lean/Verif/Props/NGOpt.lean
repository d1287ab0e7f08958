import Verif.Model.NGOpt
import Mathlib.Tactic.Ring
import Mathlib.Tactic.Linarith

/-!
# The algorithm selected by NGOpt
-/

namespace NG
namespace NGOpt

/-! ## What the constructor finds out -/

/-- Noise-free and fully continuous means: no integer variable at all, and a function declared deterministic. -/
theorem smooth_iff (v : Env) : (v.continuous = true ∧ v.noise = false) ↔ v.layers = [] ∧ v.funcDet = true := by
  cases h : v.layers with
  | nil => simp [Env.continuous, Env.noise, h]
  | cons l ls =>
    simp only [Env.continuous, Env.noise, h, List.all_cons, List.any_cons]
    cases l.deterministic <;> simp

theorem foldl_max_ge (l : List Nat) : ∀ a : Int, a ≤ l.foldl (fun (a : Int) (b : Nat) => max a (b : Int)) a := by
  induction l with
  | nil => intro a; exact le_refl _
  | cons x l ih => intro a; exact le_trans (le_max_left _ _) (ih _)

theorem foldl_max_mem (l : List Nat) : ∀ a : Int, ∀ x ∈ l, (x : Int) ≤ l.foldl (fun (a : Int) (b : Nat) => max a (b : Int)) a := by
  induction l with
  | nil => intro a x hx; simp at hx
  | cons y l ih =>
    intro a x hx
    rcases List.mem_cons.1 hx with h | h
    · subst h; exact le_trans (le_max_right _ _) (foldl_max_ge l _)
    · exact ih _ x h

/-- A categorical variable of a deterministic kind, with at least one value, makes the arity positive. -/
theorem arity_pos (v : Env) (l : Layer) (hl : l ∈ v.layers) (hd : l.deterministic = true) (n : Nat) (hn : l.arity = some n) (h0 : 0 < n) :
    (n : Int) ≤ v.arity ∧ 0 < v.arity := by
  have hc : v.continuous = false := by
    simp only [Env.continuous, Bool.not_eq_false', List.any_eq_true]
    exact ⟨l, hl, hd⟩
  have : (n : Int) ≤ v.arity := by
    unfold Env.arity
    rw [hc]
    exact foldl_max_mem _ _ _ (List.mem_filterMap.2 ⟨l, hl, hn⟩)
  exact ⟨this, by omega⟩

theorem continuous_arity (v : Env) (h : v.continuous = true) : v.arity = -1 := by simp [Env.arity, h]

/-! ## A known budget is enough -/

theorem select4_total {v : Env} {b : Nat} (h : v.budget = some b) : ∃ a, select4 v = some a := by
  unfold select4; rw [h]; dsimp only; repeat' split
  all_goals exact ⟨_, rfl⟩

theorem select8_total {v : Env} {b : Nat} (h : v.budget = some b) : ∃ a, select8 v = some a := by
  unfold select8; rw [h]; dsimp only; repeat' split
  all_goals first | exact ⟨_, rfl⟩ | exact select4_total h

theorem select10_total {v : Env} {b : Nat} (h : v.budget = some b) : ∃ a, select10 v = some a := by
  unfold select10; split
  · exact ⟨_, rfl⟩
  · exact select8_total h

theorem select12_total {v : Env} {b : Nat} (h : v.budget = some b) : ∃ a, select12 v = some a := by
  unfold select12; repeat' split
  all_goals first | exact ⟨_, rfl⟩ | exact select10_total h

theorem select14_total {v : Env} {b : Nat} (h : v.budget = some b) : ∃ a, select14 v = some a := by
  unfold select14; split
  · exact ⟨_, rfl⟩
  · exact select12_total h

theorem select15_total {v : Env} {b : Nat} (h : v.budget = some b) : ∃ a, select15 v = some a := by
  unfold select15; repeat' split
  all_goals first | exact ⟨_, rfl⟩ | exact select12_total h

theorem select16_total {v : Env} {b : Nat} (h : v.budget = some b) : ∃ a, select16 v = some a := by
  unfold select16; split
  · exact ⟨_, rfl⟩
  · exact select15_total h

theorem select21_total {v : Env} {b : Nat} (h : v.budget = some b) : ∃ a, select21 v = some a := by
  unfold select21; split
  · exact ⟨_, rfl⟩
  · exact select16_total h

theorem select36_total {v : Env} {b : Nat} (h : v.budget = some b) : ∃ a, select36 v = some a := by
  unfold select36; split
  · exact ⟨_, rfl⟩
  · exact select16_total h

theorem selectBase_total {v : Env} {b : Nat} (h : v.budget = some b) : ∃ a, selectBase v = some a := by
  unfold selectBase; rw [h]; dsimp only; repeat' split
  all_goals exact ⟨_, rfl⟩

/-- With a budget, NGOpt always finds an algorithm. -/
theorem select39_total_partial {v : Env} {b : Nat} (h : v.budget = some b) : ∃ a, select39 v = some a := by
  have h' : v.renewed.budget = some b := h
  unfold select39; repeat' split
  all_goals first
    | exact ⟨_, rfl⟩ | exact select16_total h' | exact select36_total h' | exact select21_total h' | exact select8_total h'
    | exact select15_total h'

/-! ## Without a budget -/

theorem known_none {v : Env} (h : v.budget = none) (test : Nat → Bool) : v.known test = false := by simp [Env.known, h]

/-- Without a budget, the selection fails unless the problem is continuous and noisy, or noise-free with a categorical variable. -/
theorem select39_none {v : Env} (h : v.budget = none) :
    select39 v = none ↔ ¬ (v.continuous = true ∧ v.noise = true) ∧ ¬ (v.noise = false ∧ 0 < v.arity) := by
  have h8 : select8 v.renewed = none := by unfold select8; rw [show v.renewed.budget = none from h]
  have e1 : v.renewed.noise = v.noise := rfl
  have e2 : v.renewed.arity = v.arity := rfl
  unfold select39
  simp only [known_none h, Bool.false_and, Bool.and_false, Bool.false_eq_true, if_false]
  unfold select16 select15 select12 select10
  simp only [known_none (v := v.renewed) h, Bool.false_and, Bool.and_false, Bool.false_eq_true, if_false, h8, e1, e2]
  by_cases c1 : (v.continuous && v.noise) = true
  · simp [c1]
    simp only [Bool.and_eq_true] at c1
    intro h'; exact absurd c1.2 (by simp [h' c1.1])
  · rw [if_neg c1]
    simp only [Bool.and_eq_true] at c1
    by_cases c2 : (!v.noise && decide (0 < v.arity)) = true
    · rw [if_pos c2]
      simp only [Bool.and_eq_true, Bool.not_eq_true', decide_eq_true_eq] at c2
      simp [c2]
    · rw [if_neg c2]
      simp only [Bool.and_eq_true, Bool.not_eq_true', decide_eq_true_eq] at c2
      exact ⟨fun _ => ⟨c1, c2⟩, fun _ => rfl⟩

/-- The claim "`budget=None` is supported" is false for the default optimizer: on the simplest problems (deterministic function of continuous
variables) its first `ask` raises, and returns a copy of the initial point if there is a constraint. -/
theorem no_budget_smooth {v : Env} (h : v.budget = none) (hl : v.layers = []) (hd : v.funcDet = true) :
    firstAsk v false = .raises ∧ firstAsk v true = .initialPoint := by
  obtain ⟨h1, h2⟩ := (smooth_iff v).2 ⟨hl, hd⟩
  have : select39 v = none := by
    rw [select39_none h]
    refine ⟨by simp [h2], ?_⟩
    rw [continuous_arity v h1]; simp
  unfold firstAsk; rw [this]; simp

/-- With a budget `ask` always comes from an algorithm. -/
theorem budget_ask {v : Env} {b : Nat} (h : v.budget = some b) (c : Bool) : ∃ a, firstAsk v c = .point a := by
  obtain ⟨a, ha⟩ := select39_total_partial h
  exact ⟨a, by unfold firstAsk; rw [ha]⟩

/-! ## Parallel use -/

theorem select4_parallel {v : Env} (hw : 1 < v.workers) {a : Alg} (h : select4 v = some a) : a.sequential = false := by
  have h1 : ¬ v.workers = 1 := by omega
  unfold select4 at h
  cases hb : v.budget with
  | none => rw [hb] at h; simp at h
  | some b =>
    rw [hb] at h
    dsimp only at h
    unfold select4Cont at h
    simp only [h1, false_and, if_false, hw, decide_true, Bool.or_true, if_true] at h
    repeat' split at h
    all_goals (simp only [Option.some.injEq] at h; subst h; rfl)

theorem select8_parallel {v : Env} (hw : 1 < v.workers) {a : Alg} (h : select8 v = some a) : a.sequential = false := by
  have h1 : ¬ v.workers = 1 := by omega
  unfold select8 at h
  cases hb : v.budget with
  | none => rw [hb] at h; simp at h
  | some b =>
    rw [hb] at h
    dsimp only at h
    simp only [h1, false_and, and_false, decide_false, Bool.and_false, Bool.false_and, Bool.false_eq_true, if_false] at h
    repeat' split at h
    all_goals first | exact select4_parallel hw h | (simp only [Option.some.injEq] at h; subst h; rfl)

theorem select12_parallel {v : Env} (hw : 1 < v.workers) {a : Alg} (h : select12 v = some a) : a.sequential = false := by
  unfold select12 select10 at h
  repeat' split at h
  all_goals first | exact select8_parallel hw h | (simp only [Option.some.injEq] at h; subst h; rfl)

theorem select14_parallel {v : Env} (hw : 1 < v.workers) {a : Alg} (h : select14 v = some a) : a.sequential = false := by
  unfold select14 at h
  split at h
  · simp only [Option.some.injEq] at h; subst h; rfl
  · exact select12_parallel hw h

theorem select15_parallel {v : Env} (hw : 1 < v.workers) {a : Alg} (h : select15 v = some a) : a.sequential = false := by
  unfold select15 at h
  repeat' split at h
  all_goals first | exact select12_parallel hw h | (simp only [Option.some.injEq] at h; subst h; rfl)

theorem select16_parallel {v : Env} (hw : 1 < v.workers) {a : Alg} (h : select16 v = some a) : a.sequential = false := by
  have h1 : ¬ v.workers = 1 := by omega
  unfold select16 at h
  simp only [h1, decide_false, Bool.and_false, Bool.false_and, Bool.false_eq_true, if_false] at h
  exact select15_parallel hw h

theorem selectBase_parallel {v : Env} (hw : 1 < v.workers) {a : Alg} (h : selectBase v = some a) : a.sequential = false := by
  have h1 : ¬ v.workers = 1 := by omega
  unfold selectBase at h
  cases hb : v.budget with
  | none => rw [hb] at h; simp at h
  | some b =>
    rw [hb] at h
    dsimp only at h
    simp only [h1, false_and, if_false] at h
    repeat' split at h
    all_goals (simp only [Option.some.injEq] at h; subst h; rfl)

/-- With several workers, NGOpt never selects an algorithm which can only run sequentially. -/
theorem select39_parallel {v : Env} (hw : 1 < v.workers) {a : Alg} (h : select39 v = some a) : a.sequential = false := by
  have h1 : ¬ v.workers = 1 := by omega
  have hw' : 1 < v.renewed.workers := hw
  unfold select39 select36 select21 at h
  simp only [h1, and_false, if_false] at h
  repeat' split at h
  all_goals first
    | exact select16_parallel hw' h | exact select15_parallel hw' h | exact select8_parallel hw' h
    | (simp only [Option.some.injEq] at h; subst h; rfl)

/-- With one worker it may. -/
theorem sequential_reached : ∃ v : Env, v.workers = 1 ∧ (select39 v).map Alg.sequential = some true :=
  ⟨⟨[], true, true, true, 2, 2, some 100, 1, 0⟩, rfl, by decide⟩

/-! ## What is selected -/

/-- Noisy continuous problems, whatever the budget and the number of workers. -/
theorem noisy {v : Env} (hc : v.continuous = true) (hn : v.noise = true) : select39 v = some .noisyChain := by
  unfold select39; simp [hc, hn]

/-- Noise-free problems with a categorical variable, whatever the dimension, the number of workers and the budget (even unknown). -/
theorem discrete {v : Env} (hn : v.noise = false) (l : Layer) (hl : l ∈ v.layers) (hd : l.deterministic = true) (n : Nat)
    (ha : l.arity = some n) (h0 : 0 < n) : select39 v = some .lengler := by
  obtain ⟨-, hp⟩ := arity_pos v l hl hd n ha h0
  have hc : v.continuous = false := by
    simp only [Env.continuous, Bool.not_eq_false', List.any_eq_true]
    exact ⟨l, hl, hd⟩
  have e1 : v.renewed.noise = false := hn
  have e2 : v.renewed.continuous = false := hc
  have e3 : 0 < v.renewed.arity := hp
  unfold select39 select16 select15 select12 select10
  simp [hc, e1, e2, e3]

/-- Deterministic, continuous, fully bounded, one worker, at most 50 evaluations per dimension: Cobyla. -/
theorem small_budget {v : Env} (hl : v.layers = []) (hd : v.funcDet = true) (hb : v.bounded = true) (hw : v.workers = 1) {b : Nat}
    (hbud : v.budget = some b) (h1 : 0 < v.dim) (h2 : b ≤ 50 * v.dim) : select39 v = some .cobyla := by
  obtain ⟨hc, hn⟩ := (smooth_iff v).2 ⟨hl, hd⟩
  have e1 : v.renewed.noise = false := hn
  have e2 : v.renewed.continuous = true := hc
  have e3 : v.renewed.workers = 1 := hw
  have e4 : v.renewed.bounded = true := hb
  have e5 : v.renewed.budget = some b := hbud
  have e6 : v.renewed.dim = v.dim := rfl
  have e7 : v.renewed.objectives = 0 := rfl
  unfold select39 select16
  simp only [Env.known, hbud, e5, e6, hc, hn, e1, e2, e3, e4, e7, hw, hb]
  have k1 : ¬ (500 * v.dim < b) := by omega
  have k2 : ¬ (50 * v.dim < b) := by omega
  have k3 : b < 200 * v.dim := by omega
  simp [k1, k2, k3]

theorem cobyla_4c {v : Env} {b : Nat} (h : select4Cont v b = .cobyla) : b < v.dim * 30 := by
  unfold select4Cont at h
  repeat' split at h
  all_goals first | omega | exact absurd h (by simp)

theorem cobyla_4 {v : Env} {b : Nat} (hb : v.budget = some b) (h : select4 v = some .cobyla) : b < v.dim * 30 := by
  unfold select4 at h
  rw [hb] at h
  dsimp only at h
  repeat' split at h
  all_goals first | exact cobyla_4c (Option.some.inj h) | exact absurd h (by simp)

theorem cobyla_8 {v : Env} {b : Nat} (hb : v.budget = some b) (h : select8 v = some .cobyla) : b < v.dim * 30 := by
  have h4 := cobyla_4 (v := v) hb
  unfold select8 at h
  rw [hb] at h
  dsimp only at h
  generalize (!(v.noise && v.continuous && decide (100 < v.dim)) && !(v.noise && v.continuous) && !decide (b < 5 * v.workers)
      && decide (v.workers = 1 ∧ 6000 < b ∧ 7 < v.dim) && decide (v.workers < b)) = c at h
  repeat' split at h
  all_goals first | exact h4 h | exact absurd h (by simp)

/-- Cobyla is only chosen for budgets below `30 d`, or for bounded deterministic continuous single-objective problems solved by one worker. -/
theorem cobyla_16 {v : Env} {b : Nat} (hb : v.budget = some b) (h : select16 v = some .cobyla) : b < v.dim * 30
    ∨ (b < 200 * v.dim ∧ v.bounded = true ∧ v.continuous = true ∧ v.noise = false ∧ v.workers = 1 ∧ v.objectives < 2) := by
  have h8 := cobyla_8 (v := v) hb
  unfold select16 at h
  split at h
  · rename_i hc
    right
    simp only [Env.known, hb, Bool.and_eq_true, decide_eq_true_eq, Bool.not_eq_true'] at hc
    obtain ⟨⟨⟨⟨⟨h1, h2⟩, h3⟩, h4⟩, h5⟩, h6⟩ := hc
    exact ⟨h1, h6, h2, h4, h3, h5⟩
  · left
    unfold select15 select12 select10 at h
    repeat' split at h
    all_goals first | exact h8 h | exact absurd h (by simp)

/-- Is the algorithm a portfolio of copies? -/
def isPortfolio : Alg → Bool
  | .portfolio _ _ => true
  | _ => false

theorem portfolio_4c (v : Env) (b : Nat) : isPortfolio (select4Cont v b) = false := by
  unfold select4Cont; repeat' split
  all_goals rfl

theorem portfolio_4 {v : Env} {a : Alg} (h : select4 v = some a) : isPortfolio a = false := by
  unfold select4 at h
  cases hb : v.budget with
  | none => rw [hb] at h; simp at h
  | some b =>
    rw [hb] at h
    dsimp only at h
    repeat' split at h
    all_goals (simp only [Option.some.injEq] at h; subst h; first | rfl | exact portfolio_4c v b)

theorem portfolio_8 {v : Env} {a : Alg} (h : select8 v = some a) : isPortfolio a = false := by
  unfold select8 at h
  cases hb : v.budget with
  | none => rw [hb] at h; simp at h
  | some b =>
    rw [hb] at h
    dsimp only at h
    generalize (!(v.noise && v.continuous && decide (100 < v.dim)) && !(v.noise && v.continuous) && !decide (b < 5 * v.workers)
        && decide (v.workers = 1 ∧ 6000 < b ∧ 7 < v.dim) && decide (v.workers < b)) = c at h
    repeat' split at h
    all_goals first | exact portfolio_4 h | (simp only [Option.some.injEq] at h; subst h; rfl)

theorem portfolio_15 {v : Env} {a : Alg} (h : select15 v = some a) : isPortfolio a = false := by
  unfold select15 select12 select10 at h
  repeat' split at h
  all_goals first | exact portfolio_8 h | (simp only [Option.some.injEq] at h; subst h; rfl)

theorem portfolio_16 {v : Env} {a : Alg} (h : select16 v = some a) : isPortfolio a = false := by
  unfold select16 at h
  split at h
  · simp only [Option.some.injEq] at h; subst h; rfl
  · exact portfolio_15 h

theorem num36_le {b d : Nat} (hb : 500 * d < b) : 75 * d * (1 + Nat.sqrt ((16 * b) / (d * 1000))) ≤ b := by
  have h1 := Nat.sqrt_le' ((16 * b) / (d * 1000))
  set s := Nat.sqrt ((16 * b) / (d * 1000))
  have h2 : (16 * b) / (d * 1000) * (d * 1000) ≤ 16 * b := Nat.div_mul_le_self _ _
  have h3 : s ^ 2 * (d * 1000) ≤ 16 * b := le_trans (Nat.mul_le_mul_right _ h1) h2
  rcases Nat.lt_or_ge s 6 with h | h
  · have : d * s ≤ d * 5 := Nat.mul_le_mul_left _ (by omega)
    nlinarith
  · have : d * (s * 6) ≤ d * (s * s) := Nat.mul_le_mul_left _ (Nat.mul_le_mul_left _ h)
    nlinarith

theorem num10_le {b d : Nat} (hb : 500 * d < b) : 75 * d * (1 + Nat.sqrt ((64 * b) / (d * 1000))) ≤ b := by
  have h1 := Nat.sqrt_le' ((64 * b) / (d * 1000))
  set s := Nat.sqrt ((64 * b) / (d * 1000))
  have h2 : (64 * b) / (d * 1000) * (d * 1000) ≤ 64 * b := Nat.div_mul_le_self _ _
  have h3 : s ^ 2 * (d * 1000) ≤ 64 * b := le_trans (Nat.mul_le_mul_right _ h1) h2
  rcases Nat.lt_or_ge s 6 with h | h
  · have : d * s ≤ d * 5 := Nat.mul_le_mul_left _ (by omega)
    nlinarith
  · have : d * (s * 6) ≤ d * (s * s) := Nat.mul_le_mul_left _ (Nat.mul_le_mul_left _ h)
    nlinarith

theorem num21_le {b d : Nat} (hb : 500 * d < b) : 75 * d * (1 + (4 * b) / (d * 1000)) ≤ b := by
  have h2 : (4 * b) / (d * 1000) * (d * 1000) ≤ 4 * b := Nat.div_mul_le_self _ _
  nlinarith

/-- When NGOpt runs several copies, there is at least one, and the budget is enough for 75 evaluations per dimension and per copy. -/
theorem portfolio_budget {v : Env} {n : Nat} {sc : Bool} (hd : 0 < v.dim) (h : select39 v = some (.portfolio n sc)) :
    ∃ b, v.budget = some b ∧ 0 < n ∧ 75 * v.dim * n ≤ b ∧ v.bounded = true ∧ v.layers = [] ∧ v.funcDet = true := by
  unfold select39 at h
  split at h
  · simp at h
  split at h
  · rename_i hcond
    simp only [Bool.and_eq_true, Bool.not_eq_true', decide_eq_true_eq] at hcond
    obtain ⟨⟨⟨⟨⟨hk, hc⟩, hn⟩, -⟩, hp⟩, hbd⟩ := hcond
    cases hbud : v.budget with
    | none => simp [Env.known, hbud] at hk
    | some b =>
      simp only [Env.known, hbud, decide_eq_true_eq] at hk
      have hs := (smooth_iff v).1 ⟨hc, hn⟩
      refine ⟨b, rfl, ?_⟩
      suffices hh : 0 < n ∧ 75 * v.dim * n ≤ b from ⟨hh.1, hh.2, hbd, hs.1, hs.2⟩
      have r1 : v.renewed.num36 = 1 + Nat.sqrt ((16 * b) / (v.dim * 1000)) := by simp [Env.num36, Env.renewed, hbud]
      have r2 : v.renewed.num21 = 1 + (4 * b) / (v.dim * 1000) := by simp [Env.num21, Env.renewed, hbud]
      split at h
      · exact absurd (portfolio_16 h) (by simp [isPortfolio])
      split at h
      · unfold select36 at h
        split at h
        · simp only [Option.some.injEq, Alg.portfolio.injEq] at h
          rw [← h.1, r1]; exact ⟨by omega, num36_le hk⟩
        · exact absurd (portfolio_16 h) (by simp [isPortfolio])
      split at h
      · unfold select21 at h
        split at h
        · simp only [Option.some.injEq, Alg.portfolio.injEq] at h
          rw [← h.1, r2]; exact ⟨Nat.add_pos_left Nat.one_pos _, num21_le hk⟩
        · exact absurd (portfolio_16 h) (by simp [isPortfolio])
      split at h
      · simp only [Option.some.injEq, Alg.portfolio.injEq] at h
        rw [← h.1]; simp only [Env.numDim10, hbud]; exact ⟨by omega, num10_le hk⟩
      split at h
      · simp only [Option.some.injEq, Alg.portfolio.injEq] at h
        rw [← h.1]; simp only [Env.numDim20, hbud]
        have h5 : 0 < 500 * v.dim := Nat.mul_pos (by decide) hd
        have h6 : b / (500 * v.dim) * (500 * v.dim) ≤ b := Nat.div_mul_le_self _ _
        refine ⟨Nat.div_pos hk.le h5, ?_⟩
        nlinarith
      split at h
      · simp at h
      · exact absurd (portfolio_16 h) (by simp [isPortfolio])
  split at h
  · split at h
    · exact absurd (portfolio_8 h) (by simp [isPortfolio])
    split at h
    · simp at h
    · exact absurd (portfolio_15 h) (by simp [isPortfolio])
  · exact absurd (portfolio_16 h) (by simp [isPortfolio])

/-- Several objectives: the algorithm becomes DE exactly when the function is declared deterministic. -/
theorem multiobjective (v : Env) (k : Nat) (hk : 1 < k) (cur : Option Alg) :
    callback v k cur = if v.funcDet then some .de else cur := by
  unfold callback
  rw [if_pos hk]
  unfold Env.noiseFromInstr Env.noise
  cases v.funcDet <;> cases v.layers.all (fun l => l.deterministic) <;> rfl

/-- One objective: nothing changes. -/
theorem single_objective (v : Env) (cur : Option Alg) : callback v 1 cur = cur := rfl

/-! ## Concrete cases -/

example : select39 ⟨[], true, true, true, 2, 2, some 100, 1, 0⟩ = some .cobyla := by decide
example : select39 ⟨[], true, true, true, 12, 7, some 30000, 4, 0⟩ = some (.portfolio 5 true) := by decide
example : select39 ⟨[], true, true, false, 2, 2, some 100, 1, 0⟩ = some .metaModel := by decide
example : select39 ⟨[⟨true, some 3, false⟩], true, true, false, 5, 4, none, 7, 0⟩ = some .lengler := by decide
example : select39 ⟨[], true, true, false, 2, 2, none, 1, 0⟩ = none := by decide

end NGOpt
end NG
