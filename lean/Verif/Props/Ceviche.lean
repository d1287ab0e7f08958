/-
C151: the problems of photonics with simulated fields: what is returned, when something is simulated, and what depends on the calls before.
-/
import Verif.Model.Ceviche
import Mathlib.Tactic.Linarith
import Mathlib.Tactic.NormNum

namespace NG.Ceviche

variable {L G F : Type} (sim : Nat → List ℚ → L × F) (grad : Nat → List ℚ → G)

/-- Specification: the benchmarks that exist, with the shape of their designs. -/
def Exists (b : Nat) (s : List Nat) : Prop := (b = 0 ∧ s = [45, 45]) ∨ (b = 2 ∧ s = [30, 30])

theorem exists_iff (b : Nat) (s : List Nat) : designShape b = some s ↔ Exists b s := by
  unfold designShape Exists
  by_cases h2 : b = 2
  · subst h2; simp [eq_comm]
  · by_cases h0 : b = 0
    · subst h0; simp [eq_comm]
    · simp [h2, h0]

/-- **C151.** Asked without a design, a benchmark gives the shape of its designs; a design of this shape is evaluated, one of another shape is refused
without any simulation. -/
theorem shape_query (first : Bool) (b : Nat) (s : List Nat) (h : Exists b s) :
    (call sim grad first .nothing b false false false).1 = .shape s ∧
      (∀ l, (call sim grad first (.array s l) b false false false) = (.loss (sim b l).1, [l], false)) ∧
      ∀ s' l g f, s' ≠ s → call sim grad first (.array s' l) b false g f = (.error .assertion, [], first) := by
  have e := (exists_iff b s).2 h
  refine ⟨?_, ?_, ?_⟩
  · simp [call, e, discretized]
  · intro l
    simp [call, e, discretized]
  · intro s' l g f hs
    simp [call, e, discretized, hs]

/-- **C151.** The loss is the same whether the gradient or the fields are asked as well; with the fields the design is simulated twice. -/
theorem same_loss (first : Bool) (b : Nat) (s : List Nat) (h : Exists b s) (l : List ℚ) :
    call sim grad first (.array s l) b false true false = (.lossGrad (sim b l).1 (grad b l), [l], false) ∧
      call sim grad first (.array s l) b false false true = (.lossFields (sim b l).1 (sim b l).2, [l, l], false) ∧
      call sim grad first (.array s l) b false true true = (.error .assertion, [l], false) := by
  have e := (exists_iff b s).2 h
  simp [call, e, discretized]

/-- **C151.** The benchmarks that exist do not depend on the calls before, whatever the arguments. -/
theorem no_history (first : Bool) (b : Nat) (s : List Nat) (h : Exists b s) (x : X) (d g f : Bool) :
    (call sim grad first x b d g f).1 = (call sim grad true x b d g f).1 ∧ (call sim grad first x b d g f).2.1 = (call sim grad true x b d g f).2.1 := by
  have e := (exists_iff b s).2 h
  unfold call
  simp only [e, reduceCtorEq, and_false, if_false]
  cases hd : discretized d x with
  | none => simp
  | some y => cases y with
    | nothing => simp
    | name => simp
    | text => simp
    | array s' l =>
      dsimp only
      split
      · exact ⟨rfl, rfl⟩
      · split
        · exact ⟨rfl, rfl⟩
        · split
          · exact ⟨rfl, rfl⟩
          · split <;> exact ⟨rfl, rfl⟩

/-- **C151.** After any sequence of calls, a benchmark that exists gives what it gives at first. -/
theorem after_calls (calls : List Args) (b : Nat) (s : List Nat) (h : Exists b s) (x : X) (d g f : Bool) :
    (call sim grad (run sim grad calls) x b d g f).1 = (call sim grad true x b d g f).1 := (no_history sim grad _ b s h x d g f).1

theorem flag (first : Bool) (a : Args) :
    (call sim grad first a.x a.benchmark a.discretize a.wantgrad a.wantfields).2.2 =
      if (call sim grad first a.x a.benchmark a.discretize a.wantgrad a.wantfields).2.1 = [] then first else false := by
  unfold call
  split
  · rfl
  · split
    · rfl
    · rfl
    · rfl
    · rfl
    · split
      · rfl
      · split
        · rfl
        · split
          · rfl
          · split
            · rfl
            · split <;> rfl

/-- **C151.** The global changes exactly with the first call that simulates something. -/
theorem flag_run (calls : List Args) :
    run sim grad calls = true ↔ ∀ a ∈ calls, ∀ first, (call sim grad first a.x a.benchmark a.discretize a.wantgrad a.wantfields).2.1 = [] ∨ first = false := by
  unfold run
  have key : ∀ (cs : List Args), cs.foldl (fun first a => (call sim grad first a.x a.benchmark a.discretize a.wantgrad a.wantfields).2.2) false = false := by
    intro cs
    induction cs with
    | nil => rfl
    | cons a cs ih =>
      rw [List.foldl_cons, flag]
      simp only [ite_self]
      exact ih
  induction calls with
  | nil => simp
  | cons a cs ih =>
    rw [List.foldl_cons, flag]
    by_cases h : (call sim grad true a.x a.benchmark a.discretize a.wantgrad a.wantfields).2.1 = []
    · rw [if_pos h]
      refine Iff.trans ih ?_
      constructor
      · intro hc c hm first
        rcases List.mem_cons.1 hm with rfl | hm
        · cases first
          · exact Or.inr rfl
          · exact Or.inl h
        · exact hc c hm first
      · intro hc c hm
        exact hc c (List.mem_cons_of_mem _ hm)
    · rw [if_neg h, key]
      constructor
      · intro hf; cases hf
      · intro hc
        rcases hc a (by simp) true with h' | h'
        · exact absurd h' h
        · cases h'

/-- **C151, negative.** The two benchmarks that are announced but do not exist depend on the calls before: at first nothing is returned, later the name is, and
a design makes an error about a variable of the code. -/
theorem missing_history (b : Nat) (hb : b = 1 ∨ b = 3) (s : List Nat) (l : List ℚ) (g f : Bool) :
    (call sim grad true .name b false g f).1 = .undefined ∧ (call sim grad false .name b false g f).1 = .title b ∧
      (call sim grad true (.array s l) b false g f).1 = .undefined ∧ (call sim grad false (.array s l) b false g f).1 = .error .unbound := by
  rcases hb with rfl | rfl <;> simp [call, designShape, discretized]

/-- **C151, negative.** With `discretize` neither the name nor the shape can be asked. -/
theorem discretize_query (first : Bool) (b : Nat) (s : List Nat) (h : Exists b s) (g f : Bool) :
    (call sim grad first .name b true g f).1 = .error .type ∧ (call sim grad first .nothing b true g f).1 = .error .type := by
  have e := (exists_iff b s).2 h
  simp [call, e, discretized]

/-- **C151, partial.** Entries between 0 and 1 are discretized into 0 or 1, by comparison to one half. Missing: other entries (`round_outside`). -/
theorem round_partial (q : ℚ) (h0 : 0 ≤ q) (h1 : q ≤ 1) : npRound q = if 1 / 2 < q then 1 else 0 := by
  rcases h1.lt_or_eq with h | rfl
  · have hf : ⌊q⌋ = 0 := Int.floor_eq_iff.2 ⟨by simpa using h0, by simpa using h⟩
    unfold npRound
    rw [hf]
    simp only [Int.cast_zero, sub_zero, zero_add, Int.zero_emod, if_true]
    by_cases h2 : q < 1 / 2
    · rw [if_pos h2, if_neg (by linarith)]
    · rw [if_neg h2]
  · decide +kernel

/-- **C151, negative.** Entries outside of the unit interval give designs with other values than 0 and 1. -/
theorem round_outside (k : ℤ) : npRound k = k := by
  simp [npRound]

/-- **C151.** Discretizing twice is discretizing once, and what is discretized is at most one half away. -/
theorem round_near (q : ℚ) : npRound (npRound q : ℚ) = npRound q ∧ |(npRound q : ℚ) - q| ≤ 1 / 2 := by
  refine ⟨round_outside _, ?_⟩
  have h1 := Int.floor_le q
  have h2 := Int.lt_floor_add_one q
  unfold npRound
  rw [abs_le]
  split
  · constructor <;> linarith
  · split
    · push_cast; constructor <;> linarith
    · split
      · constructor <;> linarith
      · push_cast; constructor <;> linarith

/-- **C151.** A discretized call evaluates the rounded design, and nothing else. -/
theorem discretized_call (first : Bool) (b : Nat) (s : List Nat) (l : List ℚ) (g f : Bool) :
    call sim grad first (.array s l) b true g f = call sim grad first (.array s (l.map fun q => (npRound q : ℚ))) b false g f := by
  simp [call, discretized]

example : npRound (1 / 2) = 0 ∧ npRound (3 / 2) = 2 ∧ npRound (-7 / 10) = -1 ∧ npRound (51 / 100) = 1 := by decide +kernel

/-- Witness: a bend of one material, with the number of cells as loss. -/
example : (call (fun _ l => (l.length, ())) (fun _ _ => ()) true (.array [45, 45] (List.replicate 2025 1)) 0 false false false).1 = .loss 2025 := by
  have := (shape_query (fun _ (l : List ℚ) => (l.length, ())) (fun _ _ => ()) true 0 [45, 45] (Or.inl ⟨rfl, rfl⟩)).2.1 (List.replicate 2025 1)
  rw [this, List.length_replicate]

end NG.Ceviche
