import Verif.Model.GymRuns

/-!
# C168: the experiments on gym environments
-/

namespace NG
namespace GymRuns

/-- The prefixes of controllers without memory. -/
def prefixes : List String := ["", "noisy_", "noisy_scrambled_", "resid_"]

/-- The sizes of controllers. -/
def sizes : List String := ["", "deep_", "semideep_"]

/-- The controllers of the benchmarks: one action sequence if conformant, otherwise networks with a memory, structured networks, one network per time step, a big residual network, or all
sizes of all kinds of networks and one with a memory. -/
def Control (o : Opts) (c : String) : Prop :=
  if o.conformant then c = "stochastic_conformant"
  else if o.memory then ∃ s ∈ sizes, ∃ m ∈ ["memory", "stackingmemory", "extrapolatestackingmemory"], c = s ++ m ++ "_neural"
  else if o.structured then c = "neural" ∨ c = "structured_neural"
  else if o.multi then c = "multi_neural"
  else if o.big then c = "resid_neural"
  else c = "stackingmemory_neural" ∨ ∃ p ∈ prefixes, ∃ s ∈ sizes, c = p ++ s ++ "neural"

theorem mem_same {α : Type} [DecidableEq α] {l l' : List α} (h : (∀ x ∈ l, x ∈ l') ∧ ∀ x ∈ l', x ∈ l) (c : α) : c ∈ l ↔ c ∈ l' := ⟨h.1 c, h.2 c⟩

/-- The controllers tried by `ng_full_gym`. -/
theorem controls_iff (o : Opts) (c : String) : c ∈ controls o ↔ Control o c := by
  unfold controls Control
  cases o.conformant with
  | true => simp
  | false =>
    cases o.memory with
    | true =>
      simp only [Bool.false_eq_true, if_false, if_true]
      rw [mem_same (l' := sizes.flatMap fun s => ["memory", "stackingmemory", "extrapolatestackingmemory"].map fun m => s ++ m ++ "_neural") (by decide +kernel)]
      simp only [List.mem_flatMap, List.mem_map, eq_comm]
    | false =>
      cases o.structured with
      | true => simp
      | false =>
        cases o.multi with
        | true => simp
        | false =>
          cases o.big with
          | true => simp
          | false =>
            simp only [Bool.false_eq_true, if_false, Bool.not_false, if_true]
            rw [mem_same (l' := "stackingmemory_neural" :: prefixes.flatMap fun p => sizes.map fun s => p ++ s ++ "neural") (by decide +kernel)]
            simp only [List.mem_cons, List.mem_flatMap, List.mem_map, eq_comm]

theorem within_iff (t : List Char) : ∀ s : List Char, within t s = true ↔ t <:+: s
  | [] => by simp [within, List.isEmpty_iff]
  | c :: s => by simp only [within, Bool.or_eq_true, List.isPrefixOf_iff_prefix, within_iff t s, List.infix_cons_iff]

/-- The sizes of the networks: none if conformant, 1 with a memory, 3 if big, 1 if small or tiny, from 1 to 3 otherwise. -/
def Factor (o : Opts) (c : String) (f : Option Nat) : Prop :=
  if o.conformant then f = none
  else ∃ n, f = some n ∧ 1 ≤ n ∧ n ≤ 3 ∧ ("memory".toList <:+: c.toList → n = 1) ∧
    (¬ "memory".toList <:+: c.toList → (o.big = true → n = 3) ∧ (o.big = false → o.small = true ∨ o.tiny = true → n = 1))

theorem control_ne_linear (o : Opts) (c : String) (h : c ∈ controls o) : c ≠ "linear" := by
  rintro rfl
  revert h
  unfold controls
  cases o.conformant <;> cases o.memory <;> cases o.structured <;> cases o.multi <;> cases o.big <;> decide +kernel

theorem factors_iff (o : Opts) (c : String) (hc : c ∈ controls o) (f : Option Nat) : f ∈ factors o c ↔ Factor o c f := by
  have hl := control_ne_linear o c hc
  unfold factors Factor
  cases o.conformant with
  | true => simp
  | false =>
    simp only [Bool.false_or, beq_iff_eq, hl, if_false, Bool.false_eq_true]
    by_cases hm : within "memory".toList c.toList = true
    · rw [if_pos hm]
      rw [within_iff] at hm
      simp only [hm, not_true_eq_false, List.mem_singleton]
      constructor
      · rintro rfl; exact ⟨1, rfl, by simp⟩
      · rintro ⟨n, rfl, -, -, h, -⟩; rw [h trivial]
    · rw [if_neg hm]
      rw [within_iff] at hm
      simp only [hm, not_false_eq_true]
      cases o.big with
      | true =>
        simp only [if_true, List.mem_singleton]
        constructor
        · rintro rfl; exact ⟨3, rfl, by simp⟩
        · rintro ⟨n, rfl, -, -, -, h⟩; rw [(h trivial).1 trivial]
      | false =>
        simp only [Bool.false_eq_true, if_false]
        by_cases ht : (o.tiny || o.small) = true
        · rw [if_pos ht]
          have ht' : o.small = true ∨ o.tiny = true := by
            rw [Bool.or_eq_true] at ht
            exact ht.symm
          simp only [List.mem_singleton]
          constructor
          · rintro rfl; exact ⟨1, rfl, by simp⟩
          · rintro ⟨n, rfl, -, -, -, h⟩; rw [(h trivial).2 trivial ht']
        · rw [if_neg ht]
          have ht' : ¬ (o.small = true ∨ o.tiny = true) := by
            rintro (h | h) <;> simp [h] at ht
          simp only [ht', List.mem_cons, List.not_mem_nil, or_false]
          constructor
          · rintro (rfl | rfl | rfl)
            · exact ⟨1, rfl, by simp⟩
            · exact ⟨2, rfl, by simp⟩
            · exact ⟨3, rfl, by simp⟩
          · rintro ⟨n, rfl, h1, h3, -, -⟩
            have : n = 1 ∨ n = 2 ∨ n = 3 := by omega
            simpa using this

/-- The environments: all that can be made, or one of two lists. -/
def Environment (o : Opts) (w : World) (n : String) : Prop :=
  if o.gp then n ∈ gpNames else if o.ngGym then n ∈ ngGymNames else n ∈ w.names

/-- The functions of a benchmark. -/
def Function (o : Opts) (w : World) (f : Func) : Prop :=
  Control o f.control ∧ Factor o f.control f.factor ∧ Environment o w f.name ∧ f.randomized = o.randomized ∧ f.greedy = false
    ∧ (f.scale = 0 ∨ (o.multiScale = true ∧ (f.scale = -2 ∨ f.scale = -4 ∨ f.scale = -6)))
    ∧ (f.sparse = none ∨ (o.sparse = true ∧ ∃ k ∈ [1, 2, 3], f.sparse = some (10 ^ k)))

theorem scales_iff (m : Bool) (s : Int) : s ∈ scales m ↔ s = 0 ∨ (m = true ∧ (s = -2 ∨ s = -4 ∨ s = -6)) := by
  cases m <;> simp [scales] <;> omega

theorem sparse_iff (o : Opts) (l : Option Nat) : l ∈ sparseLimits o ↔ l = none ∨ (o.sparse = true ∧ ∃ k ∈ [1, 2, 3], l = some (10 ^ k)) := by
  unfold sparseLimits
  cases o.sparse <;> simp

theorem envNames_iff (o : Opts) (w : World) (n : String) : n ∈ envNames o w ↔ Environment o w n := by
  unfold envNames Environment
  cases o.gp <;> cases o.ngGym <;> simp

theorem candidates_iff (o : Opts) (w : World) (f : Func) : f ∈ candidates o w ↔ Function o w f := by
  obtain ⟨n, c, k, r, s, l, g⟩ := f
  simp only [candidates, Function, List.mem_flatMap, List.mem_map, Func.mk.injEq]
  constructor
  · rintro ⟨c', hc, k', hk, n', hn, l', hl, s', hs, rfl, rfl, rfl, rfl, rfl, rfl, rfl⟩
    exact ⟨(controls_iff o _).1 hc, (factors_iff o _ hc _).1 hk, (envNames_iff o w _).1 hn, rfl, rfl, (scales_iff _ _).1 hs, (sparse_iff o _).1 hl⟩
  · rintro ⟨hc, hk, hn, rfl, rfl, hs, hl⟩
    have hc' := (controls_iff o c).2 hc
    exact ⟨c, hc', k, (factors_iff o c hc' k).2 hk, n, (envNames_iff o w n).2 hn, l, (sparse_iff o l).2 hl, s, (scales_iff _ s).2 hs, rfl, rfl, rfl, rfl, rfl, rfl, rfl⟩

theorem runs_mem (fs : List Func) (budgets : List Nat) (optims : List String) (f : Func) (b : Nat) (a : String) :
    (∃ s, (⟨f, b, a, s⟩ : Run) ∈ runs fs budgets optims) ↔ f ∈ fs ∧ b ∈ budgets ∧ a ∈ optims := by
  have h1 : (∃ s, (⟨f, b, a, s⟩ : Run) ∈ runs fs budgets optims) ↔
      (f, b, a) ∈ fs.flatMap fun f => budgets.flatMap fun b => optims.map fun a => (f, b, a) := by
    generalize hl : (fs.flatMap fun f => budgets.flatMap fun b => optims.map fun a => (f, b, a)) = l
    unfold runs
    rw [hl]
    constructor
    · rintro ⟨s, h⟩
      obtain ⟨⟨⟨f', b', a'⟩, i⟩, hp, h⟩ := List.mem_map.1 h
      simp only [Run.mk.injEq] at h
      obtain ⟨rfl, rfl, rfl, rfl⟩ := h
      exact List.mem_of_getElem? (List.mem_zipIdx_iff_getElem?.1 hp)
    · intro h
      obtain ⟨i, hi⟩ := List.mem_iff_getElem?.1 h
      exact ⟨i, List.mem_map.2 ⟨((f, b, a), i), List.mem_zipIdx_iff_getElem?.2 hi, rfl⟩⟩
  rw [h1]
  simp only [List.mem_flatMap, List.mem_map, Prod.mk.injEq]
  constructor
  · rintro ⟨f', hf, b', hb, a', ha, rfl, rfl, rfl⟩; exact ⟨hf, hb, ha⟩
  · rintro ⟨hf, hb, ha⟩; exact ⟨f, hf, b, hb, a, ha, rfl, rfl, rfl⟩

theorem runs_seeds (fs : List Func) (budgets : List Nat) (optims : List String) : (runs fs budgets optims).Pairwise (fun r r' => r.seed < r'.seed) := by
  unfold runs
  rw [List.pairwise_map, List.pairwise_iff_getElem]
  intro i j hi hj hij
  simpa using hij

/-- The budgets, in view of the variable `MAX_GYM_BUDGET`. -/
theorem budgets_iff (w : World) (l l' : List Nat) (h : budgetModifier w l = some l') (b : Nat) :
    b ∈ l' ↔ b ∈ l ∧ ∀ m, w.maxBudget = some (some m) → (b : Int) < m := by
  unfold budgetModifier at h
  split at h
  · rename_i hm; cases h; simp [hm]
  · cases h
  · rename_i m hm
    cases h
    simp [hm]

/-- **C168**: the experiments of `ng_full_gym` and of all benchmarks made from it. -/
theorem fullGym_iff (o : Opts) (w : World) (rs : List Run) (h : fullGym o w = some rs) (f : Func) (b : Nat) (a : String) :
    (∃ s, (⟨f, b, a, s⟩ : Run) ∈ rs) ↔
      Function o w f ∧ w.memoryError f = false ∧ b ∈ [25, 50, 100, 200, 400] ∧ (∀ m, w.maxBudget = some (some m) → (b : Int) < m) ∧ a ∈ fullOptims
        ∧ (o.small = true → w.dim f ≤ 40) ∧ (o.tiny = true → w.dim f ≤ 20) ∧ w.incoherent f a b = false := by
  unfold fullGym at h
  split at h
  · cases h
  split at h
  · cases h
  obtain ⟨bs, hb, rfl⟩ := Option.map_eq_some_iff.1 h
  have hy : ∀ s, yielded o w ⟨f, b, a, s⟩ = true ↔ (o.small = true → w.dim f ≤ 40) ∧ (o.tiny = true → w.dim f ≤ 20) ∧ w.incoherent f a b = false := by
    intro s
    unfold yielded
    cases o.small <;> cases o.tiny <;> simp
    tauto
  have hbs : b ∈ bs ↔ b ∈ [25, 50, 100, 200, 400] ∧ ∀ m, w.maxBudget = some (some m) → (b : Int) < m := by
    rw [budgets_iff w _ _ hb]
    have : b ∈ [50, 200, 100, 25, 400] ↔ b ∈ [25, 50, 100, 200, 400] := mem_same (by decide) b
    rw [this]
  have hf : f ∈ funcs o w ↔ Function o w f ∧ w.memoryError f = false := by
    unfold funcs
    rw [List.mem_filter, candidates_iff]
    simp
  have hr := runs_mem (funcs o w) bs fullOptims f b a
  rw [hf, hbs] at hr
  constructor
  · rintro ⟨s, hs⟩
    obtain ⟨h1, h2⟩ := List.mem_filter.1 hs
    obtain ⟨⟨x1, x2⟩, ⟨x3, x4⟩, x5⟩ := hr.1 ⟨s, h1⟩
    exact ⟨x1, x2, x3, x4, x5, (hy s).1 h2⟩
  · rintro ⟨x1, x2, x3, x4, x5, x6⟩
    obtain ⟨s, hs⟩ := hr.2 ⟨⟨x1, x2⟩, ⟨x3, x4⟩, x5⟩
    exact ⟨s, List.mem_filter.2 ⟨hs, (hy s).2 x6⟩⟩

/-- It raises exactly if two lists of environments are asked for, if networks with memory are asked for at each time step, or if the variable is no integer. -/
theorem fullGym_raises (o : Opts) (w : World) :
    fullGym o w = none ↔ (o.ngGym = true ∧ o.gp = true) ∨ (o.memory = true ∧ o.multi = true) ∨ w.maxBudget = some none := by
  unfold fullGym budgetModifier
  by_cases h1 : (o.ngGym && o.gp) = true
  · rw [if_pos h1]; simp at h1; simp [h1]
  · by_cases h2 : (o.memory && o.multi) = true
    · rw [if_neg h1, if_pos h2]; simp at h2; simp [h2]
    · rw [if_neg h1, if_neg h2]
      have h1' : ¬ (o.ngGym = true ∧ o.gp = true) := by simpa using h1
      have h2' : ¬ (o.memory = true ∧ o.multi = true) := by simpa using h2
      rcases hm : w.maxBudget with _ | _ | m <;> simp [h1', h2']

/-- **C168**: no two experiments of a benchmark share a seed. -/
theorem seeds_differ (o : Opts) (w : World) (rs : List Run) (h : fullGym o w = some rs) : rs.Pairwise (fun r r' => r.seed < r'.seed) := by
  unfold fullGym at h
  split at h
  · cases h
  split at h
  · cases h
  obtain ⟨bs, hb, rfl⟩ := Option.map_eq_some_iff.1 h
  exact (runs_seeds _ _ _).filter _

/-- **C168**: the assertions of `GymMulti` hold for all functions of a benchmark, if sparse networks are not combined with conformant or structured ones. -/
theorem accepted_all (o : Opts) (w : World) (h : o.sparse = true → o.conformant = false ∧ (o.structured = true → o.memory = true)) : ∀ f ∈ candidates o w, accepted f = true := by
  intro f hf
  obtain ⟨n, c, k, r, s, l, g⟩ := f
  simp only [candidates, List.mem_flatMap, List.mem_map, Func.mk.injEq] at hf
  obtain ⟨c', hc, k', hk, n', hn, l', hl, s', hs, rfl, rfl, rfl, rfl, rfl, rfl, rfl⟩ := hf
  have key : ∀ x ∈ controls o, (controllers.contains x || x == "conformant") = true
      ∧ (within "conformant".toList x.toList || x == "linear") = o.conformant
      ∧ (o.conformant = false → (o.structured = true → o.memory = true) → within "structured".toList x.toList = false) := by
    unfold controls
    cases o.conformant <;> cases o.memory <;> cases o.structured <;> cases o.multi <;> cases o.big <;> decide +kernel
  obtain ⟨k1, k2, k3⟩ := key _ hc
  have hk' := (factors_iff o _ hc _).1 hk
  unfold Factor at hk'
  have hs' := (sparse_iff o l').1 hl
  unfold accepted
  simp only
  rw [k1, k2]
  cases hcf : o.conformant with
  | true =>
    rw [hcf] at hk'
    simp only [if_true] at hk'
    subst hk'
    have : l' = none := by
      rcases hs' with h1 | ⟨h1, -⟩
      · exact h1
      · rw [(h h1).1] at hcf; cases hcf
    subst this
    simp
  | false =>
    rw [hcf] at hk'
    simp only [Bool.false_eq_true, if_false] at hk'
    obtain ⟨m, rfl, -⟩ := hk'
    rcases hs' with h1 | ⟨h1, -⟩
    · subst h1; simp
    · have k4 := k3 hcf (h h1).2
      have k5 : within "conformant".toList c'.toList = false := by
        rw [hcf] at k2
        exact (Bool.or_eq_false_iff.1 k2).1
      rw [k4, k5]; simp

/-- The benchmarks that are registered. -/
def registered : List Opts :=
  [{}, multiNgFullGym, multiStructured, conformantFull, ngGymOpts, gpOpts, conformantGp, sparseGp, stacking, bigMulti, deterministic, tinyDeterministic, smallDeterministic]

/-- All registered benchmarks make their functions and experiments, for every world in which the variable is an integer or absent. -/
theorem registered_defined (o : Opts) (ho : o ∈ registered) (w : World) (hw : w.maxBudget ≠ some none) :
    (∃ rs, fullGym o w = some rs) ∧ ∀ f ∈ candidates o w, accepted f = true := by
  have h : (o.sparse = true → o.conformant = false ∧ (o.structured = true → o.memory = true)) ∧ ¬ (o.ngGym = true ∧ o.gp = true) ∧ ¬ (o.memory = true ∧ o.multi = true) := by
    revert o; unfold registered; simp [multiNgFullGym, multiStructured, conformantFull, ngGymOpts, gpOpts, conformantGp, sparseGp, stacking, bigMulti, deterministic,
      tinyDeterministic, smallDeterministic]
  refine ⟨?_, accepted_all o w h.1⟩
  cases hf : fullGym o w with
  | some rs => exact ⟨rs, rfl⟩
  | none =>
    rcases (fullGym_raises o w).1 hf with h1 | h1 | h1
    · exact absurd h1 h.2.1
    · exact absurd h1 h.2.2
    · exact absurd h1 hw

/-- What the names of the benchmarks promise. -/
theorem benchmarks_keep (w : World) (f : Func) :
    (Function multiNgFullGym w f → f.control = "multi_neural") ∧ (Function conformantFull w f → f.control = "stochastic_conformant" ∧ f.factor = none)
      ∧ (Function ngGymOpts w f → f.name ∈ ngGymNames) ∧ (Function gpOpts w f → f.name ∈ gpNames)
      ∧ (Function conformantGp w f → f.control = "stochastic_conformant" ∧ f.name ∈ gpNames) ∧ (Function stacking w f → f.name ∈ ngGymNames ∧ f.factor = some 1)
      ∧ (Function bigMulti w f → f.control = "resid_neural" ∧ f.factor = some 3) ∧ (Function deterministic w f → f.randomized = false)
      ∧ (Function tinyDeterministic w f → f.randomized = false ∧ f.factor = some 1) ∧ (Function smallDeterministic w f → f.randomized = false ∧ f.factor = some 1) := by
  refine ⟨fun h => ?_, fun h => ?_, fun h => ?_, fun h => ?_, fun h => ?_, fun h => ?_, fun h => ?_, fun h => ?_, fun h => ?_, fun h => ?_⟩
  · simpa [Control, multiNgFullGym] using h.1
  · exact ⟨by simpa [Control, conformantFull] using h.1, by simpa [Factor, conformantFull] using h.2.1⟩
  · simpa [Environment, ngGymOpts] using h.2.2.1
  · simpa [Environment, gpOpts] using h.2.2.1
  · exact ⟨by simpa [Control, conformantGp] using h.1, by simpa [Environment, conformantGp] using h.2.2.1⟩
  · refine ⟨by simpa [Environment, stacking] using h.2.2.1, ?_⟩
    have hc := (controls_iff stacking f.control).2 h.1
    have hk := (factors_iff stacking f.control hc f.factor).2 h.2.1
    have : ∀ c ∈ controls stacking, factors stacking c = [some 1] := by decide +kernel
    rw [this _ hc] at hk
    simpa using hk
  · have hc : f.control = "resid_neural" := by simpa [Control, bigMulti] using h.1
    have hk := (factors_iff bigMulti f.control ((controls_iff _ _).2 h.1) f.factor).2 h.2.1
    rw [hc] at hk
    have : factors bigMulti "resid_neural" = [some 3] := by decide +kernel
    rw [this] at hk
    exact ⟨hc, by simpa using hk⟩
  · exact h.2.2.2.1
  · refine ⟨h.2.2.2.1, ?_⟩
    have hc := (controls_iff tinyDeterministic f.control).2 h.1
    have hk := (factors_iff tinyDeterministic f.control hc f.factor).2 h.2.1
    have : ∀ c ∈ controls tinyDeterministic, factors tinyDeterministic c = [some 1] := by decide +kernel
    rw [this _ hc] at hk
    simpa using hk
  · refine ⟨h.2.2.2.1, ?_⟩
    have hc := (controls_iff smallDeterministic f.control).2 h.1
    have hk := (factors_iff smallDeterministic f.control hc f.factor).2 h.2.1
    have : ∀ c ∈ controls smallDeterministic, factors smallDeterministic c = [some 1] := by decide +kernel
    rw [this _ hc] at hk
    simpa using hk

/-- **Against the code**: the counterpart "with one neural net per time step" of structured networks has none: the controllers are replaced. -/
theorem multi_structured_not_multi (w : World) (f : Func) (h : Function multiStructured w f) : f.control ≠ "multi_neural" := by
  have : f.control = "neural" ∨ f.control = "structured_neural" := by simpa [Control, multiStructured] using h.1
  rcases this with h | h <;> rw [h] <;> decide

/-- **Against the code**: the variable `MAX_GYM_BUDGET` excludes the maximum itself. -/
theorem max_excluded (o : Opts) (w : World) (m : Nat) (hm : w.maxBudget = some (some (m : Int))) (rs : List Run) (h : fullGym o w = some rs) : ∀ r ∈ rs, r.budget ≠ m := by
  rintro ⟨f, b, a, s⟩ hr rfl
  have := ((fullGym_iff o w rs h f b a).1 ⟨s, hr⟩).2.2.2.1 _ hm
  exact Int.lt_irrefl _ this

/-- **Against the code**: the variable `GYM_OPTIMIZER` changes nothing in `ng_full_gym`. -/
theorem optimizer_ignored (o : Opts) (w : World) (s : Option String) : fullGym o { w with optimizer := s } = fullGym o w := rfl

/-- The optimizers chosen by the variable `GYM_OPTIMIZER`: those whose name contains it, or the optimizer of this name if there are none. -/
theorem optimizers_iff (w : World) (l : List String) (a : String) :
    a ∈ optimizerModifier w l ↔ (w.optimizer = none ∧ a ∈ l) ∨
      ∃ s, w.optimizer = some s ∧ ((a ∈ l ∧ s.toList <:+: a.toList) ∨ (a = s ∧ ∀ b ∈ l, ¬ s.toList <:+: b.toList)) := by
  unfold optimizerModifier
  cases hs : w.optimizer with
  | none => simp
  | some s =>
    simp only [reduceCtorEq, false_and, false_or, Option.some.injEq, exists_eq_left']
    have hf : ∀ b, b ∈ l.filter (fun o => within s.toList o.toList) ↔ b ∈ l ∧ s.toList <:+: b.toList := by
      intro b; rw [List.mem_filter, within_iff]
    split
    · rename_i he
      rw [he] at hf
      have hn : ∀ b ∈ l, ¬ s.toList <:+: b.toList := fun b hb h => by simpa using (hf b).2 ⟨hb, h⟩
      simp only [List.mem_singleton]
      constructor
      · rintro rfl; exact Or.inr ⟨rfl, hn⟩
      · rintro (⟨h1, h2⟩ | ⟨h, -⟩)
        · exact absurd h2 (hn _ h1)
        · exact h
    · rename_i he
      rw [hf]
      constructor
      · exact Or.inl
      · rintro (h | ⟨-, h⟩)
        · exact h
        · exfalso
          obtain ⟨b, hb⟩ := List.exists_mem_of_ne_nil _ he
          exact h b ((hf b).1 hb).1 ((hf b).1 hb).2

/-- The functions of `gym_problem`. -/
theorem problemFuncs_iff (problem : String) (conformant multiScale greedy : Bool) (f : Func) :
    f ∈ problemFuncs problem conformant multiScale greedy ↔ f.name = problem ∧ f.randomized = true ∧ f.sparse = none ∧
      if conformant then f.control = "conformant" ∧ f.factor = none ∧ f.scale = 0 ∧ f.greedy = false
      else f.greedy = greedy ∧ (f.scale = 0 ∨ (multiScale = true ∧ (f.scale = -2 ∨ f.scale = -4 ∨ f.scale = -6)))
        ∧ ((f.control = "linear" ∧ greedy = false ∧ f.factor = none) ∨
          (∃ s ∈ sizes, f.control = s ++ "neural" ∧ f.factor = some 1 ∧ (greedy = true → s = ""))) := by
  obtain ⟨n, c, k, r, s, l, g⟩ := f
  cases conformant with
  | true => simp only [problemFuncs, if_true, List.mem_singleton, Func.mk.injEq]; tauto
  | false =>
    simp only [problemFuncs, Bool.false_eq_true, if_false, List.mem_flatMap, List.mem_map, scales_iff, Func.mk.injEq]
    constructor
    · rintro ⟨s', hs, c', hc, rfl, rfl, rfl, rfl, rfl, rfl, rfl⟩
      refine ⟨rfl, rfl, rfl, rfl, hs, ?_⟩
      cases greedy with
      | true =>
        simp at hc; subst hc
        exact Or.inr ⟨"", by decide, by decide, by decide, fun _ => rfl⟩
      | false =>
        simp at hc
        rcases hc with rfl | rfl | rfl | rfl
        · exact Or.inr ⟨"deep_", by decide, by decide, by decide, fun h => by cases h⟩
        · exact Or.inr ⟨"semideep_", by decide, by decide, by decide, fun h => by cases h⟩
        · exact Or.inr ⟨"", by decide, by decide, by decide, fun _ => rfl⟩
        · exact Or.inl ⟨rfl, rfl, by decide⟩
    · rintro ⟨rfl, rfl, rfl, rfl, hs, h⟩
      refine ⟨s, hs, c, ?_, rfl, rfl, ?_, rfl, rfl, rfl, rfl⟩
      · rcases h with ⟨rfl, rfl, rfl⟩ | ⟨z, hz, rfl, rfl, hg⟩
        · decide
        · cases g with
          | true => rw [hg rfl]; decide
          | false => revert hz; unfold sizes; simp only [List.mem_cons, List.not_mem_nil, or_false]; rintro (rfl | rfl | rfl) <;> decide
      · rcases h with ⟨rfl, rfl, rfl⟩ | ⟨z, hz, rfl, rfl, hg⟩
        · decide
        · revert hz; unfold sizes; simp only [List.mem_cons, List.not_mem_nil, or_false]; rintro (rfl | rfl | rfl) <;> decide

/-- The functions of `gym_problem` are accepted by `GymMulti`. -/
theorem problem_accepted (problem : String) (conformant multiScale greedy : Bool) : ∀ f ∈ problemFuncs problem conformant multiScale greedy, accepted f = true := by
  intro f hf
  obtain ⟨n, c, k, r, s, l, g⟩ := f
  obtain ⟨-, -, h3, h⟩ := (problemFuncs_iff _ _ _ _ _).1 hf
  simp only at h3 h
  subst h3
  cases conformant with
  | true =>
    simp only [if_true] at h
    obtain ⟨rfl, rfl, rfl, rfl⟩ := h
    show accepted ⟨"", "conformant", none, true, 0, none, false⟩ = true
    decide +kernel
  | false =>
    simp only [Bool.false_eq_true, if_false] at h
    obtain ⟨rfl, -, h⟩ := h
    rcases h with ⟨rfl, rfl, rfl⟩ | ⟨z, hz, rfl, rfl, hg⟩
    · show accepted ⟨"", "linear", none, true, 0, none, false⟩ = true
      decide +kernel
    · show accepted ⟨"", z ++ "neural", some 1, true, 0, none, g⟩ = true
      revert hz; unfold sizes; simp only [List.mem_cons, List.not_mem_nil, or_false]
      rintro (rfl | rfl | rfl) <;> cases g <;> decide +kernel

/-- **C168**: the experiments of `gym_problem`. -/
theorem gymProblem_iff (w : World) (problem : String) (conformant bigNoise multiScale greedy : Bool) (rs : List Run)
    (h : gymProblem w problem conformant bigNoise multiScale greedy = some rs) :
    rs.Pairwise (fun r r' => r.seed < r'.seed) ∧ ∀ (f : Func) (b : Nat) (a : String), (∃ s, (⟨f, b, a, s⟩ : Run) ∈ rs) ↔
      f ∈ problemFuncs problem conformant multiScale greedy ∧ b ∈ [25, 50, 100, 200] ∧ (∀ m, w.maxBudget = some (some m) → (b : Int) < m)
        ∧ a ∈ optimizerModifier w (problemOptims problem conformant bigNoise) ∧ w.incoherent f a b = false := by
  obtain ⟨bs, hb, rfl⟩ := Option.map_eq_some_iff.1 h
  refine ⟨(runs_seeds _ _ _).filter _, fun f b a => ?_⟩
  have hbs : b ∈ bs.filter (fun b => decide (1 < b)) ↔ b ∈ [25, 50, 100, 200] ∧ ∀ m, w.maxBudget = some (some m) → (b : Int) < m := by
    rw [List.mem_filter, budgets_iff w _ _ hb]
    constructor
    · exact fun h => h.1
    · intro h
      refine ⟨h, ?_⟩
      have : ∀ b ∈ [25, 50, 100, 200], decide (1 < b) = true := by decide
      exact this b h.1
  have hr := runs_mem (problemFuncs problem conformant multiScale greedy) (bs.filter (fun b => decide (1 < b)))
    (optimizerModifier w (problemOptims problem conformant bigNoise)) f b a
  rw [hbs] at hr
  constructor
  · rintro ⟨s, hs⟩
    obtain ⟨h1, h2⟩ := List.mem_filter.1 hs
    obtain ⟨x1, ⟨x2, x3⟩, x4⟩ := hr.1 ⟨s, h1⟩
    exact ⟨x1, x2, x3, x4, by simpa using h2⟩
  · rintro ⟨x1, x2, x3, x4, x5⟩
    obtain ⟨s, hs⟩ := hr.2 ⟨x1, ⟨x2, x3⟩, x4⟩
    exact ⟨s, List.mem_filter.2 ⟨hs, by simpa using x5⟩⟩

/-- The optimizers of `gym_problem`: a problem whose name mentions noise gets the ones for noise, conformant planning of energy savings the discrete ones. -/
theorem problemOptims_spec (problem : String) (conformant bigNoise : Bool) :
    (problem = "EnergySavingsGym-v0" → conformant = true → ∀ a ∈ problemOptims problem conformant bigNoise,
        "Discrete".toList <:+: a.toList ∨ a = "NGOpt")
      ∧ ("stochastic".toList <:+: problem.toList → ∀ a, a ∈ problemOptims problem conformant bigNoise ↔ a = "DiagonalCMA" ∨ (a = "TBPSA" ∧ bigNoise = true)) := by
  constructor
  · rintro rfl rfl a ha
    rw [← within_iff]
    have : ∀ a ∈ problemOptims "EnergySavingsGym-v0" true bigNoise, within "Discrete".toList a.toList = true ∨ a = "NGOpt" := by
      cases bigNoise <;> decide +kernel
    exact this a ha
  · intro hp a
    have hne : (problem == "EnergySavingsGym-v0") = false := by
      rw [beq_eq_false_iff_ne]
      rintro rfl
      rw [← within_iff] at hp
      exact absurd hp (by decide +kernel)
    unfold problemOptims
    simp only [hne, Bool.false_and, Bool.false_eq_true, if_false, (within_iff _ _).2 hp, if_true]
    cases bigNoise <;> simp

/-- The variable `TARGET_GYM_ENV` replaces the problem of the two benchmarks. -/
theorem planning_target (w : World) :
    (∀ t, w.target = some t → conformantPlanning w = gymProblem w t true false false false ∧ neuroPlanning w = gymProblem w t false false false false)
      ∧ (w.target = none → conformantPlanning w = gymProblem w "EnergySavingsGym-v0" true false false false
        ∧ neuroPlanning w = gymProblem w "EnergySavingsGym-v0" false false false false) := by
  unfold conformantPlanning neuroPlanning
  constructor
  · intro t h; rw [h]; exact ⟨rfl, rfl⟩
  · intro h; rw [h]; exact ⟨rfl, rfl⟩

/-- The part which holds: the benchmarks keep their promises but for structured networks, and all budgets are below the maximum. -/
theorem max_budget_partial (o : Opts) (w : World) (m : Int) (hm : w.maxBudget = some (some m)) (rs : List Run) (h : fullGym o w = some rs) : ∀ r ∈ rs, (r.budget : Int) < m := by
  rintro ⟨f, b, a, s⟩ hr
  exact ((fullGym_iff o w rs h f b a).1 ⟨s, hr⟩).2.2.2.1 _ hm

/-- A world with one environment, and 51 as largest budget. -/
def tinyWorld : World := ⟨["E"], some (some 51), some "CMA", none, fun _ => false, fun f => if f.factor = some 1 then 10 else 30, fun _ a _ => a == "PSO"⟩

example : ((fullGym conformantFull tinyWorld).map fun rs => rs.map fun r => (r.budget, r.algo, r.seed)) =
    some [(50, "DiagonalCMA", 0), (50, "GeneticDE", 1), (50, "NoisyRL1", 2), (50, "NoisyRL2", 3), (50, "NoisyRL3", 4), (50, "MixDeterministicRL", 5), (50, "SpecialRL", 6),
      (50, "NGOpt", 8), (50, "NgIohTuned", 9), (25, "DiagonalCMA", 10), (25, "GeneticDE", 11), (25, "NoisyRL1", 12), (25, "NoisyRL2", 13), (25, "NoisyRL3", 14),
      (25, "MixDeterministicRL", 15), (25, "SpecialRL", 16), (25, "NGOpt", 18), (25, "NgIohTuned", 19)] := by decide +kernel

example : ((neuroPlanning tinyWorld).map fun rs => (rs.map (·.algo)).eraseDups) = some ["DiagonalCMA", "CMA"] := by decide +kernel

end GymRuns
end NG
