import Mathlib.Data.List.Basic

/-!
# Model of the experiments on gym environments

benchmark/gymexperiments.py (46-283, 302-423): `ng_full_gym`, the eleven benchmarks made from it, `gym_problem` with its two benchmarks, and the environment variables that change them. The environments,
the optimizers and `Experiment` are outside: which environments can be made (`GymMulti.get_env_names`), which functions do not fit in memory, dimensions and `is_incoherent` are parameters.
A generator is the list of what it yields. A seed is the number of seeds drawn before it.
-/

namespace NG
namespace GymRuns

/-- `text in s`. Used in `optimizerModifier` (gymexperiments.py 30, 160). -/
def within (text : List Char) : List Char → Bool
  | [] => text.isEmpty
  | c :: s => text.isPrefixOf (c :: s) || within text s

/-- The flags of `ng_full_gym` (gymexperiments.py 48-59). -/
structure Opts where
  randomized : Bool := true
  multi : Bool := false
  big : Bool := false
  memory : Bool := false
  ngGym : Bool := false
  conformant : Bool := false
  gp : Bool := false
  sparse : Bool := false
  multiScale : Bool := false
  small : Bool := false
  tiny : Bool := false
  structured : Bool := false

/-- The arguments of `GymMulti` that vary (gymexperiments.py 170-177, 324-346). -/
structure Func where
  name : String
  control : String
  factor : Option Nat
  randomized : Bool
  scale : Int
  sparse : Option Nat
  greedy : Bool
deriving DecidableEq

/-- One experiment: `Experiment(func, algo, budget, num_workers=1, seed)` (gymexperiments.py 185, 391). -/
structure Run where
  func : Func
  budget : Nat
  algo : String
  seed : Nat
deriving DecidableEq

/-- What is outside of the module. Used in `fullGym` (gymexperiments.py 46-194). -/
structure World where
  /-- `GymMulti.get_env_names()` (79) -/
  names : List String
  /-- `MAX_GYM_BUDGET` (38-40) as read by `int`; `some none` is a text that is no integer -/
  maxBudget : Option (Option Int)
  /-- `GYM_OPTIMIZER` (27-28) -/
  optimizer : Option String
  /-- `TARGET_GYM_ENV` (20) -/
  target : Option String
  memoryError : Func → Bool
  dim : Func → Nat
  incoherent : Func → String → Nat → Bool

/-- `gym_optimizer_modifier` (gymexperiments.py 25-34). -/
def optimizerModifier (w : World) (optims : List String) : List String :=
  match w.optimizer with
  | none => optims
  | some s =>
    match optims.filter (fun o => within s.toList o.toList) with
    | [] => [s]
    | l => l

/-- `gym_budget_modifier` (gymexperiments.py 37-42); `none` is the `ValueError`. -/
def budgetModifier (w : World) (budgets : List Nat) : Option (List Nat) :=
  match w.maxBudget with
  | none => some budgets
  | some none => none
  | some (some m) => some (budgets.filter (fun b => decide ((b : Int) < m)))

/-- `GymMulti.ng_gym` (multigym.py 125-134). -/
def ngGymNames : List String := ["CartPole-v0", "CartPole-v1", "Acrobot-v1"]

/-- The environments of `gp` (gymexperiments.py 86-97). -/
def gpNames : List String :=
  ["CartPole-v1", "Acrobot-v1", "MountainCarContinuous-v0", "Pendulum-v1", "BipedalWalker-v3", "BipedalWalkerHardcore-v3", "HopperBulletEnv-v0", "LunarLanderContinuous-v2"]

/-- `env_names` (gymexperiments.py 79-97). -/
def envNames (o : Opts) (w : World) : List String :=
  let names := if o.ngGym then ngGymNames else w.names
  if o.gp then gpNames else names

/-- `optims` of `ng_full_gym` (gymexperiments.py 100-111). -/
def fullOptims : List String :=
  ["DiagonalCMA", "GeneticDE", "NoisyRL1", "NoisyRL2", "NoisyRL3", "MixDeterministicRL", "SpecialRL", "PSO", "NGOpt", "NgIohTuned"]

/-- `controls` (gymexperiments.py 112-150). -/
def controls (o : Opts) : List String :=
  let c :=
    if o.multi then ["multi_neural"]
    else if !o.big then
      ["noisy_semideep_neural", "noisy_scrambled_semideep_neural", "noisy_deep_neural", "noisy_scrambled_deep_neural", "neural", "stackingmemory_neural", "deep_neural",
        "semideep_neural", "noisy_neural", "noisy_scrambled_neural", "resid_neural", "resid_semideep_neural", "resid_deep_neural"]
    else ["resid_neural"]
  let c := if o.structured then ["neural", "structured_neural"] else c
  let c :=
    if o.memory then
      ["stackingmemory_neural", "deep_stackingmemory_neural", "semideep_stackingmemory_neural"] ++ ["memory_neural", "deep_memory_neural", "semideep_memory_neural"] ++
        ["extrapolatestackingmemory_neural", "deep_extrapolatestackingmemory_neural", "semideep_extrapolatestackingmemory_neural"]
    else c
  if o.conformant then ["stochastic_conformant"] else c

/-- `neural_factors` (gymexperiments.py 157-161). -/
def factors (o : Opts) (control : String) : List (Option Nat) :=
  if o.conformant || control == "linear" then [none]
  else if within "memory".toList control.toList then [some 1]
  else if o.big then [some 3]
  else if o.tiny || o.small then [some 1]
  else [some 1, some 2, some 3]

/-- `sparse_limits` (gymexperiments.py 164-166). -/
def sparseLimits (o : Opts) : List (Option Nat) := if o.sparse then [none, some 10, some 100, some 1000] else [none]

/-- `optimization_scales` (gymexperiments.py 151-153). -/
def scales (multiScale : Bool) : List Int := if multiScale then [-6, -4, -2, 0] else [0]

/-- `CONTROLLERS` (multigym.py 45-77). -/
def controllers : List String :=
  ["resid_neural", "resid_semideep_neural", "resid_deep_neural", "resid_scrambled_neural", "resid_scrambled_semideep_neural", "resid_scrambled_deep_neural",
    "resid_noisy_scrambled_neural", "resid_noisy_scrambled_semideep_neural", "resid_noisy_scrambled_deep_neural", "linear", "neural", "deep_neural", "semideep_neural",
    "structured_neural", "memory_neural", "deep_memory_neural", "stackingmemory_neural", "deep_stackingmemory_neural", "semideep_stackingmemory_neural",
    "extrapolatestackingmemory_neural", "deep_extrapolatestackingmemory_neural", "semideep_extrapolatestackingmemory_neural", "semideep_memory_neural", "noisy_semideep_neural",
    "noisy_scrambled_semideep_neural", "noisy_deep_neural", "noisy_scrambled_deep_neural", "multi_neural", "noisy_neural", "noisy_scrambled_neural", "stochastic_conformant"]

/-- The assertions of `GymMulti.__init__` on its arguments (multigym.py 168-169, 249-252, 270-274, 302). -/
def accepted (f : Func) : Bool :=
  let has (t : String) : Bool := within t.toList f.control.toList
  let plain := has "conformant" || f.control == "linear"
  (!plain || f.factor.isNone) && (f.factor.isSome || plain) && (!f.greedy || (!has "multi" && !has "structured")) &&
    (controllers.contains f.control || f.control == "conformant") && (f.sparse.isNone || (!has "conformant" && !has "structured"))

/-- The functions that `ng_full_gym` tries to make, in order (gymexperiments.py 156-177). -/
def candidates (o : Opts) (w : World) : List Func :=
  (controls o).flatMap fun c => (factors o c).flatMap fun f => (envNames o w).flatMap fun n => (sparseLimits o).flatMap fun l =>
    (scales o.multiScale).map fun s => (⟨n, c, f, o.randomized, s, l, false⟩ : Func)

/-- The functions of `ng_full_gym` in order: those that do not fit in memory are skipped (gymexperiments.py 169-182). -/
def funcs (o : Opts) (w : World) : List Func := (candidates o w).filter (fun f => !w.memoryError f)

/-- The experiments made by loops on functions, budgets and algorithms: each draws its seed, also if it is not yielded (gymexperiments.py 183-194, 385-398). -/
def runs (fs : List Func) (budgets : List Nat) (optims : List String) : List Run :=
  ((fs.flatMap fun f => budgets.flatMap fun b => optims.map fun a => (f, b, a)).zipIdx).map (fun p => ⟨p.1.1, p.1.2.1, p.1.2.2, p.2⟩)

/-- The test that an experiment is yielded (gymexperiments.py 188-193). -/
def yielded (o : Opts) (w : World) (r : Run) : Bool :=
  !(decide (40 < w.dim r.func) && o.small) && !(decide (20 < w.dim r.func) && o.tiny) && !w.incoherent r.func r.algo r.budget

/-- `ng_full_gym` (gymexperiments.py 46-194); `none` if it raises. -/
def fullGym (o : Opts) (w : World) : Option (List Run) :=
  if o.ngGym && o.gp then none
  else if o.memory && o.multi then none
  else (budgetModifier w [50, 200, 100, 25, 400]).map fun budgets => (runs (funcs o w) budgets fullOptims).filter (yielded o w)

/-- `multi_ng_full_gym` (gymexperiments.py 198-202). -/
def multiNgFullGym : Opts := { multi := true }
/-- `multi_structured_ng_full_gym` (gymexperiments.py 206-210). -/
def multiStructured : Opts := { multi := true, structured := true }
/-- `conformant_ng_full_gym` (gymexperiments.py 214-220). -/
def conformantFull : Opts := { conformant := true }
/-- `ng_gym` (gymexperiments.py 224-226). -/
def ngGymOpts : Opts := { ngGym := true }
/-- `gp` (gymexperiments.py 230-235). -/
def gpOpts : Opts := { gp := true, multiScale := true }
/-- `conformant_gp` (gymexperiments.py 239-244). -/
def conformantGp : Opts := { conformant := true, gp := true }
/-- `sparse_gp` (gymexperiments.py 248-253). -/
def sparseGp : Opts := { gp := true, sparse := true, multiScale := true }
/-- `ng_stacking_gym` (gymexperiments.py 257-259). -/
def stacking : Opts := { ngGym := true, memory := true }
/-- `big_gym_multi` (gymexperiments.py 263-265). -/
def bigMulti : Opts := { big := true }
/-- `deterministic_gym_multi` (gymexperiments.py 269-271). -/
def deterministic : Opts := { randomized := false }
/-- `tiny_deterministic_gym_multi` (gymexperiments.py 275-277). -/
def tinyDeterministic : Opts := { randomized := false, tiny := true }
/-- `small_deterministic_gym_multi` (gymexperiments.py 281-283). -/
def smallDeterministic : Opts := { randomized := false, small := true }

/-- The functions of `gym_problem` (gymexperiments.py 323-346), with the defaults of `GymMulti`. -/
def problemFuncs (problem : String) (conformant multiScale greedy : Bool) : List Func :=
  if conformant then [⟨problem, "conformant", none, true, 0, none, false⟩]
  else (scales multiScale).flatMap fun s => (if !greedy then ["deep_neural", "semideep_neural", "neural", "linear"] else ["neural"]).map fun c =>
    ⟨problem, c, if c != "linear" then some 1 else none, true, s, none, greedy⟩

/-- `optims` of `gym_problem` (gymexperiments.py 348-382). -/
def problemOptims (problem : String) (conformant bigNoise : Bool) : List String :=
  let optims := ["TwoPointsDE", "GeneticDE", "PSO", "DiagonalCMA", "DoubleFastGADiscreteOnePlusOne", "DiscreteLenglerOnePlusOne", "PortfolioDiscreteOnePlusOne", "MixDeterministicRL",
    "NoisyRL2", "NoisyRL3", "SpecialRL", "NGOpt39", "CMA", "DE"]
  let optims := if within "stochastic".toList problem.toList then (if bigNoise then ["DiagonalCMA", "TBPSA"] else ["DiagonalCMA"]) else optims
  if problem == "EnergySavingsGym-v0" && conformant then
    ["DiscreteOnePlusOne", "PortfolioDiscreteOnePlusOne", "DiscreteLenglerOnePlusOne", "AdaptiveDiscreteOnePlusOne", "AnisotropicAdaptiveDiscreteOnePlusOne", "DiscreteBSOOnePlusOne",
      "DiscreteDoerrOnePlusOne", "OptimisticDiscreteOnePlusOne", "NoisyDiscreteOnePlusOne", "DoubleFastGADiscreteOnePlusOne", "SparseDoubleFastGADiscreteOnePlusOne",
      "RecombiningPortfolioOptimisticNoisyDiscreteOnePlusOne", "RecombiningPortfolioDiscreteOnePlusOne", "MultiDiscrete", "NGOpt"]
  else optims

/-- `gym_problem` (gymexperiments.py 302-398); `none` if it raises. A function that does not fit in memory raises here; this is not modelled. -/
def gymProblem (w : World) (problem : String) (conformant bigNoise multiScale greedy : Bool) : Option (List Run) :=
  (budgetModifier w [25, 50, 100, 200]).map fun budgets =>
    (runs (problemFuncs problem conformant multiScale greedy) (budgets.filter (fun b => decide (1 < b))) (optimizerModifier w (problemOptims problem conformant bigNoise))).filter
      fun r => !w.incoherent r.func r.algo r.budget

/-- `conformant_planning` (gymexperiments.py 402-411). -/
def conformantPlanning (w : World) : Option (List Run) := gymProblem w (w.target.getD "EnergySavingsGym-v0") true false false false

/-- `neuro_planning` (gymexperiments.py 415-423). -/
def neuroPlanning (w : World) : Option (List Run) := gymProblem w (w.target.getD "EnergySavingsGym-v0") false false false false

end GymRuns
end NG
