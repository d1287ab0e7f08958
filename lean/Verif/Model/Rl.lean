/-
The reinforcement learning functions of `nevergrad/functions/rl`: the 007 game (envs.py), the multi-agent environments with fixed agents, the single-agent
environment and the runner (base.py), and the agents' copies and evaluations (agents.py).

Simplifications. Dictionaries whose order does not matter are functions from names; an agent is a state with a function from a state and an outcome to an action
and a next state, and distinct names have distinct agents. An exception is `none`. The environments and the agents are arguments, except for the 007 game. No agent
is called `__all__`. Not modelled: the torch modules, printing (`verbose`), and the spaces of gym.
-/
import Mathlib.Algebra.BigOperators.Group.List.Basic
import Mathlib.Algebra.Field.Defs
import Mathlib.Data.Nat.Cast.Defs
import Verif.Model.Tools

namespace NG.Rl

/-! ### The 007 game (envs.py) -/

/-- `JamesBond.actions` (envs.py 15). -/
inductive Action
  | fire
  | protect
  | reload
  deriving DecidableEq

/-- `JamesBond.actions[k]` (envs.py 15, 99): negative indices count from the end; an `IndexError` out of the list. -/
def actionOf (k : Int) : Option Action :=
  if k = 0 ∨ k = -3 then some .fire else if k = 1 ∨ k = -2 then some .protect else if k = 2 ∨ k = -1 then some .reload else none

/-- `JamesBond` (envs.py 12-20): the state of a player. -/
structure Bond where
  ammunitions : Nat
  protects : Nat
  deriving DecidableEq

/-- `JamesBond.__init__` (envs.py 18-20). -/
def Bond.init : Bond := ⟨0, 0⟩

/-- `update_with_action` (envs.py 22-35); `none` is the `ValueError`. -/
def Bond.update (p : Bond) (a : Action) : Option Bond :=
  let ammunitions : Option Nat :=
    match a with
    | .fire => if p.ammunitions = 0 then none else some (p.ammunitions - 1)
    | .reload => some (p.ammunitions + 1)
    | .protect => some p.ammunitions
  ammunitions.map fun n => ⟨n, if a = .protect then p.protects + 1 else 0⟩

/-- `DoubleOSeven` (envs.py 41-66): two players and the number of steps. -/
structure Game where
  player0 : Bond
  player1 : Bond
  steps : Nat
  deriving DecidableEq

/-- `DoubleOSeven.reset` (envs.py 68-75), also `__init__` (62-66) and `copy` (81-82), which makes a new game. -/
def Game.init : Game := ⟨.init, .init, 0⟩

/-- `_make_observations` (envs.py 77-79): the own state, then the one of the other player. -/
def Game.obs (g : Game) : List (String × (Nat × Nat × Nat × Nat)) :=
  [("player_0", g.player0.ammunitions, g.player0.protects, g.player1.ammunitions, g.player1.protects),
   ("player_1", g.player1.ammunitions, g.player1.protects, g.player0.ammunitions, g.player0.protects)]

/-- `"reload" if a == "fire" and not p.ammunitions else a` (envs.py 104-106). -/
def possible (p : Bond) (a : Action) : Action := if a = .fire ∧ p.ammunitions = 0 then .reload else a

/-- `DoubleOSeven.step` (envs.py 99-127) for the actions of the two players: the next game, the rewards, and whether it is over. -/
def Game.play (g : Game) (a0 a1 : Action) : Option (Game × (Nat × Nat) × Bool) := do
  let a0 := possible g.player0 a0
  let a1 := possible g.player1 a1
  let p0 ← g.player0.update a0
  let p1 ← g.player1.update a1
  let rew : Nat × Nat :=
    if a0 = .fire ∧ a1 = .reload then (1, 0) else if a0 = .reload ∧ a1 = .fire then (0, 1) else (0, 0)
  let rew : Nat × Nat :=
    if 4 < p0.protects ∨ 4 < p1.protects then
      if p1.protects < p0.protects then (0, 1) else if p0.protects < p1.protects then (1, 0) else rew
    else rew
  some (⟨p0, p1, g.steps + 1⟩, rew, decide (g.steps + 1 = 100) || decide (0 < rew.1 + rew.2))

/-! ### Outcomes and environments (base.py) -/

/-- `StepOutcome` (base.py 16-32); a missing `info` is the empty dictionary. -/
structure Outcome (O R I : Type) where
  obs : O
  reward : Option R
  done : Bool
  info : Option I

/-- `StepReturn` (base.py 11-13): the observations by name, the rewards, the ends (`__all__` apart) and the infos. -/
structure StepReturn (O R I : Type) where
  obs : List (String × O)
  reward : String → Option R
  done : String → Option Bool
  all : Option Bool
  info : String → Option I

variable {E O R I A σ : Type}

/-- `from_multiagent_step` (base.py 37-54): the outcomes of the agents with an observation, and whether all is done. -/
def fromStep (r : StepReturn O R I) : List (String × Outcome O R I) × Bool :=
  (r.obs.map fun e => (e.1, ⟨e.2, r.reward e.1, (r.done e.1).getD (r.all.getD false), r.info e.1⟩), r.all.getD false)

/-- The outcomes of a reset: `from_multiagent_step(obs, {}, {}, {})` (base.py 122, 232). -/
def fromReset (obs : List (String × O)) : List (String × Outcome O R I) := (fromStep ⟨obs, fun _ => none, fun _ => none, none, fun _ => none⟩).1

/-- `to_multiagent_step` (base.py 56-63). -/
def toStep (outs : List (String × Outcome O R I)) (done : Bool) : StepReturn O R I where
  obs := outs.map fun e => (e.1, e.2.obs)
  reward n := (Tools.dictGet outs n).bind (·.reward)
  done n := (Tools.dictGet outs n).map (·.done)
  all := some done
  info n := (Tools.dictGet outs n).bind (·.info)

/-- `MultiAgentEnv` (base.py 85-109): the names of its agents, `reset` and `step`; `none` is an exception of the step. -/
structure Env (E O R I A : Type) where
  names : List String
  reset : E → E × List (String × O)
  step : E → (String → Option A) → Option (E × StepReturn O R I)

/-- `Agent` (base.py 66-82). -/
structure Agent (σ O R I A : Type) where
  act : σ → Outcome O R I → A × σ
  reset : σ → σ

/-- `PartialMultiAgentEnv` (base.py 112-129): the environment, and the states and the last outcomes of the fixed agents. -/
structure Partial (E σ O R I : Type) where
  inner : E
  states : String → Option σ
  outcomes : String → Option (Outcome O R I)

/-- `PartialMultiAgentEnv.__init__` (base.py 115-129) for the given fixed agents: the environment is reset, there are no outcomes; a `ValueError` for unknown names. -/
def Partial.make (env : Env E O R I A) (fixed : List String) (states : String → Option σ) (e : E) : Option (Partial E σ O R I) :=
  if fixed.all fun n => n ∈ env.names then some ⟨(env.reset e).1, states, fun _ => none⟩ else none

/-- `{name: outcomes[name] for name in self.agents}` (base.py 123, 134): a `KeyError` if an agent is missing. -/
def keep (fixed : List String) (outs : List (String × Outcome O R I)) : Option (String → Option (Outcome O R I)) :=
  if fixed.all fun n => (Tools.dictGet outs n).isSome then some fun n => if n ∈ fixed then Tools.dictGet outs n else none else none

/-- The outcomes of the others (base.py 124, 137). -/
def others (fixed : List String) (outs : List (String × Outcome O R I)) : List (String × Outcome O R I) := outs.filter fun e => e.1 ∉ fixed

/-- The actions of the agents with an outcome (base.py 131, 240-241). -/
def actions (ag : Agent σ O R I A) (states : String → Option σ) (outs : String → Option (Outcome O R I)) (n : String) : Option A :=
  (states n).bind fun s => (outs n).map fun o => (ag.act s o).1

/-- The states of the agents after these actions. Used in `Partial.step` (base.py 126-138). -/
def nexts (ag : Agent σ O R I A) (states : String → Option σ) (outs : String → Option (Outcome O R I)) (n : String) : Option σ :=
  (states n).map fun s => match outs n with
    | none => s
    | some o => (ag.act s o).2

/-- `PartialMultiAgentEnv.reset` (base.py 125-128): the fixed agents are not reset. -/
def Partial.reset (env : Env E O R I A) (fixed : List String) (p : Partial E σ O R I) : Option (Partial E σ O R I × List (String × O)) :=
  let r := env.reset p.inner
  let outs : List (String × Outcome O R I) := fromReset r.2
  (keep fixed outs).map fun k => (⟨r.1, p.states, k⟩, (others fixed outs).map fun e => (e.1, e.2.obs))

/-- `PartialMultiAgentEnv.step` (base.py 126-138): the given actions have priority over those of the fixed agents. -/
def Partial.step (env : Env E O R I A) (ag : Agent σ O R I A) (fixed : List String) (p : Partial E σ O R I) (given : String → Option A) :
    Option (Partial E σ O R I × StepReturn O R I) := do
  let full := fun n => (given n).orElse fun _ => actions ag p.states p.outcomes n
  let (e, r) ← env.step p.inner full
  let outs := fromStep r
  let k ← keep fixed outs.1
  some (⟨e, nexts ag p.states p.outcomes, k⟩, toStep (others fixed outs.1) outs.2)

/-- `agent_names` of a partial environment (base.py 125). -/
def Partial.names (env : Env E O R I A) (fixed : List String) : List String := env.names.filter fun n => n ∉ fixed

/-- A partial environment as an environment (it is one in the code); a reset that raises is no further described. Built on `Partial.names` (base.py 125). -/
def Partial.env (env : Env E O R I A) (ag : Agent σ O R I A) (fixed : List String) : Env (Partial E σ O R I) O R I A where
  names := Partial.names env fixed
  reset p := (Partial.reset env fixed p).getD (p, [])
  step := Partial.step env ag fixed

/-- `SingleAgentEnv.step` (base.py 168-171) on its environment, for the agent `an`; `none` is a `KeyError` (or no reward). -/
def singleStep (env : Env E O R I A) (an : String) (e : E) (a : A) : Option (E × Outcome O R I) := do
  let (e, r) ← env.step e fun n => if n = an then some a else none
  let obs ← Tools.dictGet r.obs an
  let d ← r.done an
  let all ← r.all
  some (e, ⟨obs, r.reward an, d || all, r.info an⟩)

/-- `SingleAgentEnv.reset` (base.py 165-166). -/
def singleReset (env : Env E O R I A) (an : String) (e : E) : Option (E × O) := (Tools.dictGet (env.reset e).2 an).map fun o => ((env.reset e).1, o)

/-! ### Runner (base.py) -/

/-- The name of the agent of a single-agent environment in the runner (base.py 212, 224). -/
abbrev san : String := "single_agent_name"

/-- A single-agent environment for the runner (base.py 230, 244-246): the end is the one of its outcome. A reset without the agent is no further described. -/
def gymEnv (env : Env E O R I A) (an : String) : Env E O R I A where
  names := [san]
  reset e := match singleReset env an e with
    | none => (e, [])
    | some r => (r.1, [(san, r.2)])
  step e acts := do
    let a ← acts san
    let (e, o) ← singleStep env an e a
    some (e, ⟨[(san, o.obs)], fun _ => o.reward, fun _ => some o.done, some o.done, fun _ => o.info⟩)

/-- The state of the loop of `_run_once` (base.py 227-236). -/
structure Run (E σ O R I : Type) where
  env : E
  states : String → Option σ
  outs : List (String × Outcome O R I)
  done : Bool
  sums : String → R
  steps : Nat

section
variable [Zero R] [Add R]

/-- One step of the loop (base.py 238-249): all the agents with an outcome act, and their rewards are added; an exception if one is unknown or has no reward. -/
def Run.step (env : Env E O R I A) (ag : Agent σ O R I A) (s : Run E σ O R I) : Option (Run E σ O R I) :=
  if s.outs.all fun e => (s.states e.1).isSome then do
    let (e, r) ← env.step s.env (actions ag s.states (Tools.dictGet s.outs))
    let outs := fromStep r
    if outs.1.all fun e => e.2.reward.isSome then
      some ⟨e, nexts ag s.states (Tools.dictGet s.outs), outs.1, outs.2, fun n => s.sums n + ((Tools.dictGet outs.1 n).bind (·.reward)).getD 0, s.steps + 1⟩
    else none
  else none

/-- The loop (base.py 237-249) with at most `max_step` steps. -/
def Run.loop (env : Env E O R I A) (ag : Agent σ O R I A) : Nat → Run E σ O R I → Option (Run E σ O R I)
  | 0, s => some s
  | m + 1, s => if s.done then some s else (s.step env ag).bind (Run.loop env ag m)

/-- `_run_once` (base.py 223-252) for named agents: they are reset, play, and see the last outcome. The value is the state with the sums of the rewards. -/
def runOnce (env : Env E O R I A) (ag : Agent σ O R I A) (maxStep : Nat) (e : E) (states : String → Option σ) : Option (Run E σ O R I) :=
  let r := env.reset e
  (Run.loop env ag maxStep ⟨r.1, fun n => (states n).map ag.reset, fromReset r.2, false, fun _ => 0, 0⟩).bind fun s =>
    if s.outs.all fun e => (s.states e.1).isSome then some { s with states := nexts ag s.states (Tools.dictGet s.outs) } else none

end

/-- The repetitions of `run` (base.py 213-216): the environment and the agents go on. -/
def repeatRuns [Zero R] [Add R] (env : Env E O R I A) (ag : Agent σ O R I A) (maxStep : Nat) : Nat → E → (String → Option σ) → (String → R) → Option (String → R)
  | 0, _, _, sums => some sums
  | k + 1, e, states, sums =>
    (runOnce env ag maxStep e states).bind fun s => repeatRuns env ag maxStep k s.env s.states fun n => sums n + s.sums n

/-- `EnvironmentRunner.run` (base.py 197-221) for named agents: the mean rewards; without a repetition the division by zero raises. -/
def run [DivisionRing R] (env : Env E O R I A) (ag : Agent σ O R I A) (maxStep repetitions : Nat) (e : E) (states : String → Option σ) : Option (String → R) :=
  if repetitions = 0 then none
  else (repeatRuns env ag maxStep repetitions e states fun _ => 0).map fun sums n => sums n / (repetitions : R)

/-- `DoubleOSeven` as an environment (envs.py 41-127): a `KeyError` without the action of a player. -/
def doubleOSeven (R : Type) [NatCast R] : Env Game (Nat × Nat × Nat × Nat) R Unit Int where
  names := ["player_0", "player_1"]
  reset _ := (Game.init, Game.init.obs)
  step g acts := do
    let k0 ← acts "player_0"
    let k1 ← acts "player_1"
    let a0 ← actionOf k0
    let a1 ← actionOf k1
    let (g, rew, over) ← g.play a0 a1
    some (g, ⟨g.obs, fun n => if n = "player_0" then some (rew.1 : R) else if n = "player_1" then some (rew.2 : R) else none, fun _ => none, some over, fun _ => none⟩)

/-- `Agent007.act` (agents.py 60-74): `choose` is the draw among the given actions. -/
def agent007 (choose : List Action → Action) (o : Nat × Nat × Nat × Nat) : Action :=
  if o.2.2.2 = 4 ∧ o.1 ≠ 0 then .fire
  else if o.2.2.1 = 0 then choose [.fire, .reload]
  else choose [.fire, .protect, .reload]

/-- `TorchAgent` (agents.py 83-95): the module, and what its parametrization is made of. -/
structure Torch (M S : Type) where
  module : M
  deterministic : Bool
  std : S

/-- `TorchAgent.copy` (agents.py 124-125): the step-size is the default one; also used by `TorchAgentFunction` (agents.py 144). -/
def Torch.copy {M S : Type} (default : S) (t : Torch M S) : Torch M S := ⟨t.module, t.deterministic, default⟩

/-- The number of runs of `evaluation_function` (agents.py 170). -/
def numTests (repetitions : Nat) : Nat := max 1 (1000 / repetitions)

end NG.Rl
