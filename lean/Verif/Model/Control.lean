import Mathlib.Analysis.SpecialFunctions.Trigonometric.DerivHyp
import Mathlib.Analysis.Complex.Trigonometric

/-!
# Model of the control problems: layered policies and their evaluation

Sources: `/repo/nevergrad/functions/control/core.py` (59-130) and `/repo/nevergrad/functions/control/mujoco.py` (31-81).

The environment of gym is any state machine, with states in `σ`; the random state is any generator of lists of normal draws and of
integers, with states in `γ`. Numbers are exact. An exception is `none`. Episodes may be endless: `fuel` is the largest number of
steps, and the evaluation is `none` when it is not enough. Tables of averages and deviations of the six problems are arguments.
The leaderboard is not modelled.
-/

namespace NG
namespace Control

/-- A layer: a matrix of weights. Used in `action` (mujoco.py 67-74). -/
structure Mat where
  rows : ℕ
  cols : ℕ
  w : ℕ → ℕ → ℝ

/-- The activation. Used in `Conf` (mujoco.py 51-57); `other` is any other name. -/
inductive Act where
  | tanh | sigmoid | other
deriving DecidableEq

noncomputable section

/-- `_activation` (mujoco.py 51-57) on one value. -/
def Act.apply : Act → ℝ → Option ℝ
  | .tanh, x => some (Real.tanh x)
  | .sigmoid, x => some (1 / (1 + Real.exp (-x)))
  | .other, _ => none

/-- `np.matmul` of a vector and of a layer (mujoco.py 68-70, 74): lengths have to match. -/
def matmul (v : List ℝ) (m : Mat) : Option (List ℝ) :=
  if v.length = m.rows then
    some ((List.range m.cols).map (fun j => ((List.range m.rows).map (fun i => v.getD i 0 * m.w i j)).sum))
  else none

/-- What the evaluation is given (mujoco.py 41-49). `norm` has the averages and the deviations of the states, `none` without
normalization (a single number is a list of equal numbers here). -/
structure Conf where
  norm : Option (List ℝ × List ℝ)
  rollouts : ℕ
  act : Act
  coefs : List ℝ
  noise : ℝ

/-- `(obs - self.mean) / self.std` (mujoco.py 67-71), the lengths being the same. -/
def normalize (c : Conf) (obs : List ℝ) : Option (List ℝ) :=
  match c.norm with
  | none => some obs
  | some (m, s) =>
    if obs.length = m.length ∧ obs.length = s.length then
      some (List.zipWith (fun d s => d / s) (List.zipWith (fun o m => o - m) obs m) s)
    else none

/-- The loop over the other layers (mujoco.py 73-74). -/
def others (act : Act) : List (Mat × ℝ) → List ℝ → Option (List ℝ)
  | [], a => some a
  | (x, r) :: l, a =>
    match a.mapM act.apply with
    | none => none
    | some h =>
      match matmul (h.map (· + 1 / 1000)) x with
      | none => none
      | some b => others act l (b.map (· * r))

/-- The action before the noise (mujoco.py 67-74). -/
def action (c : Conf) (layers : List Mat) (obs : List ℝ) : Option (List ℝ) :=
  match layers, c.coefs with
  | x :: layers, r :: coefs =>
    match normalize c obs with
    | none => none
    | some o =>
      match matmul o x with
      | none => none
      | some a => others c.act (layers.zip coefs) (a.map (· * r))
  | _, _ => none

variable {σ γ : Type}

/-- An environment of gym: seeding, the start of an episode and a step. Used in `episode` (mujoco.py 63, 77). -/
structure Env (σ : Type) where
  make : σ
  seed : Option ℕ → ℕ → σ → σ
  reset : σ → σ × List ℝ
  step : σ → List ℝ → σ × List ℝ × ℝ × Bool

/-- The random state. Used in `noisy` and `simulate` (mujoco.py 76, core.py 117). -/
structure Gen (γ : Type) where
  normal : γ → ℕ → List ℝ × γ
  randint : γ → ℕ → ℕ × γ

/-- The noise (mujoco.py 75-76). -/
def noisy (gen : Gen γ) (c : Conf) (a : List ℝ) (g : γ) : List ℝ × γ :=
  if 0 < c.noise then
    let (z, g) := gen.normal g a.length
    (List.zipWith (fun x z => x + x * c.noise * z) a z, g)
  else (a, g)

/-- The loop of an episode (mujoco.py 66-78): the sum of the rewards. -/
def loop (env : Env σ) (gen : Gen γ) (c : Conf) (layers : List Mat) : ℕ → List ℝ → σ → γ → ℝ → Option (ℝ × σ × γ)
  | 0, _, _, _, _ => none
  | fuel + 1, obs, s, g, total =>
    match action c layers obs with
    | none => none
    | some a =>
      let (a, g) := noisy gen c a g
      let (s, obs, r, done) := env.step s a
      if done then some (total + r, s, g) else loop env gen c layers fuel obs s g (total + r)

/-- An episode (mujoco.py 63-79). -/
def episode (env : Env σ) (gen : Gen γ) (c : Conf) (layers : List Mat) (fuel : ℕ) (s : σ) (g : γ) : Option (ℝ × σ × γ) :=
  let (s, obs) := env.reset s
  loop env gen c layers fuel obs s g 0

/-- The loop over the episodes (mujoco.py 61-79): the sums of the rewards. -/
def episodes (env : Env σ) (gen : Gen γ) (c : Conf) (layers : List Mat) (fuel : ℕ) : ℕ → σ → γ → Option (List ℝ × σ × γ)
  | 0, s, g => some ([], s, g)
  | n + 1, s, g =>
    match episode env gen c layers fuel s g with
    | none => none
    | some (r, s, g) => (episodes env gen c layers fuel n s g).map (fun (l, e) => (r :: l, e))

/-- `GenericMujocoEnv.__call__` (mujoco.py 59-81), and the state of the generator afterwards. The mean of no value is not a number:
it is `none` here. -/
def call (env : Env σ) (gen : Gen γ) (c : Conf) (layers : List Mat) (fuel : ℕ) (s : σ) (g : γ) : Option (ℝ × γ) :=
  match episodes env gen c layers fuel c.rollouts s g with
  | none => none
  | some (l, _, g) => if l = [] then none else some (-(l.sum / l.length), g)

/-- `_simulate` (core.py 100-121): a new environment with its seed. `seed` is the attribute `random_state`; `entropy` is what the
environment is seeded with when there is no seed. -/
def simulate (env : Env σ) (gen : Gen γ) (c : Conf) (deterministic : Bool) (seed : Option ℕ) (entropy : ℕ) (fuel : ℕ)
    (layers : List Mat) (g : γ) : Option (ℝ × γ) :=
  if deterministic then call env gen c layers fuel (env.seed seed entropy env.make) g
  else
    let (k, g) := gen.randint g 10000
    call env gen c layers fuel (env.seed (some k) entropy env.make) g

end

/-- `policy_dim` with the intermediate layers (core.py 70-71). -/
def policyDim (first last : ℕ) : Option (List ℕ) → List ℕ
  | none => [first, last]
  | some l => first :: l ++ [last]

/-- The shapes of the layers in the parametrization (core.py 72-75). -/
def shapes (dims : List ℕ) : List (ℕ × ℕ) := dims.dropLast.zip dims.tail

/-- The names of the layers (core.py 73): the text has no `f` prefix. -/
def layerName (_ : ℕ × ℕ) : String := "layer_{a}_{b}"

/-- `layer_rescaling_coef` when it is not given (core.py 84-86). -/
def defaultCoefs (dims : List ℕ) : List ℝ := List.replicate (dims.length - 1) 1

end Control
end NG
