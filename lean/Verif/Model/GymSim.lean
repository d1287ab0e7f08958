/-
The simulations of the gym problems (`nevergrad/functions/gym/multigym.py` 334-352, 456-495, 538-686, `nevergrad/functions/gym/tuple_gym_env.py`).

Simplifications. Real numbers. An environment is a state with a step, which may raise an AssertionError; the resets are not modelled, each simulation starts from the state of a new environment
and its first observation. The controller, with the cast of its actions, is a function of the index of the time step and of its input (`Verif/Model/GymNet.lean`). Observations are compared as they
are, not in single precision.
-/
import Mathlib.Data.Real.Basic
import Mathlib.Data.List.Sort
import Mathlib.Logic.Equiv.Basic

namespace NG.GymSim

/-! ### The object -/

/-- A trace of the archive: observations, actions and reward (multigym.py 686). -/
structure Trace (Ob A : Type) where
  obs : List Ob
  acts : List A
  reward : ℝ

/-- The attributes of the function that the simulations change (multigym.py 251, 329-332). -/
structure Obj (Ob A : Type) where
  ext : List ℝ
  archive : List (Trace Ob A)
  meanLoss : ℝ
  numLosses : Nat

/-- A problem: sizes, the step of the environment, the controller, the numbers for an observation and for an action, and the options. Used in `simGo` (multigym.py 604-649). -/
structure Cfg (E Ob A : Type) where
  inDim : Nat
  memLen : Nat
  step : E → A → Option (Ob × ℝ × Bool × E)
  act : Nat → List ℝ → A × List ℝ
  see : Ob → List ℝ
  enc : A → List ℝ
  stacking : Bool
  extrapolate : Bool
  gamma : ℝ
  shortened : Bool

section
variable {E Ob A : Type} [DecidableEq Ob]

/-- The numbers for an observation that is an integer (multigym.py 608-611). -/
def oneHot (n k : Nat) : List ℝ := (List.range n).map fun i => if i = k then 1 else 0

/-- `archive_observations` (multigym.py 667-686). -/
noncomputable def Obj.add (s : Obj Ob A) (acts : List A) (obs : List Ob) (reward : ℝ) : Obj Ob A :=
  let num := s.numLosses + 1
  let tau : ℝ := 1 / num
  { s with
    numLosses := num
    meanLoss := (1 - tau) * s.meanLoss + tau * reward
    archive := if s.archive.any fun t => decide (t.obs = obs) then s.archive else s.archive ++ [⟨obs, acts, reward⟩] }

/-- The search in `heuristic` (multigym.py 560-569): `to[-n:]` is the whole list when it is shorter. -/
def search (extrapolate : Bool) (cur : List Ob) : List (Trace Ob A) → Option A
  | [] => none
  | t :: ts =>
    if cur.length > t.obs.length ∧ extrapolate = false then search extrapolate cur ts
    else if t.obs.drop (t.obs.length - cur.length) = cur then t.acts[cur.length - 1]?
    else search extrapolate cur ts

open Classical in
/-- `heuristic` (multigym.py 547-570). -/
noncomputable def Obj.heuristic (s : Obj Ob A) (extrapolate : Bool) (o : Ob) (obs : List Ob) : Option A × Obj Ob A :=
  let kept := s.archive.filter fun t => decide (t.reward ≤ s.meanLoss)
  let sorted := kept.insertionSort fun a b => b.obs.length ≤ a.obs.length
  (search extrapolate (obs ++ [o]) sorted, { s with archive := sorted })

/-- The update of the stacked input (multigym.py 634-645). -/
noncomputable def Obj.stack (s : Obj Ob A) (advice : Option (List ℝ)) (a see : List ℝ) : Obj Ob A :=
  let add := (advice.getD (a.map fun v => 0 * v)) ++ see
  { s with ext := s.ext.drop add.length ++ add }

/-- The results: a loss, or the AssertionError on the length of the input. Used in `simGo` (multigym.py 604-649). -/
abbrev Res (Ob A : Type) := Option (ℝ × Obj Ob A)

/-- The loop of `gym_simulate` (multigym.py 604-649): `n` steps remain, `i` were made. `limited` is `limited_fidelity`. -/
noncomputable def simGo (c : Cfg E Ob A) (limited : Bool) : Nat → Nat → E → Ob → List ℝ → ℝ → List Ob → List A → ℝ → Obj Ob A → Res Ob A
  | 0, _, _, _, _, reward, _, _, _, s => some (-reward, s)
  | n + 1, i, e, o, mem, reward, obs, acts, cur, s =>
    let input := c.see o ++ mem ++ s.ext
    if input.length ≠ c.inDim then none
    else
      let p := c.act i input
      let a := p.1
      match c.step e a with
      | none => some (1e20 / (1 + i), s)
      | some (o', r, done, e) =>
        let done := done || (c.shortened && decide (i + 1 > 500) && limited)
        let cur := cur * c.gamma + r
        let obs := obs ++ [o']
        let acts := acts ++ [a]
        let s := if done && c.stacking then s.add acts obs cur else s
        let s := if c.stacking then
            let h := s.heuristic c.extrapolate o' obs
            h.2.stack (h.1.map c.enc) (c.enc a) (c.see o)
          else s
        if done then some (-(reward + r), s) else simGo c limited n (i + 1) e o' p.2 (reward + r) obs acts cur s

/-- `gym_simulate` (multigym.py 572-649) with a new environment in the state `e` and the observation `o`. -/
noncomputable def simulate (c : Cfg E Ob A) (limited : Bool) (steps : Nat) (e : E) (o : Ob) (s : Obj Ob A) : Res Ob A :=
  simGo c limited steps 0 e o (List.replicate c.memLen 0) 0 [] [] 0 s

/-- `gym_conformant` (multigym.py 651-665); `none` for an AssertionError. -/
noncomputable def conformant (step : E → A → Option (Ob × ℝ × Bool × E)) (gamma : ℝ) : List A → E → ℝ → Option ℝ
  | [], _, reward => some (-reward)
  | a :: as, e, reward =>
    match step e a with
    | none => none
    | some (_, r, done, e') => if done then some (-(reward * gamma + r)) else conformant step gamma as e' (reward * gamma + r)

end

/-! ### Averages -/

/-- The number of simulations and their seeds (multigym.py 482-494): `draws` are the draws of the random state. -/
def seeds (isConformant randomized : Bool) (draws : List Nat) : List Nat :=
  let num := if !isConformant && !randomized then 7 else 1
  (List.range num).map fun i => if !randomized then i else draws.getD i 0

/-- `gym_multi_function` (multigym.py 473-495): `none` when the assertion on the seed fails (multigym.py 589). -/
noncomputable def multi (isConformant randomized : Bool) (draws : List Nat) (sim : Nat → ℝ) : Option ℝ :=
  let ss := seeds isConformant randomized draws
  if ss.all fun seed => decide (seed = 0) || !isConformant || randomized then some ((ss.map sim).sum / ss.length) else none

/-- The number of evaluations of a recommendation (multigym.py 346-349). -/
def numEval (randomized : Bool) (numCalls : Nat) : Nat := if randomized then max (numCalls / 5) 23 else 1

/-- `evaluation_function` (multigym.py 334-352): `f` gives the result of the call with an index; the number of calls after it is given too. -/
noncomputable def evaluate (randomized : Bool) (numCalls : Nat) (f : Nat → ℝ) : ℝ × Nat :=
  if randomized then
    let num := numEval randomized numCalls
    (((List.range num).map fun i => f (numCalls + i)).sum / num, numCalls + num)
  else (f numCalls, numCalls + 1)

/-! ### Sparse nets -/

/-- The penalty of `sparse_gym_multi_function` (multigym.py 456-471). -/
noncomputable def sparseLoss (limit : Nat) (enablers : List Nat) (loss : ℝ) : ℝ := loss + (1 + |loss|) * max 0 ((enablers.sum : ℝ) - limit)

/-- `weights * enablers` in `sparse_gym_multi_function`, as shapes: numpy stretches the last dimension if one of them is 1, and the product is reshaped to the shape of the policy
(multigym.py 464, 586); `none` if one of these fails. -/
def sparseShape : List Nat → Nat → Option (List Nat)
  | [n], m => if n = m ∨ n = 1 ∨ m = 1 then (if max n m = n then some [n] else none) else none
  | [a, n], m => if n = m ∨ n = 1 ∨ m = 1 then (if a * max n m = a * n then some [a, n] else none) else none
  | _, _ => none

/-! ### Weights -/

/-- `scrambled` and `noisy` (multigym.py 595-602): a permutation and a noise that are always the same. -/
noncomputable def prepare {n : Nat} (scrambled : Option (Equiv.Perm (Fin n))) (noise : Option (Fin n → ℝ)) (x : Fin n → ℝ) : Fin n → ℝ :=
  let x := match scrambled with
    | none => x
    | some σ => fun i => x (σ i)
  match noise with
  | none => x
  | some z => fun i => x i + 1 / 100 * z i

/-! ### The environment with tuples -/

/-- The step counter and the reward of `TupleActionSpace` (tuple_gym_env.py 16-56). -/
structure TupleEnv where
  current : Nat
  reward : ℤ

/-- The environment as it is made. Built on `TupleEnv` (tuple_gym_env.py 16-56). -/
def TupleEnv.new : TupleEnv := ⟨0, 0⟩

/-- `reset` (tuple_gym_env.py 48-49) only gives an observation. -/
def TupleEnv.reset (t : TupleEnv) : TupleEnv := t

/-- `step` (tuple_gym_env.py 40-46, 51-56) for 71 cells and 168 steps; `none` for a failed assertion. -/
def TupleEnv.step (t : TupleEnv) (action : List (List ℤ)) : Option (ℤ × Bool × TupleEnv) :=
  match action with
  | [a, b] =>
    if a.length = 71 then
      let r := b.sum - a.sum
      some (r, decide (t.current + 1 = 168), ⟨t.current + 1, r⟩)
    else none
  | _ => none

end NG.GymSim
