import Mathlib.Analysis.SpecialFunctions.Exp

/-!
# The neural networks of the reinforcement learning problems

Model of `TorchAgent.act`, `TorchAgentFunction.compute` and `evaluation_function`, `Perceptron` and `DenseNet`
(`nevergrad/functions/rl/agents.py` 109-199).  Numbers are real: NaN and overflow are not modelled, an error
raised while playing is an argument.  Tensors are lists.
-/

namespace NG.Neural

/-- The product of a row of weights and the inputs. -/
noncomputable def dot (r x : List ℝ) : ℝ := (List.zipWith (fun a b : ℝ => a * b) r x).sum

/-- `nn.Linear` (agents.py 178, 189-192): weights by rows, and biases. -/
structure Linear where
  weight : List (List ℝ)
  bias : List ℝ

/-- The call of a linear layer (agents.py 182, 196-199). -/
noncomputable def Linear.run (l : Linear) (x : List ℝ) : List ℝ :=
  List.zipWith (fun r b => dot r x + b) l.weight l.bias

/-- `F.relu` (agents.py 196-198). -/
noncomputable def relu (x : List ℝ) : List ℝ := x.map fun a : ℝ => max a 0

/-- `DenseNet.forward` (agents.py 194-199). -/
noncomputable def denseNet (lin1 lin2 lin3 head : Linear) (obs : List ℝ) : List ℝ :=
  let x := relu (lin1.run obs)
  let x := relu (lin2.run x)
  let x := relu (lin3.run x)
  head.run x

/-- `F.softmax` (agents.py 118). -/
noncomputable def softmax (l : List ℝ) : List ℝ :=
  l.map fun a : ℝ => Real.exp a / (l.map fun b : ℝ => Real.exp b).sum

open Classical in
/-- The index of the largest entry, `probas.max(0)[1]` (agents.py 120); the first one if there are several.
`best` is the entry kept so far, of index `k`, and `i` the index of the next one. -/
noncomputable def argmaxFrom (best : ℝ) (k i : Nat) : List ℝ → Nat
  | [] => k
  | a :: l => if best < a then argmaxFrom a i (i + 1) l else argmaxFrom best k (i + 1) l

/-- See `argmaxFrom` (agents.py 120). -/
noncomputable def argmax : List ℝ → Nat
  | [] => 0
  | a :: l => argmaxFrom a 0 1 l

open Classical in
/-- `next(iter(WeightedRandomSampler(probas, 1)))` (agents.py 122) for a draw `u` in `[0, 1)`: the first index at which
the sum of the probabilities is above the draw. -/
noncomputable def sample : List ℝ → ℝ → Nat
  | [], _ => 0
  | p :: l, u => if u < p then 0 else sample l (u - p) + 1

/-- `TorchAgent.act` (agents.py 109-122) with the outputs of the module. -/
noncomputable def act (deterministic : Bool) (outputs : List ℝ) (u : ℝ) : Nat :=
  if deterministic then argmax (softmax outputs) else sample (softmax outputs) u

/-- What playing may end with: a reward, a `RuntimeError`, another error. -/
inductive Play where
  | reward (r : ℝ)
  | runtimeError
  | otherError

/-- `TorchAgentFunction.compute` (agents.py 153-163): `none` is an error. -/
noncomputable def compute (post : ℝ → ℝ) : Play → Option ℝ
  | .reward r => some (post r)
  | .runtimeError => some (post 0)
  | .otherError => none

/-- The sum of the values of the calls, if none raises (agents.py 171). -/
noncomputable def total (post : ℝ → ℝ) : List Play → Option ℝ
  | [] => some 0
  | p :: l =>
    match compute post p, total post l with
    | some a, some b => some (a + b)
    | _, _ => none

/-- `evaluation_function` (agents.py 165-171) for the outcomes of the plays; `budget` is `_num_test_evaluations`. -/
noncomputable def evaluation (post : ℝ → ℝ) (budget repetitions : Nat) (plays : Nat → Play) : Option ℝ :=
  let n := max 1 (budget / repetitions)
  (total post ((List.range n).map plays)).map fun s => s / n

end NG.Neural
