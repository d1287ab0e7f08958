/-
The controllers of the gym problems (`nevergrad/functions/gym/multigym.py` 151-536): sizes of the nets, their outputs, and the actions.

Simplifications. Real numbers, without infinite values and NaN. Matrices are lists of rows, arrays that are changed in place are given back as results. The words in the name of the control are
flags. Types of the actions other than their being discrete or integers are not modelled, and the cumulative function of the normal distribution is a parameter.
-/
import Mathlib.Analysis.SpecialFunctions.Trigonometric.DerivHyp
import Mathlib.Analysis.Real.Sqrt
import Mathlib.Data.Real.Archimedean
import Mathlib.Data.List.MinMax

namespace NG.GymNet

/-! ### Sizes -/

/-- Words in the name of the control (multigym.py 44-77). -/
structure Ctl where
  resid : Bool := false
  deep : Bool := false
  semi : Bool := false
  memory : Bool := false
  stacking : Bool := false

/-- Sizes (multigym.py 241-262). -/
structure Dims where
  inDim : Nat
  outDim : Nat
  memLen : Nat
  extLen : Nat
  neurons : Nat
  layers : Nat
  firstSize : Nat
  secondSize : Nat
  total : Nat

/-- The sizes for a control (multigym.py 238-262): `rawIn` and `rawOut` are the numbers of entries of the observations and of the actions; `num_stacking` is 1. -/
def dims (c : Ctl) (factor rawIn rawOut : Nat) : Dims :=
  let memLen := if c.memory then factor * rawIn else 0
  let extLen := if c.stacking then rawIn + rawOut else 0
  let inDim := rawIn + memLen + extLen
  let outDim := rawOut + memLen
  let neurons := factor * (inDim - extLen)
  let layers := if c.semi then 1 else 3
  let internal := if c.deep then layers * neurons ^ 2 else 0
  { inDim := inDim, outDim := outDim, memLen := memLen, extLen := extLen, neurons := neurons, layers := if c.deep then layers else 0,
    firstSize := neurons * (inDim + 1), secondSize := neurons * outDim, total := outDim * neurons + neurons * (inDim + 1) + internal }

/-! ### Outputs -/

/-- `reshape((rows, cols))`; `none` for another number of entries. Used in `deepGo` (multigym.py 441-451). -/
def mat (rows cols : Nat) (l : List ℝ) : Option (List (List ℝ)) :=
  if l.length = rows * cols then some ((List.range rows).map fun i => (l.drop (i * cols)).take cols) else none

/-- `np.matmul` of a vector and a matrix; `none` if the sizes do not match. Used in `deepGo` (multigym.py 441-451). -/
noncomputable def vecMat (o : List ℝ) (W : List (List ℝ)) (cols : Nat) : Option (List ℝ) :=
  if o.length = W.length then some ((List.range cols).map fun j => ((List.range o.length).map fun i => o.getD i 0 * (W.getD i []).getD j 0).sum) else none

/-- A matrix of `cols` columns plus `s` times `np.eye`, on the entries in their order. Used in `deepGo` (multigym.py 441-451). -/
noncomputable def addEye (s : ℝ) (cols : Nat) (l : List ℝ) : List ℝ := l.mapIdx fun p v => if p / cols = p % cols then v + s else v

/-- The internal layers (multigym.py 441-451): the outputs, the weights after it and the index. The layer is a view of `x`, so the identity is added to `x` itself. -/
noncomputable def deepGo (resid : Bool) (s : ℝ) (n : Nat) : Nat → Nat → List ℝ → List ℝ → Option (List ℝ × List ℝ × Nat)
  | 0, idx, x, output => some (output, x, idx)
  | k + 1, idx, x, output => do
    let output := output.map Real.tanh
    let layer := (x.drop idx).take (n ^ 2)
    let layer := if resid then addEye s n layer else layer
    let x := x.take idx ++ layer ++ x.drop (idx + n ^ 2)
    let W ← mat n n layer
    let output ← vecMat output W n
    deepGo resid s n k (idx + n ^ 2) x (output.map (· / √n))

/-- `neural` (multigym.py 402-454) for nets that are neither linear nor structured: the action, the memory, and the array of the weights after the call. `scale` is `optimization_scale`: the weights
are copied when it is not 0. -/
noncomputable def neural (c : Ctl) (d : Dims) (scale : ℤ) (x0 o : List ℝ) : Option (List ℝ × List ℝ × List ℝ) := do
  let myScale : ℝ := 2 ^ scale
  let x := if scale ≠ 0 then x0.map (myScale * ·) else x0
  let first := (x.take d.firstSize).map (· / √o.length)
  let first ← mat (d.inDim + 1) d.neurons (if c.resid then addEye myScale d.neurons first else first)
  let second := ((x.drop d.firstSize).take d.secondSize).map (· / √d.neurons)
  let second ← mat d.neurons d.outDim (if c.resid then addEye myScale d.outDim second else second)
  let output ← vecMat o first.tail d.neurons
  let (output, x, _) ← (if c.deep then do
      let (output, x, idx) ← deepGo c.resid myScale d.neurons d.layers (d.firstSize + d.secondSize) x output
      if idx = x.length then some (output, x, idx) else none
    else some (output, x, 0))
  let output ← vecMat (List.zipWith (fun a b => Real.tanh (a + b)) output (first.headD [])) second d.outDim
  return (output.drop d.memLen, output.take d.memLen, if scale ≠ 0 then x0 else x)

/-- The same with `greedy_bias` (multigym.py 404-408): the coefficient is the last entry, and the slice `x[:-1]` is a view. -/
noncomputable def neuralGreedy (c : Ctl) (d : Dims) (scale : ℤ) (x0 o : List ℝ) : Option (ℝ × List ℝ × List ℝ × List ℝ) := do
  let coefficient ← x0.getLast?
  let (a, m, x) ← neural c d scale x0.dropLast o
  return (coefficient, a, m, x ++ [coefficient])

/-- The linear control (multigym.py 413-417); `x` has `input_dim + 1` rows. -/
noncomputable def linear (d : Dims) (scale : ℤ) (x : List (List ℝ)) (o : List ℝ) : Option (List ℝ) :=
  let x := if scale ≠ 0 then x.map fun r => r.map fun (v : ℝ) => (2 : ℝ) ^ scale * v else x
  (vecMat o x.tail d.outDim).map fun out => List.zipWith (· + ·) out (x.headD [])

/-- What a structured net gets (multigym.py 425-435): the value of the candidate with its two matrices, or the first matrix alone, as `gym_multi_function` gets it as its first argument. -/
inductive Given
  | value (first second : List (List ℝ))
  | first (rows : List (List ℝ))

/-- The shape of a list of rows. Used in `structuredSplit` (multigym.py 425-435). -/
def hasShape (rows cols : Nat) (m : List (List ℝ)) : Bool := decide (m.length = rows) && m.all fun r => decide (r.length = cols)

/-- The two matrices (multigym.py 425-435); `none` for a failed assertion. For a matrix, `x[0][0]` is one number, which has no shape. -/
def structuredSplit (d : Dims) : Given → Option (List (List ℝ) × List (List ℝ))
  | .value a b => if hasShape (d.inDim + 1) d.neurons a && hasShape d.neurons d.outDim b then some (a, b) else none
  | .first _ => none

/-- The call of the function on a candidate of `p.Instrumentation(Array, Array)` (multigym.py 284-288, 312-315): the arguments are passed on one by one, so that the second matrix is the argument
`limited_fidelity` of `gym_multi_function` (multigym.py 473). The evaluation of a recommendation takes its value (multigym.py 336). -/
def structuredCall (a _ : List (List ℝ)) : Given := .first a

/-- What the evaluation of a recommendation receives. Built on `Given` (multigym.py 425-435). -/
def structuredEval (a b : List (List ℝ)) : Given := .value a b

/-! ### Actions -/

/-- `softmax` (multigym.py 354-358). -/
noncomputable def softmax (a : List ℝ) : List ℝ :=
  let e := a.map fun v => Real.exp (v - (a.max?).getD 0)
  e.map (· / e.sum)

/-- `discretize` for a tuple of discrete spaces (multigym.py 362-391): one number for each of them when the control is conformant, else as many as its arity. `choose` draws an index for probabilities;
the numbers that remain are given back. -/
noncomputable def discretizeRow (conformant : Bool) (cdf : ℝ → ℝ) (choose : List ℝ → Nat) : List Nat → List ℝ → Option (List Nat × List ℝ)
  | [], a => some ([], a)
  | k :: ks, a =>
    if conformant then
      match a with
      | [] => none
      | v :: a => (discretizeRow conformant cdf choose ks a).map fun r => (min (⌊cdf v * k⌋₊) (k - 1) :: r.1, r.2)
    else (discretizeRow conformant cdf choose ks (a.drop k)).map fun r => (choose (softmax (a.take k)) :: r.1, r.2)

/-- All components of the action, one after the other. Built on `discretizeRow` (multigym.py 362-391). -/
noncomputable def discretizeTuple (conformant : Bool) (cdf : ℝ → ℝ) (choose : List ℝ → Nat) : List (List Nat) → List ℝ → Option (List (List Nat))
  | [], a => if a = [] then some [] else none
  | ks :: rest, a =>
    match discretizeRow conformant cdf choose ks a with
    | none => none
    | some (r, a') => (discretizeTuple conformant cdf choose rest a').map (r :: ·)

/-- The number of outputs for a tuple of discrete spaces (multigym.py 192-200). -/
def tupleDim (conformant : Bool) (arities : List (List Nat)) : Nat := (arities.map fun ks => if conformant then ks.length else ks.sum).sum

/-- `discretize` for one discrete space (multigym.py 393-400): with `greedy_bias` the reward of each action is added. -/
noncomputable def discretize (greedy : Option (ℝ × (Nat → ℝ))) (choose : List ℝ → Nat) (a : List ℝ) : Nat :=
  let a := match greedy with
    | none => a
    | some (coefficient, r) => a.mapIdx fun i v => v + coefficient * r i
  choose (softmax a)

/-- `action_cast` of an entry of a continuous action (multigym.py 507-521). -/
noncomputable def castReal (low high a : ℝ) : ℝ := low + (high - low) * (1 / 2 * (1 + Real.tanh a))

/-- The same for integers: `int` drops the decimals. Built on `castReal` (multigym.py 507-521). -/
noncomputable def castInt (low high a : ℝ) : ℤ :=
  let v := castReal low high a
  if 0 ≤ v then ⌊v⌋ else ⌈v⌉

end NG.GymNet
