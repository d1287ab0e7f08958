/-
Tuning of the parameters of a learner (`nevergrad/functions/ml/mlfunctionlib.py`).

Simplifications. Real numbers; `np.arange(0, 1, 1 / m)` has exactly `m` entries. A learner is a state with `fit` and the error of its predictions (an external library); a shuffle is any permutation
of the rows or of the entries. The data that are read from files or from the network, and their splits by scikit-learn, are not modelled.
-/
import Mathlib.Analysis.SpecialFunctions.Trigonometric.Basic

namespace NG.Ml

/-! ### Arguments -/

/-- The arguments of `_ml_parametrization` (mlfunctionlib.py 44-55). -/
inductive Arg
  | depth | criterion | minSamplesSplit | solver | activation | alpha | learningRate | regressor | noiseFree
deriving DecidableEq

/-- Values of the arguments. Used in `run` (mlfunctionlib.py 56-106). -/
inductive Val
  | int (n : ℤ)
  | num (x : ℚ)
  | str (s : String)
  | bool (b : Bool)
deriving DecidableEq

/-- Keyword arguments. Used in `params` (mlfunctionlib.py 143-152, 176, 186-193, 204, 212-220). -/
abbrev Kw := Arg → Option Val

/-- The problems (mlfunctionlib.py 139-222). -/
inductive Problem
  | depth | any | tree | mlp | keras
deriving DecidableEq

/-- The arguments which are in the parametrization (mlfunctionlib.py 141, 156-174, 179-185, 197-203, 206-211). -/
def keys : Problem → List Arg
  | .depth => [.depth]
  | .any => [.depth, .criterion, .minSamplesSplit, .regressor, .activation, .solver, .learningRate, .alpha]
  | .tree => [.depth, .criterion, .minSamplesSplit, .regressor]
  | .mlp => [.activation, .solver, .regressor, .learningRate, .alpha]
  | .keras => [.activation, .solver, .regressor]

/-- The constants of the parametrization (mlfunctionlib.py 184, 200, 209). -/
def constant : Problem → Option String
  | .depth => none
  | .any => none
  | .tree => some "decision_tree"
  | .mlp => some "mlp"
  | .keras => some "keras_dense_nn"

/-- `params` (mlfunctionlib.py 143-152, 176, 186-193, 204, 212-220). -/
def params : Problem → Kw
  | .depth => fun
    | .noiseFree => some (.bool false)
    | .criterion => some (.str "friedman_mse")
    | .minSamplesSplit => some (.num (1 / 100000))
    | .regressor => some (.str "decision_tree")
    | .alpha => some (.num 1)
    | .learningRate => some (.str "no")
    | .activation => some (.str "no")
    | .solver => some (.str "no")
    | .depth => none
  | .any => fun
    | .noiseFree => some (.bool false)
    | _ => none
  | .tree => fun
    | .noiseFree => some (.bool false)
    | .alpha => some (.num 1)
    | .learningRate => some (.str "no")
    | .regressor => some (.str "decision_tree")
    | .activation => some (.str "no")
    | .solver => some (.str "no")
    | _ => none
  | .mlp => fun
    | .noiseFree => some (.bool false)
    | .regressor => some (.str "mlp")
    | .depth => some (.int (-3))
    | .criterion => some (.str "no")
    | .minSamplesSplit => some (.num (1 / 10))
    | _ => none
  | .keras => fun
    | .noiseFree => some (.bool false)
    | .regressor => some (.str "keras_dense_nn")
    | .depth => some (.int (-3))
    | .criterion => some (.str "no")
    | .minSamplesSplit => some (.num (1 / 10))
    | .alpha => some (.num (1 / 10))
    | .learningRate => some (.str "constant")
    | _ => none

/-- `evalparams` (mlfunctionlib.py 194, 224-227). -/
def evalparams (p : Problem) (overfitter : Bool) : Kw := fun a =>
  if a = .noiseFree then some (.bool !overfitter)
  else if p = .tree ∧ a = .criterion then some (.str "friedman_mse")
  else if p = .tree ∧ a = .minSamplesSplit then some (.num (1 / 100000))
  else params p a

/-- The arguments of a call of the function: `partial(self._ml_parametrization, **params)` (mlfunctionlib.py 229). -/
def callKw (p : Problem) (kw : Kw) : Kw := fun a => (kw a).or (params p a)

/-- The arguments in `evaluation_function` (mlfunctionlib.py 232-238). -/
def evalKw (p : Problem) (overfitter : Bool) (kw : Kw) : Kw := fun a => (evalparams p overfitter a).or (kw a)

/-! ### Learners and the error -/

/-- A learner: its state when it is made, `fit`, and the mean squared error on some data, `none` for a ValueError. Used in `cvLoop` (mlfunctionlib.py 95-104). -/
structure Learner (D σ : Type) where
  init : σ
  fit : σ → D → σ
  err : σ → D → Option ℝ

/-- The data (mlfunctionlib.py 126-137): training and test sets, and the folds with their training and validation parts. -/
structure Data (D : Type) where
  train : D
  test : D
  folds : List (D × D)

/-- Results: a number, or an exception. Used in `run` (mlfunctionlib.py 56-106). -/
inductive Out
  | val (x : ℝ)
  | typeError
  | valueError
  | assertError

/-- The loop over the folds (mlfunctionlib.py 95-104): the same learner is used for all of them. -/
noncomputable def cvLoop {D σ : Type} (L : Learner D σ) : List (D × D) → σ → ℝ → ℝ
  | [], _, result => result
  | f :: fs, s, result =>
    let s := L.fit s f.1
    cvLoop L fs s (result + (L.err s f.2).getD 5e20)

open Classical in
/-- `_ml_parametrization` (mlfunctionlib.py 56-106); `learner` makes the learner for the arguments, `k` is `_cross_val_num`. -/
noncomputable def run {D σ : Type} (learner : (Arg → Val) → Learner D σ) (data : Data D) (k : Nat) (kw : Kw) : Out :=
  if h : ∀ a, (kw a).isSome then
    let args : Arg → Val := fun a => (kw a).get (h a)
    if args .regressor = .str "decision_tree" ∨ args .regressor = .str "mlp" ∨ args .regressor = .str "keras_dense_nn" then
      let L := learner args
      if args .noiseFree = .bool true then
        match L.err (L.fit L.init data.train) data.test with
        | none => .valueError
        | some x => .val x
      else if data.folds ≠ [] ∧ ¬ ∃ n, args .depth = .int n then .assertError
      else .val (cvLoop L data.folds L.init 0 / k)
    else .valueError
  else .typeError

/-- The function to optimize, and the evaluation of a recommendation. Built on `run` (mlfunctionlib.py 56-106). -/
noncomputable def objective {D σ : Type} (learner : (Arg → Val) → Learner D σ) (data : Data D) (k : Nat) (p : Problem) (kw : Kw) : Out := run learner data k (callKw p kw)

/-- The evaluation of a recommendation. Built on `run` (mlfunctionlib.py 56-106). -/
noncomputable def evaluation {D σ : Type} (learner : (Arg → Val) → Learner D σ) (data : Data D) (k : Nat) (p : Problem) (overfitter : Bool) (kw : Kw) : Out :=
  run learner data k (evalKw p overfitter kw)

/-! ### Artificial data -/

/-- The three targets (mlfunctionlib.py 322-326). -/
inductive Target
  | sin | cos | square
deriving DecidableEq

/-- The target at a point. Built on `Target` (mlfunctionlib.py 322-326). -/
noncomputable def Target.apply : Target → ℝ → ℝ
  | .sin, x => Real.sin x
  | .cos, x => Real.cos x
  | .square, x => x * x

/-- `np.arange(0.0, 1.0, 1.0 / (n * d)).reshape(-1, d)` (mlfunctionlib.py 318-319). -/
noncomputable def grid (n d : Nat) : List (List ℝ) := (List.range n).map fun (r : Nat) => (List.range d).map fun (c : Nat) => ((r * d + c : ℕ) : ℝ) / ((n * d : ℕ) : ℝ)

/-- Rows with labels. Used in `makeData` (mlfunctionlib.py 315-353). -/
noncomputable def label (f : ℝ → ℝ) (X : List (List ℝ)) : List (List ℝ × ℝ) := X.map fun x => (x, (x.map f).sum)

/-- `X[np.arange(n) % k != cv]`, or `==` (mlfunctionlib.py 335, 341). -/
def pick {α : Type} (X : List α) (p : Nat → Bool) : List α := (X.zipIdx.filter fun e => p e.2).map Prod.fst

/-- `reshape(-1, d)`, `none` if the size is not a multiple of `d`. Used in `makeData` (mlfunctionlib.py 315-353). -/
def reshape {α : Type} (d : Nat) (x : List α) : Option (List (List α)) :=
  if d = 0 ∨ x.length % d ≠ 0 then none else some ((List.range (x.length / d)).map fun i => (x.drop (i * d)).take d)

/-- `make_dataset` for artificial data (mlfunctionlib.py 315-353): `X` the rows after their shuffle, `T` the entries of the test set after theirs. -/
noncomputable def makeData (target : Target) (d k : Nat) (X : List (List ℝ)) (T : List ℝ) : Option (Data (List (List ℝ × ℝ))) :=
  (reshape d T).map fun rows =>
    { train := label Real.sin X
      test := label target.apply rows
      folds := (List.range k).map fun cv => (label target.apply (pick X fun i => decide (i % k ≠ cv)), label target.apply (pick X fun i => decide (i % k = cv))) }

end NG.Ml
