import Mathlib.Algebra.Order.Field.Basic
import Mathlib.Algebra.Order.BigOperators.Group.List

/-!
# Multiple single-objective runs (nevergrad/optimization/optimizerlib.py 5349-5396)

`MultipleSingleRuns` is a portfolio of copies of one optimizer, "with random weights for the different objective functions". Modelled: the
path of a loss through `Optimizer.tell` (base.py 336-431), `_MSR._internal_tell_candidate` (5371-5378) and the `tell` of each run. The
losses are finite; constraints are left out (they add penalties at both levels, C76).
-/

namespace NG
namespace Msr
variable {α : Type} [Field α] [LinearOrder α]

/-- Clipping of `tell` (base.py 342-347): `loss = 5.0e20` unless `loss < 5.0e20`. -/
def clip (x : α) : α := if x < 500000000000000000000 then x else 500000000000000000000

/-- One run: what it was told, oldest first, and whether it accepts points it did not ask. Used in `State` (base.py 389). -/
structure Run (α : Type) where
  told : List (Nat × α)
  acceptsOthers : Bool

/-- The optimizer: state `σ` of the hypervolume front, weights of the runs (empty before the first tell, 5369), runs, and the attribute
`loss` of the candidates, which all levels write (base.py 389). -/
structure State (α σ : Type) where
  front : σ
  coeffs : List (List α)
  runs : List (Run α)
  attr : Nat → Option α

/-- `_MSR.__init__` (5355-5369): `num_single_runs` copies of one optimizer. -/
def init {σ : Type} (front : σ) (numRuns : Nat) (acceptsOthers : Bool) : State α σ :=
  ⟨front, [], List.replicate numRuns ⟨[], acceptsOthers⟩, fun _ => none⟩

/-- `np.sum(loss * coeffs)` (5377) for a number `loss`. -/
def weighted (loss : α) (coeffs : List α) : α := (coeffs.map (fun w => loss * w)).sum

/-- Lines 5376-5378: the runs are told one after the other; run `i` asked the candidate iff `asker = i`. A run which refuses raises, the runs
before it have been told, those after it have not. The flag tells whether no error was raised. -/
def tellRuns (cand : Nat) (asker : Nat) (loss : α) : Nat → List (List α) → List (Run α) → (Nat → Option α) →
    List (Run α) × (Nat → Option α) × Bool
  | i, cs :: coeffs, r :: runs, attr =>
    let this := clip (weighted loss cs)
    let attr := fun n => if n = cand then some this else attr n
    if asker = i || r.acceptsOthers then
      let rest := tellRuns cand asker loss (i + 1) coeffs runs attr
      ({ r with told := r.told ++ [(cand, this)] } :: rest.1, rest.2)
    else (r :: runs, attr, false)
  | _, _, runs, attr => (runs, attr, true)

/-- The number the optimizer works with: one loss is taken as it is (base.py 337-347), several are replaced by the loss `pre` of the hypervolume
front (386-387, 433-438). -/
def preprocess {σ : Type} (pre : σ → List α → α × σ) (front : σ) : List α → α × σ
  | [x] => (clip x, front)
  | l => pre front l

/-- `tell(candidate, losses)` (base.py 336-431) of a candidate asked to run `asker`. The weights are drawn at the first tell (5372-5375): `draw k` are the weights of
all runs for `k` objectives. -/
def tell {σ : Type} (pre : σ → List α → α × σ) (draw : Nat → List (List α)) (cand asker : Nat) (losses : List α) (s : State α σ) : State α σ × Bool :=
  let r := preprocess pre s.front losses
  let coeffs := if s.coeffs.isEmpty then draw losses.length else s.coeffs
  let t := tellRuns cand asker r.1 0 coeffs s.runs (fun n => if n = cand then some r.1 else s.attr n)
  (⟨r.2, coeffs, t.1, t.2.1⟩, t.2.2)

/-- A sequence of tells: candidate, run which asked it, losses. It stops at the first error. Built on `tell` (base.py 336-431). -/
def tells {σ : Type} (pre : σ → List α → α × σ) (draw : Nat → List (List α)) : List (Nat × Nat × List α) → State α σ → State α σ × Bool
  | [], s => (s, true)
  | (cand, asker, losses) :: l, s =>
    match tell pre draw cand asker losses s with
    | (s', true) => tells pre draw l s'
    | (s', false) => (s', false)

end Msr
end NG
