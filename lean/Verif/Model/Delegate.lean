import Mathlib.Data.List.Sort
import Mathlib.Analysis.Real.Sqrt

/-!
# Model of the optimizers which delegate to another one, and of the quadratic metamodel

`ChoiceBase` and `NGOptBase` (optimization/optimizerlib.py 912-978, 3806-3910) hold one inner optimizer, built on the same parametrization, and
pass every `ask` and `tell` to it; `_MetaModel` (2127-2190) does the same but sometimes asks a metamodel instead (optimization/metamodel.py).
Both levels are complete `Optimizer` objects (optimization/base.py): each has its own set of asked points, counters, archive and penalties.
-/

namespace NG
namespace Delegate

/-- The part of an `Optimizer` (base.py) the delegation acts on: `_asked`, the counters, what `_update_archive_and_bests` received and what
`_internal_tell_candidate` / `_internal_tell_not_asked` received. Points are identified by their `uid`. Used in `told` (base.py 391-431). -/
structure Opt (R : Type) where
  asked : List Nat := []
  numAsk : Nat := 0
  numTell : Nat := 0
  notAsked : Nat := 0
  archived : List (Nat × R) := []
  received : List (Nat × R) := []

/-- Both levels; `losses` is the field `loss` of the candidates, the last assignment first. Used in `ask` (base.py 481-557, 3891). -/
structure St (R : Type) where
  outer : Opt R := {}
  inner : Opt R := {}
  losses : List (Nat × R) := []

/-- The constant part: whether the inner optimizer accepts points it has not asked for, and the penalties of the two constraint managers for a
point which violates the constraints, `none` for a feasible point (base.py 397-400). -/
structure Cfg (R : Type) where
  acceptsNotAsked : Bool
  outerPen : Nat → Option R
  innerPen : Nat → Option R

/-- What one level does with a told loss: the loss it passes on. Used in `told` (base.py 391-431). -/
def penalised {R : Type} [Add R] (pen : Nat → Option R) (uid : Nat) (loss : R) : R :=
  match pen uid with
  | none => loss
  | some p => loss + p

/-- `Optimizer.ask` at both levels (base.py 481-557, 3891): the inner one is asked, and both register the point. The constraint loop of `ask` is
not modelled here. -/
def ask {R : Type} (uid : Nat) (s : St R) : St R :=
  { s with
    outer := { s.outer with asked := uid :: s.outer.asked, numAsk := s.outer.numAsk + 1 }
    inner := { s.inner with asked := uid :: s.inner.asked, numAsk := s.inner.numAsk + 1 } }

/-- `ask` when the outer optimizer has a suggestion (base.py 513-515, 541-547), or for `_MetaModel` a point of the metamodel in its case `own`
(2169-2175, registered as asked): the inner optimizer is not called. -/
def askOwn {R : Type} (own : Bool) (uid : Nat) (s : St R) : St R :=
  { s with outer := { s.outer with asked := if own then uid :: s.outer.asked else s.outer.asked, numAsk := s.outer.numAsk + 1 } }

variable {R : Type}

/-- One level of `Optimizer.tell` (base.py 391-431) once the internal method has returned: the archive is only updated with feasible points. -/
def told [Add R] (pen : Nat → Option R) (uid : Nat) (loss : R) (o : Opt R) : Opt R :=
  { o with
    asked := o.asked.erase uid
    numTell := o.numTell + 1
    notAsked := if uid ∈ o.asked then o.notAsked else o.notAsked + 1
    archived := if (pen uid).isNone then o.archived ++ [(uid, loss)] else o.archived
    received := o.received ++ [(uid, penalised pen uid loss)] }

/-- `tell` through both levels (3894, 3900, 2180): the inner `tell` receives the penalised loss of the outer one, and assigns `candidate.loss`
again. `none` is `TellNotAskedNotSupportedError`. -/
def tell [Add R] (cfg : Cfg R) (uid : Nat) (loss : R) (s : St R) : Option (St R) :=
  if uid ∈ s.inner.asked ∨ cfg.acceptsNotAsked = true then
    some
      { outer := told cfg.outerPen uid loss s.outer
        inner := told cfg.innerPen uid (penalised cfg.outerPen uid loss) s.inner
        losses := (uid, penalised cfg.outerPen uid loss) :: (uid, loss) :: s.losses }
  else none

/-- `candidate.loss`. Built on `St` (base.py 481-557, 3891). -/
def lossOf (s : St R) (uid : Nat) : Option R := (s.losses.find? (fun p => p.1 == uid)).map (fun p => p.2)

/-- A call of the user; `own` marks points the outer optimizer registers as its own. Used in `step` (optimizerlib.py 3894, 3900, 2180). -/
inductive Op (R : Type) where
  | ask (uid : Nat)
  | askOwn (own : Bool) (uid : Nat)
  | tell (uid : Nat) (loss : R)

/-- One call. Built on `tell` (optimizerlib.py 3894, 3900, 2180). -/
def step [Add R] (cfg : Cfg R) : Op R → St R → Option (St R)
  | .ask uid, s => some (ask uid s)
  | .askOwn own uid, s => some (askOwn own uid s)
  | .tell uid loss, s => tell cfg uid loss s

/-- A sequence of calls. Built on `Cfg` (base.py 397-400). -/
def run [Add R] (cfg : Cfg R) : List (Op R) → St R → Option (St R)
  | [], s => some s
  | op :: ops, s => (step cfg op s).bind (run cfg ops)

end Delegate

namespace MetaModel

/-- `sample_size` of `_MetaModel`, degree 2 (2155): `int(d * (d - 1) / 2 + 2 * d + 1)`. -/
def sampleSize (d : Nat) : Nat := (d * (d - 1)) / 2 + 2 * d + 1

/-- `freq` (2164-2169), algorithms other than "image" and "voxelize"; `scaled` is `int(frequency_ratio * sample_size)`. -/
def freq (workers d scaled : Nat) : Nat := max (max 13 workers) (max d scaled)

/-- Is the metamodel tried at this `ask` (2170)? -/
def tries (workers d scaled archive numAsk : Nat) : Bool :=
  decide (sampleSize d ≤ archive) && decide (numAsk % freq workers d scaled = 0)

variable {ι : Type} [Fintype ι]

/-- A point of the archive with its two estimates. Used in `kBest` (metamodel.py 41). -/
structure Item (ι : Type) where
  x : ι → ℝ
  average : ℝ
  pessimistic : ℝ

/-- The `k` best (metamodel.py 41). -/
noncomputable def kBest (k : Nat) (items : List (Item ι)) : List (Item ι) :=
  (items.insertionSort (fun a b => a.average ≤ b.average)).take k

/-- `middle` (86). -/
noncomputable def middle (k : Nat) (l : List (Item ι)) : ι → ℝ := fun i => (l.map (fun a => a.x i)).sum / k

/-- Euclidean distance. Used in `normalization` (metamodel.py 87). -/
noncomputable def dist2 (x y : ι → ℝ) : ℝ := Real.sqrt (Finset.univ.sum (fun i => (x i - y i) ^ 2))

/-- `normalization` (87): `1e-15` plus the distance between the best and the last of the `k` best. -/
noncomputable def normalization (l : List (Item ι)) : ℝ :=
  match l.head?, l.getLast? with
  | some a, some b => 1 / 10 ^ 15 + dist2 b.x a.x
  | _, _ => 1 / 10 ^ 15

/-- `y` (92, 111): pessimistic losses scaled to `[0, 1]`. -/
noncomputable def scaled (lo hi y : ℝ) : ℝ := (y - lo) / (hi - lo)

/-- Outcome of `learn_on_k_best`. Used in `learn` (metamodel.py 14-237). -/
inductive Out (ι : Type) where
  | assertion
  | failure
  | point (x : ι → ℝ)

open Classical in
/-- `learn_on_k_best` for the algorithms "quad", "neural", "svr", "rf" (14-237). `fit` is the training of the regression model on the recentred points and
scaled losses, `search` the minimization of its prediction (`none` for a ValueError). The order
of equal losses in `np.argsort` is the one of a stable sort. -/
noncomputable def learn (k : Nat) (items : List (Item ι)) (fit : List ((ι → ℝ) × ℝ) → (ι → ℝ) → ℝ)
    (search : ((ι → ℝ) → ℝ) → Option (ι → ℝ)) : Out ι :=
  let best := kBest k items
  let lo := ((best.map (fun a => a.pessimistic)).min?).getD 0
  let hi := ((best.map (fun a => a.pessimistic)).max?).getD 0
  let data := best.map (fun a => ((fun i => (a.x i - middle k best i) / normalization best : ι → ℝ), scaled lo hi a.pessimistic))
  let model := fit data
  if best.length ≠ k then .assertion
  else if ¬ (1 / 10 ^ 20 < hi - lo) then .failure
  else if ¬ (((data.insertionSort (fun a b => a.2 ≤ b.2)).map (fun a => model a.1)).Pairwise (· < ·)) then .failure
  else
    match search model, data.head? with
    | some m, some first =>
      if first.2 < model m then .failure
      else if 1 < Finset.univ.sum (fun i => m i ^ 2) then .failure
      else .point (fun i => middle k best i + normalization best * m i)
    | _, _ => .failure

end MetaModel
end NG
