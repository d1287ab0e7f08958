import Mathlib.Algebra.Order.Field.Basic
import Mathlib.Order.WithBot

/-!
# Model of `MultiValue`, `Pruning` and the archive/best bookkeeping of `Optimizer.tell`

Sources: nevergrad/optimization/utils.py 15-99 (`MultiValue`), 177-241 (`Archive`), 244-307
(`Pruning`), nevergrad/optimization/base.py 384-423, 440-479 (`tell`, `_update_archive_and_bests`),
571-591 (`recommend`).

Numbers live in an arbitrary linear ordered field `α` (exact arithmetic, no NaN, no overflow), the
square root is a parameter `sqrt : α → α`. Candidates are identifiers `U` because the same Python
object may be told several times; the mutable attribute `candidate.loss` lives in the state.
`MultiValue` objects are compared by identity (`is`) in the code: they are heap cells.
-/

namespace NG

section Values
variable {α : Type} [Field α] [LinearOrder α]
variable {U K : Type}

/-- `MultiValue` attributes (optimization/utils.py 35-44); `param` is the `parameter` attribute. -/
structure MV (α U : Type) where
  count : Nat
  mean : α
  minimum : α
  square : α
  variance : α
  param : U
deriving DecidableEq, Repr

/-- The four estimation names (optimization/utils.py 58-69, base.py 118). -/
inductive Crit where
  | optimistic | pessimistic | average | minimum
deriving DecidableEq, Repr

namespace MV

/-- `MultiValue.__init__` (optimization/utils.py 35-44). -/
def init (u : U) (y : α) : MV α U :=
  { count := 1, mean := y, minimum := y, square := y * y, variance := 10 ^ 6, param := u }

/-- Clipping of repeated evaluations (optimization/utils.py 79-82). -/
def clip (y : α) : α := if y > 10 ^ 10 then 10 ^ 10 else if y < -(10 ^ 10) then -(10 ^ 10) else y

/-- `MultiValue.add_evaluation` (optimization/utils.py 71-93). The `OverflowError` branch (float range)
is not modelled. -/
def addEvaluation (sqrt : α → α) (v : MV α U) (y0 : α) : MV α U :=
  let y := clip y0
  let minimum := min v.minimum y
  let ratio : α := (v.count : α) / ((v.count : α) + 1)
  let mean := ratio * v.mean + y / ((v.count : α) + 1)
  let square := ((v.count : α) * v.square + y * y) / ((v.count : α) + 1)
  let count := v.count + 1
  let square := max square (mean ^ 2)
  let factor := sqrt ((count : α) / ((count : α) - 1))
  { count := count, mean := mean, minimum := minimum, square := square,
    variance := factor * (square - mean ^ 2), param := v.param }

/-- `optimistic_confidence_bound` (optimization/utils.py 50-52). -/
def optimisticBound (sqrt : α → α) (v : MV α U) : α :=
  v.mean - 1 / 10 * sqrt (v.variance / (1 + (v.count : α)))

/-- `pessimistic_confidence_bound` (optimization/utils.py 54-56). -/
def pessimisticBound (sqrt : α → α) (v : MV α U) : α :=
  v.mean + 1 / 10 * sqrt (v.variance / (1 + (v.count : α)))

/-- `MultiValue.get_estimation` (optimization/utils.py 58-69). -/
def estimation (sqrt : α → α) (v : MV α U) : Crit → α
  | .optimistic => v.optimisticBound sqrt
  | .pessimistic => v.pessimisticBound sqrt
  | .minimum => v.minimum
  | .average => v.mean

end MV

/-- Python's `min(iterable, key=f)`: the first element of minimal key. Used in `updateBest` (base.py 462-469). -/
def firstMin {β γ : Type} [LT γ] [DecidableLT γ] (f : β → γ) : List β → Option β
  | [] => none
  | b :: l => some (l.foldl (fun m x => if f x < f m then x else m) b)

/-- What the archive logic needs from outside: the standardized data of a candidate (constant since
candidates are frozen by `tell`, base.py 370), the square root and the pruning callable
(base.py 122, 478-479), which sees the archive and the values it holds. -/
structure ArchiveCfg (α U K : Type) where
  key : U → K
  sqrt : α → α
  prune : (Nat → MV α U) → List (K × Nat) → List (K × Nat)

/-- State touched by `_update_archive_and_bests`: heap of `MultiValue` objects, next free address,
the archive dict (insertion order) from standardized data to objects, `current_bests` (`none` is the
initial object with value `np.inf`, base.py 116-119) and the `loss` attribute of the candidates. -/
structure ArchiveSt (α U K : Type) where
  heap : Nat → MV α U
  next : Nat
  archive : List (K × Nat)
  bests : Crit → Option Nat
  candLoss : U → Option α

namespace ArchiveSt
variable [DecidableEq K] [DecidableEq U]

/-- Fresh optimizer (base.py 113-119). The content of unallocated heap cells is irrelevant. -/
def init (root : U) : ArchiveSt α U K :=
  { heap := fun _ => MV.init root 0, next := 0, archive := [], bests := fun _ => none,
    candLoss := fun _ => none }

/-- `archive[x]` / `x in archive` (optimization/utils.py 186-193). -/
def lookup (s : ArchiveSt α U K) (x : K) : Option Nat :=
  (s.archive.find? (fun e => e.1 == x)).map (·.2)

/-- `self.current_bests[name].get_estimation(name)`; the initial value is infinite. Used in `updateBest` (base.py 462-469). -/
def bestEst (cfg : ArchiveCfg α U K) (s : ArchiveSt α U K) (c : Crit) : WithTop α :=
  match s.bests c with
  | none => ⊤
  | some i => (((s.heap i).estimation cfg.sqrt c : α) : WithTop α)

/-- Comparison `parameter.loss > candidate.loss` (base.py 457). Both losses are set at this point; a
missing one would raise, which cannot happen here (proved: `param` was told before). -/
def lossGt (a b : Option α) : Bool :=
  match a, b with
  | some a, some b => decide (a > b)
  | _, _ => false

/-- First half of `_update_archive_and_bests` (base.py 441-458): insert or update the value of the
point. Returns the state, the address of the point's value and whether it pre-existed (`mvalue`). -/
def record (cfg : ArchiveCfg α U K) (s : ArchiveSt α U K) (u : U) (loss : α) :
    ArchiveSt α U K × Nat × Bool :=
  match s.lookup (cfg.key u) with
  | none =>
    ({ s with
        heap := fun j => if j = s.next then MV.init u loss else s.heap j
        next := s.next + 1
        archive := s.archive ++ [(cfg.key u, s.next)] }, s.next, false)
  | some i =>
    let v := (s.heap i).addEvaluation cfg.sqrt loss
    let v := if lossGt (s.candLoss v.param) (s.candLoss u) then { v with param := u } else v
    ({ s with heap := fun j => if j = i then v else s.heap j }, i, true)

/-- The update of one tracked best (base.py 462-469). `i` is the address of the value of the told point,
`existed` tells whether `mvalue` is that object (it is `None` for a new point). -/
def updateBest (cfg : ArchiveCfg α U K) (s : ArchiveSt α U K) (i : Nat) (existed : Bool) (c : Crit) :
    Option Nat :=
  if existed && (s.bests c == some i) then
    firstMin (fun j => (s.heap j).estimation cfg.sqrt c) (s.archive.map (·.2))
  else if (((s.heap i).estimation cfg.sqrt c : α) : WithTop α) ≤ s.bestEst cfg c then some i
  else s.bests c

/-- Archive part of `tell` (base.py 389, 423, 440-479), after loss normalisation: the candidate's `loss`
attribute is overwritten with the told loss, then the archive and the bests are updated with the possibly
penalized loss, then the archive is pruned. -/
def tellAs (cfg : ArchiveCfg α U K) (s : ArchiveSt α U K) (u : U) (told loss : α) : ArchiveSt α U K :=
  let s := { s with candLoss := fun v => if v = u then some told else s.candLoss v }
  let r := s.record cfg u loss
  let s := r.1
  let s := { s with bests := fun c => s.updateBest cfg r.2.1 r.2.2 c }
  { s with archive := cfg.prune s.heap s.archive }

/-- `tell` for a single-objective, unconstrained optimizer: no penalty. Built on `tellAs` (base.py 389, 423, 440-479). -/
def tell (cfg : ArchiveCfg α U K) (s : ArchiveSt α U K) (u : U) (loss : α) : ArchiveSt α U K :=
  s.tellAs cfg u loss loss

/-- A history of tells (chronological). Built on `ArchiveSt` (base.py 116-119). -/
def tells (cfg : ArchiveCfg α U K) (s : ArchiveSt α U K) (h : List (U × α)) : ArchiveSt α U K :=
  h.foldl (fun s e => s.tell cfg e.1 e.2) s

/-- `recommend` when `_internal_provide_recommendation` returns `None` (base.py 584-587): the parameter
of the "minimum" best if the function is deterministic, of the "pessimistic" best otherwise; `root` is
the parametrization held by the initial bests. -/
def recommend (s : ArchiveSt α U K) (root : U) (deterministic : Bool) : U :=
  match s.bests (if deterministic then .minimum else .pessimistic) with
  | none => root
  | some i => (s.heap i).param

end ArchiveSt
end Values

/-- `Pruning` parameters (optimization/utils.py 261-264). -/
structure Pruning where
  minLen : Nat
  maxLen : Nat
deriving Repr, DecidableEq

namespace Pruning
variable {α : Type} [LinearOrder α]

/-- `np.quantile(values, threshold, method="lower")` with `threshold = (min_len + 1) / n`
(optimization/utils.py 275-280): numpy takes the element of index `floor (threshold * (n - 1))` of the
sorted values and rejects `threshold > 1` (`none`). -/
def lowerQuantile (values : List α) (minLen : Nat) : Option α :=
  let n := values.length
  if minLen + 1 > n then none
  else (values.mergeSort (fun a b => decide (a ≤ b)))[(minLen + 1) * (n - 1) / n]?

/-- The three criteria used for pruning (optimization/utils.py 276). -/
def names : List Crit := [.optimistic, .pessimistic, .average]

/-- `Pruning._prune` (optimization/utils.py 271-288). `est` gives the estimations of an archive entry. -/
def prune {β : Type} (p : Pruning) (est : β → Crit → α) (archive : List β) : Option (List β) := do
  let qo ← lowerQuantile (archive.map (est · .optimistic)) p.minLen
  let qp ← lowerQuantile (archive.map (est · .pessimistic)) p.minLen
  let qa ← lowerQuantile (archive.map (est · .average)) p.minLen
  pure (archive.filter (fun v =>
    decide (est v .optimistic < qo) || decide (est v .pessimistic < qp) || decide (est v .average < qa)))

/-- `Pruning.__call__` (optimization/utils.py 266-269); `none` is numpy's `ValueError`. -/
def call {β : Type} (p : Pruning) (est : β → Crit → α) (archive : List β) : Option (List β) :=
  if archive.length < p.maxLen then some archive else p.prune est archive

/-- `Pruning.sensible_default` (optimization/utils.py 290-307), for a positive dimension. -/
def sensibleDefault (numWorkers dimension : Nat) : Pruning :=
  let minLen := max 100 (7 * numWorkers)
  let maxLen1gb := 1024 ^ 3 / (dimension * 8 * 2)
  { minLen := minLen, maxLen := max (3 * minLen) (min (10 * minLen) maxLen1gb) }

end Pruning

/-- Archive configuration with `Pruning` as the pruning callable (base.py 122, 478-479; optimization/utils.py
266-288). When numpy rejects the quantile the exception propagates to the caller of `tell` and the archive
is left as it was. -/
def ArchiveCfg.ofPruning {α U K : Type} [Field α] [LinearOrder α] (key : U → K) (sqrt : α → α) (p : Pruning) :
    ArchiveCfg α U K :=
  { key := key, sqrt := sqrt,
    prune := fun heap a => (p.call (fun e c => (heap e.2).estimation sqrt c) a).getD a }

end NG
