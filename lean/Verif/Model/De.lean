/-
The moves, the recommendation and the options of differential evolution (`nevergrad/optimization/differentialevolution.py` 118-253, 353-392) on points, with one worker and a function
without noise. The population dict with its lineages and the queue are in `Model/Population.lean`; here the population is the list of its values, and which of them is the parent is
a draw.

Simplifications. Points are functions from the coordinates to an exact field. The bests are those of `Model/Archive.lean`, for the history of all told points. The crossovers
which mix coordinate by coordinate are given by the coordinates that they take from the donor (the masks are in `Model/Crossover.lean`); `rotated_twopoints`, which moves coordinates,
and `parametrization` are not included. Single objective.
-/
import Verif.Model.Archive
import Mathlib.Data.List.Sort
import Mathlib.Analysis.SpecialFunctions.Log.Basic
import Mathlib.Algebra.Order.Floor.Semiring

namespace NG.De

section
variable {ι α : Type} [Field α] [LinearOrder α] [DecidableEq (ι → α)]

/-- `donor` (differentialevolution.py 241). -/
def donor (F1 F2 : α) (x a b best : ι → α) : ι → α := fun k => x k + F1 * (a k - b k) + F2 * (best k - x k)

/-- `crossovers.apply(donor, data)` (differentialevolution.py 248-251): the coordinates outside the mask are those of the parent. -/
def cross (mask : ι → Bool) (d x : ι → α) : ι → α := fun k => if mask k then d k else x k

/-- The draws of a generation: the parent, the two others (differentialevolution.py 220, 227) and the mask. -/
structure Draw (ι : Type) where
  parent : Nat
  a : Nat
  b : Nat
  mask : ι → Bool

/-- The values of the population, with their losses, and all that was told. Used in `move` (differentialevolution.py 219-252). -/
structure St (ι α : Type) where
  pop : List ((ι → α) × α)
  hist : List ((ι → α) × α)

/-- The archive and the bests after the history. Used in `recommend` (differentialevolution.py 160-180). -/
def St.arch (cfg : ArchiveCfg α (ι → α) (ι → α)) (root : ι → α) (s : St ι α) : ArchiveSt α (ι → α) (ι → α) := (ArchiveSt.init root).tells cfg s.hist

/-- `self.current_bests[name].parameter`. Used in `move` (differentialevolution.py 219-252). -/
def St.best (cfg : ArchiveCfg α (ι → α) (ι → α)) (root : ι → α) (s : St ι α) (c : Crit) : ι → α :=
  match (s.arch cfg root).bests c with
  | none => root
  | some i => ((s.arch cfg root).heap i).param

/-- The candidate (differentialevolution.py 219-252); `none` if a draw is not a place of the population. -/
def move (cfg : ArchiveCfg α (ι → α) (ι → α)) (root : ι → α) (F1 F2 : α) (s : St ι α) (d : Draw ι) : Option (ι → α) := do
  let p ← s.pop[d.parent]?
  let a ← s.pop[d.a]?
  let b ← s.pop[d.b]?
  return cross d.mask (donor F1 F2 p.1 a.1 b.1 (s.best cfg root .pessimistic)) p.1

/-- One `ask` and `tell` after the initialization (differentialevolution.py 219-253, 255-269). -/
def step (cfg : ArchiveCfg α (ι → α) (ι → α)) (root : ι → α) (F1 F2 : α) (f : (ι → α) → α) (s : St ι α) (d : Draw ι) : Option (St ι α) := do
  let p ← s.pop[d.parent]?
  let c ← move cfg root F1 F2 s d
  return { pop := if f c ≤ p.2 then s.pop.set d.parent (c, f c) else s.pop, hist := s.hist ++ [(c, f c)] }

/-- The end of the initialization (differentialevolution.py 183-217): the population is made of the first candidates. -/
def start (f : (ι → α) → α) (xs : List (ι → α)) : St ι α := ⟨xs.map fun x => (x, f x), xs.map fun x => (x, f x)⟩

/-- A run. Built on `step` (differentialevolution.py 219-253, 255-269). -/
def run (cfg : ArchiveCfg α (ι → α) (ι → α)) (root : ι → α) (F1 F2 : α) (f : (ι → α) → α) : List (Draw ι) → St ι α → Option (St ι α)
  | [], s => some s
  | d :: ds, s => (step cfg root F1 F2 f s d).bind (run cfg root F1 F2 f ds)

/-! ### The recommendation -/

/-- The option `recommendation` (differentialevolution.py 368). -/
inductive Rule
  | optimistic
  | pessimistic
  | noisy
  | mean
deriving DecidableEq

/-- `current_bests[...]` (base.py 116-119): the keys of the dict. -/
def Rule.crit : Rule → Option Crit
  | .optimistic => some .optimistic
  | .pessimistic => some .pessimistic
  | _ => none

/-- `np.median`; of an empty list it is `nan`, here `none`. Used in `good` (differentialevolution.py 170-171). -/
def median (l : List α) : Option α :=
  let s := l.insertionSort (· ≤ ·)
  if l.length % 2 = 1 then s[l.length / 2]? else do
    let a ← s[l.length / 2 - 1]?
    let b ← s[l.length / 2]?
    return (a + b) / 2

/-- `good_guys` (differentialevolution.py 170-171); a comparison with `nan` is false. The losses are known: with one worker all values of the population were told. -/
def good (pop : List ((ι → α) × α)) : List (ι → α) :=
  match median (pop.map (·.2)) with
  | none => []
  | some m => (pop.filter fun e => decide (e.2 < m)).map (·.1)

/-- `recommend` (differentialevolution.py 160-180); `learnt` is the outcome of the metamodel, `none` for its failure. The outer `none` is a `KeyError`. -/
def recommend (cfg : ArchiveCfg α (ι → α) (ι → α)) (root : ι → α) (rule : Rule) (highSpeed : Bool) (dim : Nat) (learnt : Option (ι → α)) (s : St ι α) : Option (ι → α) :=
  let sample := dim * (dim - 1) / 2 + 2 * dim + 1
  let model := if highSpeed && decide (sample ≤ (s.arch cfg root).archive.length) then learnt else none
  match model with
  | some x => some x
  | none =>
    if rule = .noisy then
      let g := good s.pop
      if g = [] then some (s.best cfg root .pessimistic) else some fun k => (g.map (· k)).sum / g.length
    else rule.crit.map (s.best cfg root)

end

/-! ### The size of the population -/

/-- The option `popsize` (differentialevolution.py 372-373). -/
inductive PopSize
  | standard
  | small
  | dimension
  | large
  | given (n : Nat)

/-- `self.llambda` (differentialevolution.py 135-144). -/
noncomputable def llambda (p : PopSize) (dim workers : Nat) : Nat :=
  match p with
  | .given n => n
  | .standard => max 30 (max workers 0)
  | .small => max 30 (max workers (1 + ⌊Real.sqrt (Real.log (dim + 3))⌋₊))
  | .dimension => max 30 (max workers (dim + 1))
  | .large => max 30 (max workers (7 * dim))

end NG.De
