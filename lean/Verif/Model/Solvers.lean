import Mathlib.Data.List.Infix
import Mathlib.Order.WithBot

/-!
# Model of wrapped solvers

`_NonObjectMinimizeBase` (`optimization/recastlib.py`): the loop of restarts which runs in the thread of a recast optimizer, around a solver of an
external library. A run of the solver is external: the points it evaluates, in its own coordinates, and the point and value it returns. An evaluation is an ask of the
optimizer. A value which is not a number is never smaller, like `⊤`.
-/

namespace NG
namespace Solvers

/-- Names are character strings. Used in `branch` (recastlib.py 111, 118, 131, 145, 158, 197, 249, 425, 465). -/
abbrev Text := List Char

/-- The texts used by the dispatch, as characters. Used in `branch` (recastlib.py 111, 118, 131, 145, 158, 197, 249, 425, 465). -/
def tBOBYQA : Text := ['B', 'O', 'B', 'Y', 'Q', 'A']
/-- A text of the dispatch. Used in `branch` (recastlib.py 111, 118, 131, 145, 158, 197, 249, 425, 465). -/
def tCma : Text := ['C', 'm', 'a', 'F', 'm', 'i', 'n', '2']
/-- A text of the dispatch. Used in `branch` (recastlib.py 111, 118, 131, 145, 158, 197, 249, 425, 465). -/
def tDS : Text := ['D', 'S']
/-- A text of the dispatch. Used in `branch` (recastlib.py 111, 118, 131, 145, 158, 197, 249, 425, 465). -/
def tPDS : Text := ['P', 'D', 'S']
/-- A text of the dispatch. Used in `branch` (recastlib.py 111, 118, 131, 145, 158, 197, 249, 425, 465). -/
def tAX : Text := ['A', 'X']
/-- A text of the dispatch. Used in `branch` (recastlib.py 111, 118, 131, 145, 158, 197, 249, 425, 465). -/
def tNLOPT : Text := ['N', 'L', 'O', 'P', 'T']
/-- A text of the dispatch. Used in `branch` (recastlib.py 111, 118, 131, 145, 158, 197, 249, 425, 465). -/
def tpysot : Text := ['p', 'y', 's', 'o', 't']
/-- A text of the dispatch. Used in `branch` (recastlib.py 111, 118, 131, 145, 158, 197, 249, 425, 465). -/
def tSMAC3 : Text := ['S', 'M', 'A', 'C', '3']
/-- A text of the dispatch. Used in `hasNormalizer` (recastlib.py 68-79). -/
def tSMAC : Text := ['S', 'M', 'A', 'C']

/-- `x in text`. Used in `branch` (recastlib.py 111, 118, 131, 145, 158, 197, 249, 425, 465). -/
def within (x s : Text) : Bool := decide (x <:+: s)

/-- The branches of the loop. Used in `branch` (recastlib.py 111, 118, 131, 145, 158, 197, 249, 425, 465). -/
inductive Branch
  | bobyqa
  | direct
  | proba
  | ax
  | nlopt
  | pysot
  | smac
  | cma
  | scipy
deriving DecidableEq, Repr

/-- The dispatch (recastlib.py 111, 118, 131, 145, 158, 197, 249, 425, 465). -/
def branch (method : Text) (dim : Nat) : Branch :=
  if method = tBOBYQA ∨ (method = tCma ∧ dim = 1) then .bobyqa
  else if method.take 2 = tDS then .direct
  else if method.take 3 = tPDS then .proba
  else if method = tAX then .ax
  else if method.take 5 = tNLOPT then .nlopt
  else if within tpysot method then .pysot
  else if method = tSMAC3 then .smac
  else if method = tCma ∧ 1 < dim then .cma
  else .scipy

/-- Whether a normalizer is made (recastlib.py 68-79). -/
def hasNormalizer (method : Text) : Bool :=
  method = tCma || within tNLOPT method || within tAX method || within tBOBYQA method || within tpysot method || within tSMAC method

/-- The coordinates: `back` is `Normalizer.backward`, if there is a normalizer, and `fully` tells whether all variables are bounded. Used in `sent` (recastlib.py 102-106, 114, 128, 136-137, 163-173, 207-216, 280, 300). -/
structure Coord (X : Type) where
  back : Option (X → X)
  fully : Bool

/-- The map of the normalizer, if any. Used in `sent` (recastlib.py 102-106, 114, 128, 136-137, 163-173, 207-216, 280, 300). -/
def Coord.map {X : Type} (c : Coord X) (z : X) : X :=
  match c.back with
  | none => z
  | some f => f z

/-- The point at which the objective is evaluated when the solver evaluates `z` (recastlib.py 102-106, 114, 128, 136-137, 163-173, 207-216, 280, 300,
428-432, 467). -/
def sent {X : Type} (b : Branch) (c : Coord X) (z : X) : X :=
  match b with
  | .bobyqa | .direct | .proba | .scipy => z
  | .ax | .nlopt | .pysot | .smac => c.map z
  | .cma => if c.fully then c.map z else z

/-- The point kept when the solver returns `z` (recastlib.py 117, 128-130, 136-144, 155-156, 190-196, 247, 323-324,
461-463, 479). -/
def kept {X : Type} (b : Branch) (c : Coord X) (z : X) : X :=
  match b with
  | .bobyqa | .pysot | .scipy => z
  | .direct | .proba | .ax | .nlopt | .smac | .cma => c.map z

/-- Whether the result of a run is compared with the best one (recastlib.py 115, 459, 477). -/
def compares : Branch → Bool
  | .bobyqa | .cma | .scipy => true
  | _ => false

/-- A run of the solver: points evaluated, point and value returned. Used in `once` (recastlib.py 327). -/
structure Run (X α : Type) where
  evals : List X
  x : X
  f : WithTop α
deriving DecidableEq

/-- The variables of the loop: `best_res`, `best_x`, `_num_ask`, and the points at which the objective was evaluated. Used in `once` (recastlib.py 327). -/
structure St (X α : Type) where
  best : WithTop α
  x : X
  asks : Nat
  log : List X
deriving DecidableEq

section
variable {X α : Type} [LinearOrder α]

/-- The effect of a run. With SMAC the number of asks is set to the budget (recastlib.py 327). -/
def once (b : Branch) (c : Coord X) (budget : Nat) (s : St X α) (r : Run X α) : St X α :=
  let asks := if b = .smac then budget else s.asks + r.evals.length
  let log := s.log ++ r.evals.map (sent b c)
  if compares b then
    if r.f < s.best then ⟨r.f, kept b c r.x, asks, log⟩ else ⟨s.best, s.x, asks, log⟩
  else ⟨if b = .pysot then r.f else s.best, kept b c r.x, asks, log⟩

/-- The starting point given to the solver (recastlib.py 114, 128, 138, 189-190, 468-472): `draw` is the random point, `centre` the fixed one of
NLOPT; the solvers AX, pysot and SMAC are given none. -/
def start (b : Branch) (restart : Bool) (best draw centre : X) : Option X :=
  match b with
  | .bobyqa | .direct | .proba => some best
  | .scipy => some (if restart then draw else best)
  | .nlopt => some centre
  | _ => none

/-- The loop (recastlib.py 108, 480) for all branches but CMA; `budget = none` is no budget. The solver is given the number of the run, the starting point and the
number of asks; `n` bounds the number of turns. -/
def loop (b : Branch) (c : Coord X) (restart : Bool) (draw : Nat → X) (centre : X) (budget : Option Nat)
    (solver : Nat → Option X → Nat → Run X α) : Nat → Nat → St X α → Option (St X α)
  | 0, _, _ => none
  | n + 1, k, s =>
    if budget.any (· ≤ s.asks) then some s
    else loop b c restart draw centre budget solver n (k + 1)
      (once b c (budget.getD 0) s (solver k (start b restart s.x (draw k) centre) s.asks))

/-- The inner loop of CMA (recastlib.py 440-464): `calls` is `num_calls`, increased by the number of evaluations of the run. -/
def inner (c : Coord X) (budget : Nat) (solver : Nat → Run X α) : Nat → Nat → Nat → St X α → Option (St X α × Nat)
  | 0, _, _, _ => none
  | n + 1, k, calls, s =>
    if budget ≤ calls then some (s, k)
    else inner c budget solver n (k + 1) (calls + (solver k).evals.length) (once .cma c budget s (solver k))

/-- The loop for CMA (recastlib.py 108, 425-464, 480). -/
def cmaLoop (c : Coord X) (budget : Nat) (solver : Nat → Run X α) : Nat → Nat → St X α → Option (St X α)
  | 0, _, _ => none
  | n + 1, k, s =>
    if budget ≤ s.asks then some s
    else match inner c budget solver (n + 1) k 0 s with
      | none => none
      | some (s, k) => cmaLoop c budget solver n k s

/-- The initial variables (recastlib.py 95-100): the initial guess if there is one, the current best otherwise. -/
def initial (guess : Option X) (current : X) (asks : Nat) : St X α := ⟨⊤, guess.getD current, asks, []⟩

end

end Solvers
end NG
