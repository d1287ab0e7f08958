import Mathlib.Order.Defs.LinearOrder
import Mathlib.Order.Lattice
import Mathlib.Data.Fintype.Pi
import Mathlib.Algebra.Order.Field.Basic
import Mathlib.Algebra.BigOperators.Group.Finset.Basic
import Mathlib.Data.Fintype.BigOperators

/-!
# Pareto front (nevergrad/optimization/multiobjective/core.py)
-/

namespace NG
namespace Pareto
variable {α : Type} [LinearOrder α] {d : Nat}

/-- A told candidate: identity and loss vector (`Parameter.losses`, a numpy array of `d` entries). The entries are
modelled as elements of a linear order: no NaN. Used in `beats` (core.py 202). -/
structure Cand (d : Nat) (α : Type) where
  uid : Nat
  losses : Fin d → α

/-- core.py 202: `(other.losses <= param.losses).all() and (other.losses < param.losses).any()`. -/
def beats (other param : Cand d α) : Bool :=
  decide (∀ i, other.losses i ≤ param.losses i) && decide (∃ i, other.losses i < param.losses i)

/-- `ParetoFront` (core.py 179-190): the list and the lazy-filtering flag. -/
structure Front (d : Nat) (α : Type) where
  pareto : List (Cand d α)
  needsFiltering : Bool

/-- core.py 186-187. -/
def empty : Front d α := ⟨[], false⟩

/-- `add_to_pareto` (core.py 192-194). -/
def Front.add (s : Front d α) (c : Cand d α) : Front d α := ⟨s.pareto ++ [c], true⟩

/-- `_filter_pareto_front` (core.py 196-208): the double loop with `break` keeps the elements that no element beats. -/
def Front.filter (s : Front d α) : Front d α :=
  ⟨s.pareto.filter (fun param => !(s.pareto.any (fun other => beats other param))), false⟩

/-- The state change made by `get_front` (core.py 237-238). -/
def Front.refresh (s : Front d α) : Front d α := if s.needsFiltering then s.filter else s

/-- `get_front()` without size (core.py 237-240); returns the front and the new state. -/
def Front.getFront (s : Front d α) : List (Cand d α) × Front d α := (s.refresh.pareto, s.refresh)

/-- `get_front(size, "random")` (core.py 237-242). The draws of `rng.choice(self._pareto, size)` (with
replacement) are the indices `draws k` for `k < size`. -/
def Front.getRandom (s : Front d α) (size : Nat) (draws : Nat → Nat) : List (Cand d α) × Front d α :=
  let s' := s.refresh
  if s'.pareto.length ≤ size then (s'.pareto, s')
  else ((List.range size).filterMap (fun k => s'.pareto[draws k % s'.pareto.length]?), s')

/-- Index of the first minimum of a list: `scores.index(min(scores))` (core.py 268). -/
def argmin {β : Type} [LinearOrder β] : List β → Nat
  | [] => 0
  | [_] => 0
  | x :: y :: l =>
    let j := argmin (y :: l)
    match (y :: l)[j]? with
    | some m => if x ≤ m then 0 else j + 1
    | none => 0

/-- `get_front(size, subset)` for the scored subsets (core.py 237-268): `tentatives` random subsets are drawn and
the first one of least score is returned. The score (hypervolume, loss-covering, EPS, domain-covering) is a parameter. -/
def Front.getScored {β : Type} [LinearOrder β] (s : Front d α) (size tentatives : Nat) (draws : Nat → Nat → Nat)
    (score : List (Cand d α) → List (Cand d α) → β) : List (Cand d α) × Front d α :=
  let s' := s.refresh
  if s'.pareto.length ≤ size then (s'.pareto, s')
  else
    let subsets := (List.range tentatives).map (fun t =>
      (List.range size).filterMap (fun k => s'.pareto[draws t k % s'.pareto.length]?))
    ((subsets[argmin (subsets.map (score s'.pareto))]?).getD [], s')

/-- A sequence of uses of a front. Used in `step` (core.py 237-242). -/
inductive Op (d : Nat) (α : Type) where
  | add (c : Cand d α)
  | front
  | random (size : Nat) (draws : Nat → Nat)

/-- Effect of one operation. Built on `Front.getRandom` (core.py 237-242). -/
def step (s : Front d α) : Op d α → Front d α
  | .add c => s.add c
  | .front => s.getFront.2
  | .random size draws => (s.getRandom size draws).2

/-- Any schedule. Built on `empty` (core.py 186-187). -/
def run (ops : List (Op d α)) : Front d α := ops.foldl step empty

/-! ### HypervolumePareto -/

variable [Field α] [IsStrictOrderedRing α]

/-- `HypervolumePareto` (core.py 52-73). `upper = none` is the initial `-inf` upper bound, `best = none` the initial
`-inf` best volume. -/
structure Hyper (d : Nat) (α : Type) where
  autoBound : Nat
  upper : Option (Fin d → α)
  best : Option α
  pf : Front d α

/-- Result of `add`: the loss, `none` being `+inf`. Used in `Hyper.add` (core.py 89-149). -/
abbrev Loss (α : Type) := Option α

/-- core.py 52-73: explicit upper bounds disable the automatic ones. -/
def Hyper.init (upper : Option (Fin d → α)) (autoBound : Nat) : Hyper d α :=
  { autoBound := match upper with | none => autoBound | some _ => 0
    upper := upper
    best := none
    pf := empty }

/-- `value > self._best_volume`, `none` being `-inf`. Used in `Hyper.add` (core.py 89-149). -/
def above (v : α) : Option α → Bool
  | none => true
  | some b => decide (b < v)

/-- `self._best_volume < 0`, `none` being `-inf`. Used in `Hyper.add` (core.py 89-149). -/
def negative : Option α → Bool
  | none => true
  | some b => decide (b < 0)

/-- core.py 141-147: least over the front members that are `<=` everywhere of the least coordinate difference;
`none` is `+inf`. Empty vectors (`d = 0`) have no minimum and are ignored. -/
def distance (front : List (Cand d α)) (losses : Fin d → α) : Option α :=
  front.foldl (fun acc p =>
    if decide (∀ i, p.losses i ≤ losses i) then
      match (List.ofFn (fun i => losses i - p.losses i)).min? with
      | none => acc
      | some m => match acc with
        | none => some m
        | some a => some (min a m)
    else acc) none

/-- `add` and `_calc_hypervolume` (core.py 89-149) with `no_hypervolume = noHv`. `vol upper points` is
`HypervolumeIndicator(upper).compute(points)`. With no upper bound and `auto_bound = 0` the `-inf` bound makes every
point infinitely bad; that case (only reachable with `auto_bound=0`) is the `none` branch at the end. -/
def Hyper.add (vol : (Fin d → α) → List (Fin d → α) → α) (noHv : Bool) (s : Hyper d α) (c : Cand d α) :
    Loss α × Hyper d α :=
  if 0 < s.autoBound then
    let s := { s with autoBound := s.autoBound - 1 }
    match s.upper with
    | none => (some 0, { s with upper := some c.losses, pf := s.pf.add c })
    | some u =>
      if decide (∀ i, u i < c.losses i) then (none, s)
      else (some 0, { s with upper := some (fun i => max (u i) (c.losses i)), pf := s.pf.add c })
  else
    match s.upper with
    | none => (none, s)
    | some u =>
      if decide (∃ i, u i < c.losses i) then
        let loss := -(∑ i, max 0 (c.losses i - u i))
        let best := if above loss s.best then some loss else s.best
        let pf := if negative best then s.pf.add c else s.pf
        (some (-loss), { s with best := best, pf := pf })
      else if noHv then (some 0, { s with pf := s.pf.add c })
      else
        let newVolume := vol u (s.pf.pareto.map (·.losses) ++ [c.losses])
        if above newVolume s.best then
          (some (-newVolume), { s with best := some newVolume, pf := s.pf.add c })
        else
          let fr := s.pf.getFront
          ((distance fr.1 c.losses).map (fun dist => -newVolume + dist), { s with pf := fr.2 })

end Pareto
end NG
