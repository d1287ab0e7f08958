import Mathlib.Data.List.Basic

/-!
# NoisyBandit (nevergrad/optimization/optimizerlib.py 1326-1349)

Arms are natural numbers; the archive is the list of the arms told so far, without repetition (base.py 456-457, pruning left out). The
estimates of the losses only matter through the arm of best optimistic bound, which is a parameter.
-/

namespace NG
namespace Bandit

/-- Counter of asks (`_num_ask`), archive, points asked and not told yet. Used in `internalAsk` (optimizerlib.py 1342-1349). -/
structure State where
  numAsk : Nat
  archive : List Nat
  pending : List Nat

/-- Fresh optimizer. Built on `State` (optimizerlib.py 1342-1349). -/
def init : State := ⟨0, [], []⟩

/-- Randomness and estimates used by one ask: the normal draw, the coin (1345), the index (1347), the optimistic best (1349). -/
structure Draw where
  fresh : Nat
  coin : Bool
  idx : Nat
  best : Nat

/-- Where an asked point comes from. Used in `internalAsk` (optimizerlib.py 1342-1349). -/
inductive Source where
  | new
  | drawn
  | best
  deriving DecidableEq

/-- `_internal_ask` (1342-1349); `rng.choice(n)` is an index below `n`. -/
def internalAsk (s : State) (d : Draw) : Nat × Source :=
  if s.archive.length ^ 3 ≤ 20 * s.numAsk then (d.fresh, .new)
  else if d.coin then ((s.archive[d.idx % s.archive.length]?).getD 0, .drawn)
  else (d.best, .best)

/-- `ask` (base.py): the counter is incremented after the point was chosen. Built on `internalAsk` (optimizerlib.py 1342-1349). -/
def ask (s : State) (d : Draw) : Nat × Source × State :=
  let r := internalAsk s d
  (r.1, r.2, ⟨s.numAsk + 1, s.archive, s.pending ++ [r.1]⟩)

/-- `tell` of arm `a` (base.py 446-465): a new arm enters the archive, an old one gets one more evaluation. -/
def tell (s : State) (a : Nat) : State :=
  ⟨s.numAsk, if a ∈ s.archive then s.archive else s.archive ++ [a], s.pending.erase a⟩

/-- Events of a run: an ask, or the tell of the oldest pending point. Used in `step` (base.py 446-465). -/
inductive Event where
  | ask (d : Draw)
  | tell

/-- One event. Built on `tell` (base.py 446-465). -/
def step (s : State) : Event → State
  | .ask d => (ask s d).2.2
  | .tell => match s.pending with
    | [] => s
    | a :: _ => tell s a

/-- A run from a fresh optimizer. Built on `step` (base.py 446-465). -/
def run (es : List Event) : State := es.foldl step init

/-- Sequential use: each point is told before the next ask. Built on `tell` (base.py 446-465). -/
def sequential (ds : List Draw) : List Event := ds.flatMap (fun d => [.ask d, .tell])

end Bandit
end NG
