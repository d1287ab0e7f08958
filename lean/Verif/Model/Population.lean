import Verif.Model.Queue
import Verif.Model.Tools
import Mathlib.Order.BoundedOrder.Basic
import Mathlib.Order.Defs.LinearOrder

/-!
# Model of the populations of differential evolution and particle swarms

`_DE` (optimization/differentialevolution.py 182-303) and `_PSO` (optimization/optimizerlib.py 1382-1473): the population dict
from lineage to candidate, the queue of lineages, and how `Optimizer.ask` and `Optimizer.tell` (optimization/base.py 425-431,
507-550) drive them. Candidates are represented by their uid; the points themselves (sampling, donors, crossover) are not part
of this model. Losses are in a linear order with a top, standing for `float("inf")`, which is also the loss of a candidate
never told (`base._loss`, base.py 33-37).
-/

namespace NG
namespace Pop
open Tools

/-- What the two algorithms and their options do differently: the population size `llambda`, which algorithm it is, and
`propagate_heritage` (DE only). Used in `internalAsk` (differentialevolution.py 182-253). -/
structure Cfg where
  lam : Nat
  pso : Bool
  propagate : Bool

/-- The exceptions: RuntimeError of an empty queue, KeyError of the population dict, ValueError of `deque.remove` or of `max`. Used in `internalAsk` (differentialevolution.py 182-253). -/
inductive Err
  | runtime | key | value
deriving DecidableEq, Repr

/-- The state. Used in `internalAsk` (differentialevolution.py 182-253). -/
structure St (U α : Type) where
  /-- `self.population`: lineage to candidate -/
  pop : List (U × U)
  /-- `self._uid_queue` -/
  queue : UidQueue U
  /-- attribute `loss` of each candidate, top if None -/
  loss : U → α
  /-- `heritage["lineage"]` of each candidate -/
  lineage : U → U
  /-- `self._asked` -/
  pending : List U
  /-- `self._best` of PSO; none is the initial child, which has no loss -/
  best : Option U

variable {U α : Type} [DecidableEq U] [LinearOrder α] [OrderTop α]

/-- A new optimizer; candidates made by the user have any lineage. Built on `St` (differentialevolution.py 182-253). -/
def St.init (lineage : U → U) : St U α :=
  { pop := [], queue := UidQueue.empty, loss := fun _ => ⊤, lineage := lineage, pending := [], best := none }

/-- `_internal_ask_candidate` (differentialevolution.py 182-253, optimizerlib.py 1382-1416), `u` being the uid of the new
candidate. For DE line 227 indexes the population with numbers below `llambda`, which exist in this branch. -/
def internalAsk (cfg : Cfg) (u : U) (s : St U α) : Option Err × St U α :=
  if s.pop.length < cfg.lam then
    (none, { s with pop := dictSet u u s.pop, queue := s.queue.register u,
                    lineage := fun x => if x = u then u else s.lineage x })
  else
    match s.queue.ask with
    | none => (some .runtime, s)
    | some (k, q) =>
      match dictGet s.pop k with
      | none => (some .key, { s with queue := q })
      | some _ => (none, { s with queue := q, lineage := fun x => if x = u then k else s.lineage x })

/-- `max(self.population.items(), key=loss)`: the first entry of largest loss. Used in `kick` (differentialevolution.py 283-295). -/
def worst (loss : U → α) : List (U × U) → Option (U × U)
  | [] => none
  | e :: es =>
    match worst loss es with
    | none => some e
    | some w => if loss e.2 < loss w.2 then some w else some e

/-- The entry to be removed, if any (differentialevolution.py 283-295, optimizerlib.py 1461-1465); `none` outside: `return`.
`victim`: for several objectives, the uid of the population member, not in the Pareto front, chosen to leave when the new
candidate is in the Pareto front; its `heritage["lineage"]` is used as key (line 295). PSO always compares losses. -/
def kick (cfg : Cfg) (l : α) (victim : Option (Option U)) (s : St U α) : Except Err (Option (Option U)) :=
  if s.pop.length < cfg.lam then .ok (some none)
  else
    match cfg.pso, victim with
    | false, some v => .ok (some (v.map s.lineage))
    | pso, _ =>
      match worst s.loss s.pop with
      | none => .error .value
      | some w =>
        if pso then (if s.loss w.2 < l then .ok none else .ok (some (some w.1)))
        else (if l < s.loss w.2 then .ok (some (some w.1)) else .ok (some none))

/-- `self._best` after a tell (optimizerlib.py 1453-1454, 1472-1473). -/
def newBest (l : α) (u : U) (s : St U α) : Option U :=
  match s.best with
  | none => some u
  | some b => if l < s.loss b then some u else some b

/-- PSO line 1472 with the initial `_best` compares with infinity, line 1453 does not. -/
def newBestNotAsked (l : α) (u : U) (s : St U α) : Option U :=
  match s.best with
  | none => if l < ⊤ then some u else none
  | some b => if l < s.loss b then some u else some b

/-- Adding the new candidate (differentialevolution.py 299-303, optimizerlib.py 1470-1473). -/
def addNew (cfg : Cfg) (u : U) (l : α) (s : St U α) : St U α :=
  if cfg.pso then
    { s with pop := dictSet u u s.pop, queue := s.queue.tell u, best := newBestNotAsked l u s }
  else if s.pop.length < cfg.lam then { s with pop := dictSet u u s.pop, queue := s.queue.tell u }
  else s

/-- `_internal_tell_not_asked` (differentialevolution.py 281-303, optimizerlib.py 1458-1473). -/
def tellNotAsked (cfg : Cfg) (u : U) (l : α) (victim : Option (Option U)) (s : St U α) : Option Err × St U α :=
  match kick cfg l victim s with
  | .error e => (some e, s)
  | .ok none => (none, s)
  | .ok (some none) => (none, addNew cfg u l s)
  | .ok (some (some k)) =>
    match dictGet s.pop k with
    | none => (some .key, s)
    | some _ =>
      match s.queue.discard k with
      | none => (some .value, { s with pop := dictDel k s.pop })
      | some q => (none, addNew cfg u l { s with pop := dictDel k s.pop, queue := q })

/-- `_internal_tell_candidate` (differentialevolution.py 255-279, optimizerlib.py 1446-1456). `replace`: the outcome of the
random replacement when `multiobjective_adaptation` applies (lines 271-277), none if it does not. -/
def tellCandidate (cfg : Cfg) (u : U) (l : α) (replace : Option Bool) (victim : Option (Option U)) (s : St U α) :
    Option Err × St U α :=
  let k := s.lineage u
  match dictGet s.pop k with
  | none => tellNotAsked cfg u l victim s
  | some parent =>
    let s1 := { s with queue := s.queue.tell k }
    if cfg.pso then (none, { s1 with pop := dictSet k u s1.pop, best := newBest l u s1 })
    else if (match replace with | none => decide (l ≤ s.loss parent) | some b => b) then
      (none, { s1 with pop := dictSet k u s1.pop })
    else if cfg.propagate then (none, { s1 with lineage := fun x => if x = parent then s.lineage u else s.lineage x })
    else (none, s1)

/-- The calls of the user, as they reach the algorithm. Used in `step` (differentialevolution.py 255-279). -/
inductive Op (U α : Type)
  /-- an ask returning a candidate of the algorithm -/
  | ask (u : U)
  /-- an attempt rejected by a cheap constraint, inside an ask (base.py 511-533): DE is told an infinite loss -/
  | trial (u : U)
  /-- the candidate of the constraint solver, a child of the last attempt `p` (base.py 535-550) -/
  | submit (u p : U)
  /-- a tell: `candidate.loss = v`, the algorithm gets `l`, `v` plus penalties (base.py 389-430) -/
  | tell (u : U) (v l : α) (replace : Option Bool) (victim : Option (Option U))

/-- One call: the exception, if any, and the new state. Built on `tellCandidate` (differentialevolution.py 255-279). -/
def step (cfg : Cfg) (op : Op U α) (s : St U α) : Option Err × St U α :=
  match op with
  | .ask u =>
    let r := internalAsk cfg u s
    match r.1 with
    | some e => (some e, r.2)
    | none => (none, { r.2 with pending := u :: r.2.pending })
  | .trial u =>
    let r := internalAsk cfg u s
    match r.1 with
    | some e => (some e, r.2)
    | none => if cfg.pso then (none, r.2) else tellCandidate cfg u ⊤ none none r.2
  | .submit u p =>
    (none, { s with lineage := fun x => if x = u then s.lineage p else s.lineage x, pending := u :: s.pending })
  | .tell u v l replace victim =>
    let s1 := { s with loss := fun x => if x = u then v else s.loss x }
    if u ∈ s.pending then
      let r := tellCandidate cfg u l replace victim s1
      match r.1 with
      | some e => (some e, r.2)
      | none => (none, { r.2 with pending := r.2.pending.filter (fun x => x ≠ u) })
    else tellNotAsked cfg u l victim s1

/-- A session: the exceptions and the final state. An exception does not end it. Built on `step` (differentialevolution.py 255-279). -/
def run (cfg : Cfg) : List (Op U α) → St U α → List (Option Err) × St U α
  | [], s => ([], s)
  | op :: ops, s =>
    let r := step cfg op s
    let r' := run cfg ops r.2
    (r.1 :: r'.1, r'.2)

end Pop
end NG
