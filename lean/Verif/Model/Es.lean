import Verif.Model.Queue
import Verif.Model.Tools
import Mathlib.Order.BoundedOrder.Basic
import Mathlib.Data.List.Sort

/-!
# Model of the evolution strategies

`_EvolutionStrategy` (optimization/es.py 16-90): the population dict, the queue of its keys, the list of offsprings waiting for
selection, and how `Optimizer.ask` and `Optimizer.tell` (optimization/base.py 389-431, 507-551) drive them. Candidates are
represented by their uid; mutation and recombination of points are not part of this model (es.py 55-59). Losses are in a linear
order with a top, standing for `float("inf")`, the loss of a candidate never told (base.py 33-37).
-/

namespace NG
namespace Es
open Tools

/-- The options `popsize`, `offsprings`, `only_offsprings` (es.py 112-131). -/
structure Cfg where
  popsize : Nat
  offsprings : Option Nat
  only : Bool

/-- The exceptions of an ask: the RuntimeError of an empty queue, the KeyError of the population dict. Used in `internalAsk` (es.py 46-60). -/
inductive Err
  | runtime | key
deriving DecidableEq, Repr

/-- The state. Used in `internalAsk` (es.py 46-60). -/
structure St (U α : Type) where
  /-- `self._population`: key to candidate -/
  pop : List (U × U)
  /-- `self._uid_queue` -/
  queue : UidQueue U
  /-- `self._waiting` -/
  waiting : List U
  /-- attribute `loss` of each candidate, top if None -/
  loss : U → α
  /-- `heritage["lineage"]` of each candidate -/
  lineage : U → U
  /-- first of `parents_uids` of each candidate, none if there is none -/
  parent : U → Option U
  /-- `self._num_ask`, at the last ask -/
  numAsk : Nat
  /-- how much an ask has added to `self._num_ask` for the attempts it rejected (base.py 533), dropped at its end (551) -/
  trials : Nat

variable {U α : Type} [DecidableEq U] [LinearOrder α] [OrderTop α]

/-- A new optimizer; candidates made by the user have any lineage and parents. Built on `St` (es.py 46-60). -/
def St.init (lineage : U → U) (parent : U → Option U) : St U α :=
  { pop := [], queue := UidQueue.empty, waiting := [], loss := fun _ => ⊤, lineage := lineage, parent := parent,
    numAsk := 0, trials := 0 }

/-- `_internal_ask_candidate` (es.py 46-60), `u` being the uid of the new candidate. A sampled candidate is its own lineage and
has no parents (core.py 441-450), a child has the lineage and the uid of its parent. Recombination (56-59) adds further parents
behind. -/
def internalAsk (cfg : Cfg) (u : U) (s : St U α) : Option Err × St U α :=
  if s.numAsk + s.trials < cfg.popsize then
    (none, { s with pop := dictSet u u s.pop, queue := s.queue.register u,
                    lineage := fun x => if x = u then u else s.lineage x, parent := fun x => if x = u then none else s.parent x })
  else
    match s.queue.ask with
    | none => (some .runtime, s)
    | some (k, q) =>
      match dictGet s.pop k with
      | none => (some .key, { s with queue := q })
      | some p => (none, { s with queue := q, lineage := fun x => if x = u then s.lineage p else s.lineage x,
                                  parent := fun x => if x = u then some p else s.parent x })

/-- The candidates compared (es.py 80). -/
def choices (cfg : Cfg) (s : St U α) : List U := s.waiting ++ (if cfg.only then [] else s.pop.map (·.2))

/-- The choices in the order of preference (es.py 81-85): `ranked` is the answer of the ranker with several objectives, the uids
it selects; with one objective, none, the choices are sorted by loss (a stable sort). -/
def ordered (cfg : Cfg) (ranked : Option (List U)) (s : St U α) : List U :=
  match ranked with
  | some r => (choices cfg s).filter (fun x => x ∈ r)
  | none => (choices cfg s).insertionSort (fun a b => s.loss a ≤ s.loss b)

/-- `{x.uid: x for x in l}`. Used in `select` (es.py 79-90). -/
def toDict (l : List U) : List (U × U) := l.foldl (fun d x => dictSet x x d) []

/-- `_select` (es.py 79-90). -/
def select (cfg : Cfg) (ranked : Option (List U)) (s : St U α) : St U α :=
  let pop := toDict ((ordered cfg ranked s).take cfg.popsize)
  { s with pop := pop, waiting := [], queue := (pop.map (·.1)).foldl UidQueue.tell s.queue.clear }

/-- The value to beat in the DE-like mode (es.py 66). -/
def parentValue (k : U) (s : St U α) : α := match dictGet s.pop k with | none => ⊤ | some p => s.loss p

/-- `no_parent` (es.py 70). -/
def noParent (u : U) (s : St U α) : Bool := match s.parent u with | none => true | some p => (dictGet s.pop p).isNone

/-- Where a told candidate goes (es.py 71-75). -/
def receive (cfg : Cfg) (u : U) (s : St U α) : St U α :=
  if noParent u s = true ∧ s.pop.length < cfg.popsize then { s with pop := dictSet u u s.pop, queue := s.queue.tell u }
  else { s with waiting := s.waiting ++ [u] }

/-- `_internal_tell_candidate` (es.py 62-77); also used for candidates not asked (base.py 593-597). `l` is the loss with
penalties, only used in the DE-like mode. -/
def tellCandidate (cfg : Cfg) (u : U) (l : α) (ranked : Option (List U)) (s : St U α) : St U α :=
  match cfg.offsprings with
  | none =>
    let k := s.lineage u
    if l < parentValue k s then { s with queue := s.queue.tell k, pop := dictSet k u s.pop }
    else { s with queue := s.queue.tell k }
  | some n =>
    if n ≤ (receive cfg u s).waiting.length then select cfg ranked (receive cfg u s) else receive cfg u s

/-- The calls of the user, as they reach the algorithm. Used in `step` (es.py 62-77). -/
inductive Op (U α : Type)
  /-- an ask returning a candidate of the algorithm -/
  | ask (u : U)
  /-- an ask returning a suggestion -/
  | suggested
  /-- a candidate of the algorithm rejected by a cheap constraint, inside an ask; told infinity if `told` (base.py 524-533) -/
  | reject (u : U) (told : Bool) (ranked : Option (List U))
  /-- a suggestion rejected by a cheap constraint, inside an ask -/
  | rejectSuggestion (u : U) (told : Bool) (ranked : Option (List U))
  /-- a tell: `candidate.loss = v`, the algorithm gets `l`, `v` plus penalties (base.py 389-430) -/
  | tell (u : U) (v l : α) (ranked : Option (List U))

/-- One call: the exception, if any, and the new state. Built on `tellCandidate` (es.py 62-77). -/
def step (cfg : Cfg) (op : Op U α) (s : St U α) : Option Err × St U α :=
  match op with
  | .ask u =>
    let r := internalAsk cfg u s
    match r.1 with
    | some e => (some e, { r.2 with numAsk := r.2.numAsk + r.2.trials, trials := 0 })
    | none => (none, { r.2 with numAsk := r.2.numAsk + 1, trials := 0 })
  | .suggested => (none, { s with numAsk := s.numAsk + 1, trials := 0 })
  | .reject u told ranked =>
    let r := internalAsk cfg u s
    match r.1 with
    | some e => (some e, { r.2 with numAsk := r.2.numAsk + r.2.trials, trials := 0 })
    | none =>
      let s1 := if told then tellCandidate cfg u ⊤ ranked r.2 else r.2
      (none, { s1 with trials := s1.trials + 1 })
  | .rejectSuggestion u told ranked =>
    let s1 := if told then tellCandidate cfg u ⊤ ranked s else s
    (none, { s1 with trials := s1.trials + 1 })
  | .tell u v l ranked => (none, tellCandidate cfg u l ranked { s with loss := fun x => if x = u then v else s.loss x })

/-- A session: the exceptions and the final state. An exception does not end it. Built on `Cfg` (es.py 112-131). -/
def run (cfg : Cfg) : List (Op U α) → St U α → List (Option Err) × St U α
  | [], s => ([], s)
  | op :: ops, s =>
    let r := step cfg op s
    let r' := run cfg ops r.2
    (r.1 :: r'.1, r'.2)

end Es
end NG
