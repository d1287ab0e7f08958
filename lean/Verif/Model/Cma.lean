import Mathlib.Data.List.Sort
import Mathlib.Order.Lattice

/-!
# Model of the CMA wrapper

`_CMA` (optimization/optimizerlib.py 722-841): a queue between nevergrad's one-by-one `ask`/`tell` and an external evolution strategy
(`cma` or `fcmaes`) which works generation by generation. The external strategy is an arbitrary state machine `Es`. Candidates are their
standardized data and their field `loss`; an exception is `none`.
-/

namespace NG
namespace Cma

/-- The external evolution strategy: `fresh k` is the `k`-th created object (759-794), `ask` returns a list of points, `tell` receives points
and losses and returns `false` for a `RuntimeError` or an `AssertionError` (the only exceptions caught, 817), whatever the state it leaves. -/
structure Es (E X L : Type) where
  fresh : Nat → E
  ask : E → List X × E
  tell : E → List X → List L → Bool × E
  stop : E → Bool
  popsize : E → Nat

/-- What `_CMA` uses of a candidate: `_meta["#CMA#datacache"]` (806-809, its standardized data) and `loss`. -/
structure Cand (X L : Type) where
  data : X
  loss : L
  deriving DecidableEq

/-- `_config.fcmaes` and `_num_spawners`. Used in `cfgOf` (optimizerlib.py 747). -/
structure Cfg where
  fcmaes : Bool := false
  spawners : Nat

/-- The state. `parents` contains `none` for the parametrization itself (749). `made` counts the created strategies. -/
structure St (E X L : Type) where
  es : Option E := none
  made : Nat := 0
  toAsk : List X := []
  toTell : List (Cand X L) := []
  parents : List (Option (Cand X L)) := [none]

/-- `_popsize` (737-743); `logTerm` is `int(popsize_factor * np.log(dimension))`. -/
def popsizeOf (pop : Option Nat) (logTerm workers : Nat) (elitist : Bool) : Nat :=
  if elitist then max (match pop with | none => max workers (4 + logTerm) | some p => max p workers) (workers + 1)
  else match pop with | none => max workers (4 + logTerm) | some p => max p workers

/-- `_num_spawners = _popsize // 2` (747). -/
def cfgOf (popsize : Nat) (fcmaes : Bool) : Cfg := { fcmaes := fcmaes, spawners := popsize / 2 }

variable {E X L : Type}

/-- The property `es` (753-795): created at the first use, created again when the strategy says it has stopped (not with fcmaes). -/
def getEs (ext : Es E X L) (cfg : Cfg) (s : St E X L) : E × St E X L :=
  match s.es with
  | none => (ext.fresh s.made, { s with es := some (ext.fresh s.made), made := s.made + 1 })
  | some e =>
    if !cfg.fcmaes && ext.stop e then (ext.fresh s.made, { s with es := some (ext.fresh s.made), made := s.made + 1 })
    else (e, s)

/-- Lines 798-799: the queue is filled by a whole generation when it is empty. The first component is what the strategy gave, if called. -/
def refill (ext : Es E X L) (cfg : Cfg) (s : St E X L) : Option (List X) × St E X L :=
  if s.toAsk.isEmpty then
    (some (ext.ask (getEs ext cfg s).1).1,
      { (getEs ext cfg s).2 with
        es := some (ext.ask (getEs ext cfg s).1).2
        toAsk := (ext.ask (getEs ext cfg s).1).1 })
  else (none, s)

/-- `popleft` and the choice of the parent (800-803): `none` for the IndexError of an empty queue and the ZeroDivisionError of an empty list
of parents. -/
def pop (numAsk : Nat) (s : St E X L) : Option ((X × Option (Cand X L)) × St E X L) :=
  match s.toAsk with
  | [] => none
  | x :: rest =>
    match s.parents[numAsk % s.parents.length]? with
    | none => none
    | some parent => some ((x, parent), { s with toAsk := rest })

/-- `_internal_ask_candidate` (797-803): the new point and its parent. -/
def ask (ext : Es E X L) (cfg : Cfg) (numAsk : Nat) (s : St E X L) : Option ((X × Option (Cand X L)) × St E X L) :=
  pop numAsk (refill ext cfg s).2

variable [LinearOrder L]

/-- `sorted(self._to_be_told, key=base._loss)[: self._num_spawners]` (820), a stable sort. -/
def best (n : Nat) (l : List (Cand X L)) : List (Cand X L) := (l.insertionSort (fun a b => a.loss ≤ b.loss)).take n

/-- Lines 812-821: the strategy receives the whole list, with the field `loss` of the candidates. -/
def flush (ext : Es E X L) (cfg : Cfg) (s : St E X L) : St E X L :=
  if (ext.tell (getEs ext cfg s).1 (s.toTell.map Cand.data) (s.toTell.map Cand.loss)).1 then
    { (getEs ext cfg s).2 with
      es := some (ext.tell (getEs ext cfg s).1 (s.toTell.map Cand.data) (s.toTell.map Cand.loss)).2
      parents := (best cfg.spawners s.toTell).map some
      toTell := [] }
  else
    { (getEs ext cfg s).2 with
      es := some (ext.tell (getEs ext cfg s).1 (s.toTell.map Cand.data) (s.toTell.map Cand.loss)).2
      toTell := [] }

/-- `_internal_tell_candidate` (805-821). The second argument of the method, the loss with penalties (base.py 397-431), is not used. The first
component is the batch given to the strategy, if any. -/
def tell (ext : Es E X L) (cfg : Cfg) (c : Cand X L) (s : St E X L) : Option (List (Cand X L)) × St E X L :=
  if ext.popsize (getEs ext cfg { s with toTell := s.toTell ++ [c] }).1 ≤ s.toTell.length + 1 then
    (some (s.toTell ++ [c]), flush ext cfg (getEs ext cfg { s with toTell := s.toTell ++ [c] }).2)
  else (none, (getEs ext cfg { s with toTell := s.toTell ++ [c] }).2)

/-- What `Optimizer.tell` stores in the candidate and what it passes to `_internal_tell_candidate` (base.py 391, 397-400, 426), for a
candidate with penalty `pen`. -/
def baseTell {α : Type} [Add α] (loss pen : α) : α × α := (loss, loss + pen)

/-- A call of the user. Used in `step` (optimizerlib.py 805-821). -/
inductive Op (X L : Type) where
  | ask
  | tell (c : Cand X L)

/-- What happened: the points returned, what the strategy gave at each of its `ask`, what it received at each of its `tell`. Used in `step` (optimizerlib.py 805-821). -/
structure Trace (X L : Type) where
  points : List X := []
  fetched : List (List X) := []
  batches : List (List (Cand X L)) := []

/-- One call. Built on `tell` (optimizerlib.py 805-821). -/
def step (ext : Es E X L) (cfg : Cfg) (numAsk : Nat) : Op X L → St E X L → Option (Trace X L × St E X L)
  | .ask, s => (ask ext cfg numAsk s).map (fun r => ({ points := [r.1.1], fetched := (refill ext cfg s).1.toList }, r.2))
  | .tell c, s => some ({ batches := (tell ext cfg c s).1.toList }, (tell ext cfg c s).2)

/-- `num_ask` after a call. Built on `tell` (optimizerlib.py 805-821). -/
def Op.next (n : Nat) : Op X L → Nat
  | .ask => n + 1
  | .tell _ => n

/-- A sequence of calls; the number is `num_ask`. Built on `St` (optimizerlib.py 749). -/
def run (ext : Es E X L) (cfg : Cfg) : Nat → List (Op X L) → St E X L → Option (Trace X L × St E X L)
  | _, [], s => some ({}, s)
  | n, op :: ops, s =>
    match step ext cfg n op s with
    | none => none
    | some (t, s') =>
      match run ext cfg (op.next n) ops s' with
      | none => none
      | some (t', s'') =>
        some ({ points := t.points ++ t'.points, fetched := t.fetched ++ t'.fetched, batches := t.batches ++ t'.batches }, s'')

/-! ## The recommendation -/

/-- Outcome of `recommend`. Used in `recommend` (optimizerlib.py 823-841). -/
inductive Rec (X : Type) where
  | raises
  | point (x : X)
  deriving DecidableEq

/-- `sample_size` (829): `int(d * d / 2 + d / 2 + 3)`. -/
def sampleSize (d : Nat) : Nat := (d * d + d) / 2 + 3

/-- `_internal_provide_recommendation` (823-841). `learnt` is the result of `learn_on_k_best` when its check `len(first_k_individuals) == k`
(metamodel.py 60) holds, `none` for a `MetaModelFailure`; otherwise it raises AssertionError, which is not caught. `esBest` is `none` when there
is no strategy yet or no best point in it. -/
def recommend (highSpeed : Bool) (d numAsk archive : Nat) (learnt esBest : Option X) (pessimistic : X) : Rec X :=
  if highSpeed && decide (sampleSize d ≤ numAsk) then
    if archive < sampleSize d then .raises
    else
      match learnt, esBest with
      | some x, _ => .point x
      | none, some x => .point x
      | none, none => .point pessimistic
  else
    match esBest with
    | some x => .point x
    | none => .point pessimistic

/-! ## The configuration object is shared -/

/-- One optimizer: its dimension and the kind of its strategy (`some true` for fcmaes). Used in `Proc` (base.py 832). -/
structure Inst where
  dim : Nat
  kind : Option Bool := none
  deriving DecidableEq

/-- All optimizers created from one `ParametrizedCMA` object (`_as_config`, base.py 832: `config=self`), and its field `fcmaes`. -/
structure Proc where
  fcmaes : Bool
  insts : List Inst
  deriving DecidableEq

/-- The property `es` of the `i`-th optimizer (753-795), with `stop` the answer of its strategy: with dimension 1 it writes `fcmaes = True` in
the shared object (755-756). -/
def access (stop : Bool) (i : Nat) (p : Proc) : Proc :=
  match p.insts[i]? with
  | none => p
  | some a =>
    { fcmaes := p.fcmaes || a.dim == 1
      insts := p.insts.set i { a with
        kind := match a.kind with
          | none => some (p.fcmaes || a.dim == 1)
          | some k => if !(p.fcmaes || a.dim == 1) && stop then some (p.fcmaes || a.dim == 1) else some k } }

/-- A sequence of accesses. Built on `access` (optimizerlib.py 753-795). -/
def accesses (l : List (Nat × Bool)) (p : Proc) : Proc := l.foldl (fun p c => access c.2 c.1 p) p

/-- The arguments of the strategy's `tell` (815): losses first when the shared field says fcmaes. `true` if it is the order which the
strategy of the `i`-th optimizer expects. -/
def goodOrder (i : Nat) (p : Proc) : Bool :=
  match p.insts[i]? with
  | none => true
  | some a => match a.kind with
    | none => true
    | some k => k == p.fcmaes

end Cma
end NG
