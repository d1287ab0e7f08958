import Mathlib.Data.Rat.Defs
import Mathlib.Algebra.Order.Ring.Rat
import Mathlib.Data.List.Basic

/-!
The callbacks of an optimizer (`nevergrad/optimization/base.py`, lines 255-271, 386-393, 492-494) and those which save or show its state (`nevergrad/optimization/callbacks.py`, lines 43-48, 84-98, 261-304), with the loop of `minimize` which continues a saved optimizer (base.py 680-741).

The executor is the default one, which evaluates a job when its result is read (`optimization/utils.py`, lines 130-156), so that a job is always done. A pickled object is a copy of its state. The algorithm is any deterministic one, its random generator being part of its state.
-/

namespace NG.Callbacks

/-! ### One event -/

/-- The two names (base.py 266). -/
inductive Event | ask | tell
  deriving DecidableEq, Repr

/-- What a callback does: it only looks (with its number), it raises an exception, it registers another one that only looks, or it removes all callbacks. -/
inductive Cb
  | note (id : Nat)
  | fail
  | add (e : Event) (id : Nat)
  | clear
  deriving DecidableEq, Repr

/-- `_callbacks` (base.py 135): the lists of callbacks of the two names. -/
structure Table where
  ask : List Cb
  tell : List Cb
  deriving DecidableEq, Repr

/-- `self._callbacks.get(name, [])` (base.py 389, 493). -/
def Table.get (t : Table) : Event → List Cb
  | .ask => t.ask
  | .tell => t.tell

/-- `register_callback` (base.py 255-267): appended to the list of the name. -/
def Table.register (t : Table) (e : Event) (c : Cb) : Table :=
  match e with
  | .ask => ⟨t.ask ++ [c], t.tell⟩
  | .tell => ⟨t.ask, t.tell ++ [c]⟩

/-- `register_callback` with a name (base.py 266): `none` is the AssertionError. -/
def registerNamed (t : Table) (name : String) (c : Cb) : Option Table :=
  if name = "ask" then some (t.register .ask c)
  else if name = "tell" then some (t.register .tell c)
  else none

/-- The loop over the callbacks (base.py 389-392, 493-494). `todo` is what remains of the list that is iterated; `live` tells whether it still is the list of the table: `remove_all_callbacks` (base.py 269-271) replaces the table, and registrations then go to another list. The result is the numbers of the callbacks that looked, in order, the table, and whether an exception was raised. The list may grow while it is iterated: `fuel` bounds the number of calls, `none` when it is reached. -/
def fire (e : Event) : Nat → List Cb → Bool → Table → Option (List Nat × Table × Bool)
  | 0, _, _, _ => none
  | _ + 1, [], _, t => some ([], t, false)
  | fuel + 1, .note id :: todo, live, t => (fire e fuel todo live t).map fun r => (id :: r.1, r.2)
  | _ + 1, .fail :: _, _, t => some ([], t, true)
  | fuel + 1, .add e' id :: todo, live, t =>
    fire e fuel (if live && e' == e then todo ++ [.note id] else todo) live (t.register e' (.note id))
  | fuel + 1, .clear :: todo, _, _ => fire e fuel todo false ⟨[], []⟩

/-- The callbacks of one call of `ask` or `tell`. -/
def fireAll (e : Event) (fuel : Nat) (t : Table) : Option (List Nat × Table × Bool) :=
  fire e fuel (t.get e) true t

/-! ### Saving and continuing -/

/-- A deterministic algorithm with its random generator. -/
structure Alg (σ X L : Type) where
  ask : σ → X × σ
  tell : σ → X → L → σ

/-- The state which is pickled (base.py 95-145): that of the algorithm, the counters, the candidates of the running and of the finished jobs (137-138), the curve, the archive as the list of tells, and the counters held by the callbacks of `tell`, such as `_current` of a progress bar (callbacks.py 282). -/
structure Opt (σ X L : Type) where
  alg : σ
  numAsk : Nat
  numTell : Nat
  running : List X
  finished : List X
  curve : List (Nat × L)
  archive : List (X × L)
  counts : Nat → Nat

variable {σ X L : Type}

/-- The curve (base.py 354-357), the last point at the head. -/
def curveUpdate (n : Nat) (l : L) : List (Nat × L) → List (Nat × L)
  | [] => [(n, l)]
  | p :: c => if p.1 * 11 < n * 10 then (n, l) :: p :: c else p :: c

/-- What `tell` does before the callbacks (base.py 338-388), with one objective. -/
def tellStart (l : L) (o : Opt σ X L) : Opt σ X L := { o with curve := curveUpdate o.numTell l o.curve }

/-- The first `d` callbacks are called (base.py 389-392). -/
def callFirst (d : Nat) (o : Opt σ X L) : Opt σ X L :=
  { o with counts := fun i => o.counts i + if i < d then 1 else 0 }

/-- What `tell` does after the callbacks (base.py 393-431), and the removal of the job (base.py 705). -/
def tellEnd (a : Alg σ X L) (x : X) (l : L) (rest : List X) (o : Opt σ X L) : Opt σ X L :=
  { o with alg := a.tell o.alg x l, archive := o.archive ++ [(x, l)], numTell := o.numTell + 1, finished := rest }

/-- The loop over the finished jobs (base.py 697-707), with `c` callbacks; a job stays first in the list while it is told. -/
def tellAll (a : Alg σ X L) (f : X → L) (c : Nat) : List X → Opt σ X L → Opt σ X L
  | [], o => { o with finished := [] }
  | x :: rest, o =>
    tellAll a f c rest (tellEnd a x (f x) rest (callFirst c (tellStart (f x) { o with finished := x :: rest })))

/-- The states saved by the callback number `d` of `tell`, if it is an `OptimizerDump` (callbacks.py 273-274). -/
def tellSnaps (a : Alg σ X L) (f : X → L) (c d : Nat) : List X → Opt σ X L → List (Opt σ X L)
  | [], _ => []
  | x :: rest, o =>
    callFirst d (tellStart (f x) { o with finished := x :: rest }) ::
      tellSnaps a f c d rest (tellEnd a x (f x) rest (callFirst c (tellStart (f x) { o with finished := x :: rest })))

/-- One ask of the loop (base.py 720-728). -/
def askOne (a : Alg σ X L) (o : Opt σ X L) : Opt σ X L :=
  { o with alg := (a.ask o.alg).2, numAsk := o.numAsk + 1, running := o.running ++ [(a.ask o.alg).1] }

/-- Several asks (base.py 720-728). -/
def askN (a : Alg σ X L) : Nat → Opt σ X L → Opt σ X L
  | 0, o => o
  | k + 1, o => askN a k (askOne a o)

/-- The states saved by an `OptimizerDump` on `ask` (base.py 493-494): before each ask. -/
def askSnaps (a : Alg σ X L) : Nat → Opt σ X L → List (Opt σ X L)
  | 0, _ => []
  | k + 1, o => o :: askSnaps a k (askOne a o)

/-- The number of new candidates (base.py 717), for a number of asks at most equal to the budget. -/
def newSugg (budget workers : Nat) (o : Opt σ X L) : Nat :=
  min (budget - o.numAsk) (workers - o.running.length)

/-- The jobs are done: all are finished (base.py 735-738). -/
def split (o : Opt σ X L) : Opt σ X L := { o with running := [], finished := o.running }

/-- One turn of the loop (base.py 687-739). -/
def turn (a : Alg σ X L) (f : X → L) (c budget workers : Nat) (o : Opt σ X L) : Opt σ X L :=
  split (askN a (newSugg budget workers (tellAll a f c o.finished o)) (tellAll a f c o.finished o))

/-- The condition of the loop (base.py 688), without a maximum time. -/
def more (budget : Nat) (o : Opt σ X L) : Bool :=
  budget - o.numAsk != 0 || !o.running.isEmpty || !o.finished.isEmpty

/-- The states saved during a turn, by the callback number `d` of `tell`, or by one of `ask`. -/
def turnSnaps (a : Alg σ X L) (f : X → L) (c budget workers : Nat) (d : Option Nat) (o : Opt σ X L) :
    List (Opt σ X L) :=
  match d with
  | some d => tellSnaps a f c d o.finished o
  | none => askSnaps a (newSugg budget workers (tellAll a f c o.finished o)) (tellAll a f c o.finished o)

/-- `minimize` (base.py 680-741) with at most `n` turns. -/
def loop (a : Alg σ X L) (f : X → L) (c budget workers : Nat) : Nat → Opt σ X L → Opt σ X L
  | 0, o => o
  | n + 1, o => if more budget o then loop a f c budget workers n (turn a f c budget workers o) else o

/-- The states saved during `minimize`. -/
def snaps (a : Alg σ X L) (f : X → L) (c budget workers : Nat) (d : Option Nat) :
    Nat → Opt σ X L → List (Opt σ X L)
  | 0, _ => []
  | n + 1, o =>
    if more budget o then
      turnSnaps a f c budget workers d o ++ snaps a f c budget workers d n (turn a f c budget workers o)
    else []

/-! ### Several objectives -/

/-- `HypervolumePareto` (`optimization/multiobjective/core.py`, lines 50-73) while it sets its bounds: the number of points still used for that, the bounds (`none` for minus infinity) and the points kept. -/
structure Hv where
  auto : Nat
  bounds : Option (List ℚ)
  kept : List (List ℚ)
  deriving DecidableEq, Repr

/-- `HypervolumePareto.add` (core.py 105-121) while it sets its bounds; it is called before the callbacks (base.py 384). The result is `none` for an infinite loss. -/
def Hv.add (h : Hv) (l : List ℚ) : Option ℚ × Hv :=
  if (h.bounds.map fun b => (b.zip l).all fun p => decide (p.1 < p.2)).getD false then
    (none, ⟨h.auto - 1, h.bounds, h.kept⟩)
  else
    (some 0, ⟨h.auto - 1, some ((h.bounds.map fun b => (b.zip l).map fun p => max p.1 p.2).getD l), h.kept ++ [l]⟩)

/-! ### Showing the state -/

/-- What a printing callback does. -/
inductive Shown | nothing | recommendation | losses | raised
  deriving DecidableEq, Repr

/-- `OptimizationPrinter.__call__` (callbacks.py 43-48): `due` is the test on the time and on the number of tells; `recommend` raises with several objectives (base.py 580-583). -/
def printer (due : Bool) (objectives : Nat) : Shown :=
  if due then if 1 < objectives then .raised else .recommendation else .nothing

/-- `OptimizationLogger.__call__` (callbacks.py 84-98): `hasFront` tells whether `_hypervolume_pareto` was made, which is at the first tell of several losses. -/
def logger (due : Bool) (objectives : Nat) (hasFront : Bool) : Shown :=
  if due then
    if objectives = 1 then .recommendation else if hasFront then .losses else .raised
  else .nothing

/-- `due` (callbacks.py 44, 85): the time is not before the next one, or the next number of tells is not below that of the optimizer. -/
def due (time nextTime nextTell numTell : Nat) : Bool := decide (nextTime ≤ time) || decide (numTell ≤ nextTell)

end NG.Callbacks
