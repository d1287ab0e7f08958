import Mathlib.Data.List.Basic

/-!
# Optimizers recast from a library calling its objective

Source: nevergrad/optimization/recaster.py. The wrapped algorithm runs in a thread and communicates through two queues.
The model interleaves the steps of the thread and of the caller in any order.
-/

namespace NG
namespace Recast

/-- What the wrapped algorithm does next: call the objective on a point and go on with the loss, return, or raise. The
algorithm is deterministic, its state is `S`. Used in `work` (recaster.py 61-87). -/
inductive Act (P L S : Type) where
  | call (x : P) (k : L → S)
  | finish
  | fail

/-- A message of `messages_ask`: a point, `None` at the end, or an exception (recaster.py 61-73, 83). -/
inductive Msg (P : Type) where
  | pt (x : P)
  | none
  | exc
  deriving DecidableEq

/-- The thread: about to continue the algorithm, blocked in `messages_tell.get()` (recaster.py 84), having posted an exception but
not yet stored it (between lines 70 and 71), having posted its last message but still alive, or dead. -/
inductive Wk (P L S : Type) where
  | run (s : S)
  | wait (x : P) (k : L → S)
  | failing
  | ended
  | dead

/-- The thread, its queues, and whether the caller is blocked in `messages_ask.get()` (recaster.py 268 or 371). The last five fields
only record the history: points posted, losses received by the algorithm with the point they were received for, points
got by the caller, messages put by the caller, and `closed`: the last message of the thread was taken. `None` in `messages_tell` tells the thread to stop. -/
structure Sys (P L S : Type) where
  wk : Wk P L S
  qAsk : List (Msg P)
  qTell : List (Option L)
  error : Bool
  blocked : Bool
  posted : List P
  eaten : List (P × L)
  got : List P
  puts : List (Option L)
  closed : Bool

/-- A thread just started (recaster.py 264-265). -/
def Sys.start {P L S : Type} (s0 : S) : Sys P L S :=
  { wk := .run s0, qAsk := [], qTell := [], error := false, blocked := false, posted := [], eaten := [], got := [], puts := [],
    closed := false }

/-- Steps: the thread works; the caller enters `_internal_ask_candidate` and sees the thread alive (recaster.py 266-267); the
caller takes a message from `messages_ask` (recaster.py 268); the caller puts a message in `messages_tell` (recaster.py 292, 406). -/
inductive Op (L : Type) where
  | work
  | enter
  | take
  | put (v : Option L)

variable {P L S : Type}

/-- `is_alive()`. Built on `Wk` (recaster.py 84). -/
def Wk.alive : Wk P L S → Bool
  | .dead => false
  | _ => true

/-- A step of the thread (recaster.py 61-87); `none` if it is blocked or dead. -/
def work (alg : S → Act P L S) (y : Sys P L S) : Option (Sys P L S) :=
  match y.wk with
  | .run s =>
    match alg s with
    | .call x k => some { y with wk := .wait x k, qAsk := y.qAsk ++ [.pt x], posted := y.posted ++ [x] }
    | .finish => some { y with wk := .ended, qAsk := y.qAsk ++ [.none] }
    | .fail => some { y with wk := .failing, qAsk := y.qAsk ++ [.exc] }
  | .wait x k =>
    match y.qTell with
    | [] => none
    | some l :: q => some { y with wk := .run (k l), qTell := q, eaten := y.eaten ++ [(x, l)] }
    | none :: q => some { y with wk := .ended, qTell := q, qAsk := y.qAsk ++ [.exc] }
  | .failing => some { y with wk := .ended, error := true }
  | .ended => some { y with wk := .dead }
  | .dead => none

/-- One step; `none` if it is not possible. A caller finding the thread dead does not touch the queues: such asks and tells
are not steps. Built on `work` (recaster.py 61-87). -/
def step (alg : S → Act P L S) (op : Op L) (y : Sys P L S) : Option (Sys P L S) :=
  match op with
  | .work => work alg y
  | .enter => if y.wk.alive ∧ y.blocked = false then some { y with blocked := true } else none
  | .take =>
    if y.blocked then
      match y.qAsk with
      | [] => none
      | .pt x :: q => some { y with qAsk := q, blocked := false, got := y.got ++ [x] }
      | _ :: q => some { y with qAsk := q, blocked := false, closed := true }
    else none
  | .put v =>
    if y.wk.alive ∧ y.blocked = false then some { y with qTell := y.qTell ++ [v], puts := y.puts ++ [v] } else none

/-- A sequence of steps. Built on `Op` (recaster.py 266-267). -/
def exec (alg : S → Act P L S) : List (Op L) → Sys P L S → Option (Sys P L S)
  | [], y => some y
  | op :: ops, y =>
    match step alg op y with
    | none => none
    | some y' => exec alg ops y'

/-! ## One schedule, and optimizers as seen by their user

The thread runs as far as it can whenever the caller waits for it. -/

/-- The thread works, at most `fuel` steps. Built on `work` (recaster.py 61-87). -/
def drain (alg : S → Act P L S) : Nat → Sys P L S → Sys P L S
  | 0, y => y
  | n + 1, y =>
    match work alg y with
    | none => y
    | some y' => drain alg n y'

/-- The result of `_internal_ask_candidate` (recaster.py 260-280): a point of the algorithm, a random point, an exception, or
waiting forever. -/
inductive Asked (P : Type) where
  | point (x : P)
  | random
  | raised
  | stuck
  deriving DecidableEq

/-- `_internal_ask_candidate`. Built on `Asked` (recaster.py 260-280). -/
def ask (alg : S → Act P L S) (fuel : Nat) (y : Sys P L S) : Asked P × Sys P L S :=
  match step alg .enter y with
  | none => (if y.error then .raised else .random, y)
  | some y1 =>
    let y2 := drain alg fuel y1
    match step alg .take y2 with
    | none => (.stuck, y2)
    | some y3 =>
      match y2.qAsk with
      | .pt x :: _ => (.point x, y3)
      | .none :: _ => (if y3.error then .raised else .random, y3)
      | _ => (.raised, y3)

/-- `_internal_tell_candidate` (recaster.py 282-292), the archive being kept by `Opt`. -/
def tell (alg : S → Act P L S) (v : Option L) (y : Sys P L S) : Sys P L S :=
  match step alg (.put v) y with
  | none => y
  | some y' => y'

/-- A `SequentialRecastOptimizer` with pickling enabled: the archive holds the points of the told candidates with their
`loss` attribute, `held` is the candidate the user is evaluating. Used in `Opt.trials` (base.py 511-533). -/
structure Opt (P L S : Type) where
  sys : Sys P L S
  archive : List (P × Option L)
  numAsk : Nat
  numTell : Nat
  held : Option P

/-- A new optimizer. Built on `Sys.start` (recaster.py 264-265). -/
def Opt.init (s0 : S) : Opt P L S := { sys := .start s0, archive := [], numAsk := 0, numTell := 0, held := none }

/-- The trials of `Optimizer.ask` (base.py 511-533, `no_parallelization` holds) followed by the constraint solver (base.py
534-537, for no tabu list): a rejected candidate is told `inf` while its `loss` attribute is still `None`. Random points and
exceptions end the loop. -/
def Opt.trials (alg : S → Act P L S) (fuel : Nat) (inf : L) (ok : P → Bool) (solver : P → P) :
    Nat → Opt P L S → Asked P × Opt P L S
  | 0, o => (.stuck, o)
  | n + 1, o =>
    match ask alg fuel o.sys with
    | (.point x, y) =>
      if ok x then (.point x, { o with sys := y })
      else
        let o' := { o with sys := tell alg (some inf) y, archive := o.archive ++ [(x, none)] }
        if n = 0 then (.point (solver x), o') else Opt.trials alg fuel inf ok solver n o'
    | (r, y) => (r, { o with sys := y })

/-- `Optimizer.ask` (base.py 481-558). -/
def Opt.ask (alg : S → Act P L S) (fuel : Nat) (inf : L) (ok : P → Bool) (solver : P → P) (trials : Nat) (o : Opt P L S) :
    Asked P × Opt P L S :=
  match o.trials alg fuel inf ok solver trials with
  | (.point x, o') => (.point x, { o' with held := some x, numAsk := o.numAsk + 1 })
  | (.random, o') => (.random, { o' with numAsk := o.numAsk + 1 })
  | r => r

/-- `Optimizer.tell` of the held candidate (base.py 389-431): `l` is the loss given by the user, kept as `candidate.loss`,
`v` the loss after adding the penalties, which is what the thread receives. -/
def Opt.tell (alg : S → Act P L S) (l v : L) (o : Opt P L S) : Opt P L S :=
  match o.held with
  | none => o
  | some x =>
    { sys := Recast.tell alg (some v) o.sys,
      archive := if o.sys.wk.alive then o.archive ++ [(x, some l)] else o.archive,
      numAsk := o.numAsk, numTell := o.numTell + 1, held := none }

/-- Asking a suggestion and telling it: `ask` returns it without involving the thread (base.py 513-515), and `tell` raises
TellNotAskedNotSupportedError (recaster.py 188-189) before counting it (base.py 431). -/
def Opt.suggestion (o : Opt P L S) : Opt P L S := { o with numAsk := o.numAsk + 1 }

/-- The loop of `__setstate__` (recaster.py 311-319); `none` if it raises or waits forever. -/
def replay [DecidableEq P] (alg : S → Act P L S) (fuel : Nat) : List (P × Option L) → Sys P L S → Option (Sys P L S)
  | [], y => some y
  | (x, l) :: rest, y =>
    match ask alg fuel y with
    | (.point x', y') => if x' = x then replay alg fuel rest (tell alg l y') else none
    | _ => none

/-- `__setstate__` (recaster.py 303-324): the thread of the unpickled optimizer. -/
def unpickle [DecidableEq P] (alg : S → Act P L S) (fuel : Nat) (s0 : S) (o : Opt P L S) : Option (Sys P L S) :=
  match replay alg fuel o.archive (.start s0) with
  | none => none
  | some y => if o.numTell < o.numAsk then some (Recast.ask alg fuel y).2 else some y

/-! ## Batches -/

/-- The caller's side of `BatchRecastOptimizer` (recaster.py 345-353). Candidates are uids paired with points. -/
structure Batch (P L : Type) where
  current : List (Nat × P)
  losses : List (Option L)
  counter : Nat
  size : Nat
  indices : List (Nat × Nat)
  next : Nat

/-- The state at construction. Built on `Batch` (recaster.py 345-353). -/
def Batch.init : Batch P L := { current := [], losses := [], counter := 0, size := 0, indices := [], next := 0 }

/-- `can_ask` (recaster.py 421-427). -/
def Batch.canAsk (b : Batch P L) : Bool := b.indices.length == 0 || 0 < b.current.length

/-- A batch received from the thread (recaster.py 384-390), each point made a candidate with a new uid. -/
def Batch.receive (b : Batch P L) (points : List P) : Batch P L :=
  { current := points.mapIdx (fun i x => (b.next + i, x)), losses := points.map (fun _ => none), counter := b.counter,
    size := points.length, indices := points.mapIdx (fun i _ => (b.next + i, i)), next := b.next + points.length }

/-- `self._current_batch.pop()` (recaster.py 362, 391); `none` is the IndexError on an empty batch. -/
def Batch.pop (b : Batch P L) : Option ((Nat × P) × Batch P L) :=
  match b.current.getLast? with
  | none => none
  | some c => some (c, { b with current := b.current.dropLast })

/-- `_internal_tell_candidate` while the thread is alive (recaster.py 401-408); `none` is the KeyError. The second component
is the array of losses sent to the thread, if any. -/
def Batch.tell (b : Batch P L) (uid : Nat) (l : L) : Option (Batch P L × Option (List (Option L))) :=
  match b.indices.find? (fun e => e.1 == uid) with
  | none => none
  | some (_, i) =>
    let indices := b.indices.filter (fun e => e.1 != uid)
    let losses := b.losses.set i (some l)
    let counter := b.counter + 1
    if counter = b.size then
      some ({ b with losses := [], counter := 0, indices := indices }, some losses)
    else some ({ b with losses := losses, counter := counter, indices := indices }, none)

/-- A batch optimizer with its thread. `log` records the batches received, each point with its uid, and `tells` the uids
told with their loss. Used in `bstep` (recaster.py 361-362). -/
structure BSys (P L S : Type) where
  sys : Sys (List P) (List (Option L)) S
  batch : Batch P L
  log : List (List (Nat × P))
  tells : List (Nat × L)

/-- A new batch optimizer. Used in `unpickle` (recaster.py 303-324). -/
def BSys.start (s0 : S) : BSys P L S := { sys := .start s0, batch := .init, log := [], tells := [] }

/-- Steps of a batch optimizer. Used in `bstep` (recaster.py 361-362). -/
inductive BOp (L : Type) where
  | work
  | pop
  | enter
  | take
  | tell (uid : Nat) (l : L)

/-- One step; `none` if it is not possible, or raises leaving the state as it is. `pop` is an ask served by the current batch
(recaster.py 361-362); `enter` an ask finding no candidate left, `can_ask` and the thread alive (recaster.py 364-370); `take`
receives the message (recaster.py 371-391), the IndexError on an empty batch leaving it received. -/
def bstep (alg : S → Act (List P) (List (Option L)) S) (op : BOp L) (y : BSys P L S) : Option (BSys P L S) :=
  match op with
  | .work => (step alg .work y.sys).map (fun s => { y with sys := s })
  | .pop =>
    if y.sys.blocked then none
    else
      match y.batch.pop with
      | none => none
      | some (_, b) => some { y with batch := b }
  | .enter =>
    if y.batch.current = [] ∧ y.batch.canAsk then (step alg .enter y.sys).map (fun s => { y with sys := s })
    else none
  | .take =>
    match step alg .take y.sys with
    | none => none
    | some s =>
      match y.sys.qAsk with
      | .pt points :: _ =>
        let b := y.batch.receive points
        let log := y.log ++ [b.current]
        match b.pop with
        | none => some { y with sys := s, batch := b, log := log }
        | some (_, b') => some { y with sys := s, batch := b', log := log }
      | _ => some { y with sys := s }
  | .tell uid l =>
    if y.sys.wk.alive ∧ y.sys.blocked = false then
      match y.batch.tell uid l with
      | none => none
      | some (b, none) => some { y with batch := b, tells := y.tells ++ [(uid, l)] }
      | some (b, some v) =>
        (step alg (.put (some v)) y.sys).map
          (fun s => { sys := s, batch := b, log := y.log, tells := y.tells ++ [(uid, l)] })
    else none

/-- A sequence of steps. Built on `bstep` (recaster.py 361-362). -/
def bexec (alg : S → Act (List P) (List (Option L)) S) : List (BOp L) → BSys P L S → Option (BSys P L S)
  | [], y => some y
  | op :: ops, y =>
    match bstep alg op y with
    | none => none
    | some y' => bexec alg ops y'

end Recast
end NG
