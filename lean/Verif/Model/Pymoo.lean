/-
The optimizers made from pymoo (`nevergrad/optimization/recastlib.py` 575-872): what they add to the recast optimizers of `Verif/Model/Recast.lean`.

Simplifications. The algorithm of pymoo is a deterministic process (its seed is drawn once, recastlib.py 589-592). The thread runs as far as it can when the caller of the sequential optimizer
waits for it; for the batch optimizer all interleavings are possible. Losses are lists of numbers; the clipping of large losses is in another model. Suggestions are not modelled.
-/
import Verif.Model.Recast
import Mathlib.Analysis.SpecialFunctions.Trigonometric.Arctan

namespace NG.Pymoo

open Recast

section
variable {P L S : Type}

/-- The point given to nevergrad for a point of the box of pymoo (`_PymooProblem`, recastlib.py 854-869). -/
noncomputable def toData {d : Nat} (X : Fin d → ℝ) : Fin d → ℝ := fun i => Real.tan (X i)

/-- The bounds of the box (recastlib.py 861-862). -/
noncomputable def bounds : ℝ × ℝ := (-Real.pi * (1 / 2), Real.pi * (1 / 2))

/-! ### One point at a time -/

/-- `_PymooMinimizeBase` (recastlib.py 575-587): the number of objectives, 0 while it is not known, and the thread when there is one. -/
structure Py (P L S : Type) where
  num : Nat
  thread : Option (Sys P (List L) S)

/-- What `_internal_ask_candidate` gives: a child of the parametrization that pymoo did not ask for, or what the thread gives. Used in `Py.ask` (recastlib.py 642-656). -/
inductive Got (P : Type)
  | dummy
  | asked (r : Asked P)

/-- `_internal_ask_candidate` (recastlib.py 642-656, recaster.py 264-265). -/
def Py.ask (alg : S → Act P (List L) S) (fuel : Nat) (s0 : S) (o : Py P L S) : Got P × Py P L S :=
  if o.num = 0 then (.dummy, o) else
    let r := Recast.ask alg fuel (o.thread.getD (.start s0))
    (.asked r.1, { o with thread := some r.2 })

/-- `_post_loss` (recastlib.py 670-675) of a candidate that was told `losses` (`none` before the tell), with the loss that has the penalties; `none` is the RuntimeError of `Parameter.losses`
(parametrization/core.py 80-93). -/
def postLoss (losses : Option (List L)) (_ : L) : Option (List L) := losses

/-- `_internal_tell_candidate` (recastlib.py 658-668, recaster.py 282-292); `none` is an exception. -/
def Py.internalTell (alg : S → Act P (List L) S) (losses : Option (List L)) (loss : L) (o : Py P L S) : Option (Py P L S) :=
  match o.thread with
  | none => some o
  | some y =>
    if y.wk.alive then (postLoss losses loss).map fun l => { o with thread := some (Recast.tell alg (some l) y) }
    else if y.error then none else some o

/-- `Optimizer.tell` (base.py 362-431) of an asked candidate: the number of objectives (base.py 176-185), and the loss with its penalties for the algorithm. -/
def Py.tell (alg : S → Act P (List L) S) (losses : List L) (penalized : L) (o : Py P L S) : Option (Py P L S) :=
  if losses.length = 0 then none
  else if o.num ≠ 0 ∧ o.num ≠ losses.length then none
  else Py.internalTell alg (some losses) penalized { o with num := losses.length }

/-- The result of an ask. Used in `Py.trials` (base.py 510-537). -/
inductive Out (P : Type)
  | point (x : P)
  | error
  | stuck
deriving DecidableEq

/-- The trials of `Optimizer.ask` (base.py 510-537; `no_parallelization` holds): a candidate that violates the constraints is told `inf` before any loss is known. `init` is the value of the
parametrization, `rnd` a random point, `solver` the constraint solver. -/
def Py.trials (alg : S → Act P (List L) S) (fuel : Nat) (s0 : S) (inf : L) (ok : P → Bool) (init rnd : P) (solver : P → P) : Nat → Py P L S → Out P × Py P L S
  | 0, o => (.stuck, o)
  | n + 1, o =>
    let (r, o') := o.ask alg fuel s0
    let go (x : P) : Out P × Py P L S :=
      if ok x then (.point x, o')
      else
        match Py.internalTell alg none inf o' with
        | none => (.error, o')
        | some o'' => if n = 0 then (.point (solver x), o'') else Py.trials alg fuel s0 inf ok init rnd solver n o''
    match r with
    | .dummy => go init
    | .asked (.point x) => go x
    | .asked .random => go rnd
    | .asked .raised => (.error, o')
    | .asked .stuck => (.stuck, o')

/-- A round without constraints: ask a point and tell its losses, with any penalty; the result is the evaluated point, with the candidate that goes to the archive for pickling (recaster.py
290-291) if there is a thread that is alive. -/
def Py.round (alg : S → Act P (List L) S) (fuel : Nat) (s0 : S) (inf : L) (init : P) (f : P → List L) (penalized : L) (o : Py P L S) : Option (P × List (P × Option (List L)) × Py P L S) :=
  match o.trials alg fuel s0 inf (fun _ => true) init init id 1 with
  | (.point x, o') =>
    (Py.tell alg (f x) penalized o').map fun o'' => (x, if o'.thread.any (fun y => y.wk.alive) then [(x, some (f x))] else [], o'')
  | _ => none

/-- Several rounds, with the penalties of each. Built on `Py.round` (recaster.py 290-291). -/
def Py.rounds (alg : S → Act P (List L) S) (fuel : Nat) (s0 : S) (inf : L) (init : P) (f : P → List L) : List L → Py P L S → Option (List P × List (P × Option (List L)) × Py P L S)
  | [], o => some ([], [], o)
  | v :: vs, o => do
    let (x, a, o') ← Py.round alg fuel s0 inf init f v o
    let (xs, as, o'') ← Py.rounds alg fuel s0 inf init f vs o'
    return (x :: xs, a ++ as, o'')

/-! ### Batches -/

/-- `_PymooBatchMinimizeBase` (recastlib.py 718-796): `started` when the thread exists, the uids of the candidates that pymoo did not ask for, and the asked candidates that were not told. -/
structure PB (P L S : Type) where
  num : Nat
  started : Bool
  dummies : List Nat
  pending : List Nat
  b : BSys P (List L) S

/-- A new optimizer. Built on `PB` (recastlib.py 718-796). -/
def PB.init (s0 : S) (num : Nat) : PB P L S := { num := num, started := false, dummies := [], pending := [], b := .start s0 }

/-- The steps: an ask before the number of objectives is known, an ask from the current batch, the two parts of an ask of a new batch, a step of the thread, and a tell. Used in `PB.step` (recastlib.py 770-789). -/
inductive PBOp (L : Type)
  | dummy
  | pop
  | enter
  | take
  | work
  | tell (uid : Nat) (losses : List L)

/-- The outcome of a step: the new state, a step that is not possible now, or an exception. Used in `PB.step` (recastlib.py 770-789). -/
inductive Outcome (P L S : Type)
  | ok (s : PB P L S)
  | blocked
  | valueError
  | notAsked
  | keyError

/-- One step (recastlib.py 770-789, recaster.py 188-189, 355-408; base.py 425-430). The uids are drawn from one counter; `pending` are the candidates of `_asked` that the caller can tell. -/
def PB.step (alg : S → Act (List P) (List (Option (List L))) S) (op : PBOp L) (s : PB P L S) : Outcome P L S :=
  match op with
  | .dummy =>
    if s.num = 0 then
      .ok { s with dummies := s.b.batch.next :: s.dummies, pending := s.b.batch.next :: s.pending,
                   b := { s.b with batch := { s.b.batch with next := s.b.batch.next + 1 } } }
    else .blocked
  | .work =>
    if s.started then
      match bstep alg .work s.b with
      | none => .blocked
      | some b => .ok { s with b := b }
    else .blocked
  | .pop =>
    if s.num = 0 then .blocked else
      match s.b.batch.pop, bstep alg .pop s.b with
      | some (c, _), some b => .ok { s with b := b, pending := c.1 :: s.pending }
      | _, _ => .blocked
  | .enter =>
    if s.num = 0 then .blocked else
      match bstep alg .enter s.b with
      | none => .blocked
      | some b => .ok { s with started := true, b := b }
  | .take =>
    match bstep alg .take s.b, s.b.sys.qAsk with
    | some b, .pt points :: _ =>
      match (s.b.batch.receive points).pop with
      | none => .ok { s with b := b }
      | some (c, _) => .ok { s with b := b, pending := c.1 :: s.pending }
    | some b, _ => .ok { s with b := b }
    | none, _ => .blocked
  | .tell uid losses =>
    if losses.length = 0 ∨ (s.num ≠ 0 ∧ s.num ≠ losses.length) then .valueError
    else if uid ∉ s.pending then .notAsked
    else if s.b.sys.blocked then .blocked
    else
      let s' := { s with num := losses.length, pending := s.pending.erase uid }
      if s.started = false ∨ s.b.sys.wk.alive = false then .ok s'
      else
        match s.b.batch.tell uid losses, bstep alg (.tell uid losses) s.b with
        | none, _ => .keyError
        | some _, some b => .ok { s' with b := b }
        | some _, none => .blocked

/-- A sequence of steps that all succeed. Built on `PB.step` (recastlib.py 770-789). -/
def PB.exec (alg : S → Act (List P) (List (Option (List L))) S) : List (PBOp L) → PB P L S → Option (PB P L S)
  | [], s => some s
  | op :: ops, s =>
    match s.step alg op with
    | .ok s' => PB.exec alg ops s'
    | _ => none

end

end NG.Pymoo
