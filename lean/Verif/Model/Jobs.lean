import Mathlib.Order.Lattice
import Mathlib.Data.List.Basic
import Mathlib.Algebra.Order.Group.Defs

/-!
# Jobs and executors

Sources: nevergrad/optimization/utils.py 130-156 (delayed jobs of the default executor) and
nevergrad/benchmark/execution.py (mocked executor of the benchmarks).
-/

namespace NG
namespace Jobs

/-! ## Delayed jobs -/

/-- `DelayedJob` (utils.py 130-147), with the number of calls of the function so far. -/
structure Delayed (R : Type) where
  result : Option R
  calls : Nat

/-- `SequentialExecutor.submit` (utils.py 155-156). -/
def Delayed.init {R : Type} : Delayed R := { result := none, calls := 0 }

/-- The methods of a job. Used in `Delayed.step` (utils.py 140-147). -/
inductive JobOp where
  | done
  | result
  deriving DecidableEq

/-- What a method gives: the boolean of `done`, the value of `result`, or the exception of the function. Used in `Delayed.step` (utils.py 140-147). -/
inductive JobOut (R : Type) where
  | bool (b : Bool)
  | value (r : R)
  | raised
  deriving DecidableEq

/-- A method call (utils.py 140-147). The function may be anything: `func n` is what its `n`-th call gives, `none` if it
raises. -/
def Delayed.step {R : Type} (func : Nat → Option R) (op : JobOp) (j : Delayed R) : JobOut R × Delayed R :=
  match op with
  | .done => (.bool true, j)
  | .result =>
    match j.result with
    | some r => (.value r, j)
    | none =>
      match func j.calls with
      | some r => (.value r, { result := some r, calls := j.calls + 1 })
      | none => (.raised, { j with calls := j.calls + 1 })

/-- A sequence of method calls. Built on `Delayed.step` (utils.py 140-147). -/
def Delayed.run {R : Type} (func : Nat → Option R) : List JobOp → Delayed R → List (JobOut R) × Delayed R
  | [], j => ([], j)
  | op :: ops, j =>
    let r := j.step func op
    let rest := Delayed.run func ops r.2
    (r.1 :: rest.1, rest.2)

/-! ## The mocked executor -/

variable {α Out : Type} [LinearOrder α] [AddCommGroup α]

/-- `MockedTimedJob` (execution.py 17-34): time at submission, output and delay once computed, whether it was read. -/
structure Job (α Out : Type) where
  time : α
  out : Option (Out × α)
  read : Bool

/-- `MockedTimedExecutor` (execution.py 85-90). Jobs are numbered by submission. `heapq` is represented by the sorted list of
its elements (release time, order, job), whose first one is `queue[0]`. `calls` and `reads` record the history: number of
function calls, jobs read with their release time. -/
structure Ex (α Out : Type) where
  batch : Bool
  jobs : List (Job α Out)
  todo : List Nat
  queue : List (α × Nat × Nat)
  order : Nat
  time : α
  calls : Nat
  reads : List (Nat × α)

/-- The constructor. Built on `Ex` (execution.py 85-90). -/
def Ex.init (batch : Bool) : Ex α Out :=
  { batch := batch, jobs := [], todo := [], queue := [], order := 0, time := 0, calls := 0, reads := [] }

/-- `submit` (execution.py 96-99). -/
def Ex.submit (e : Ex α Out) : Ex α Out :=
  { e with jobs := e.jobs ++ [{ time := e.time, out := none, read := false }], todo := e.todo ++ [e.jobs.length] }

/-- `job.process()` (execution.py 45-51): the function is called, and the delay computed, only once; `false` if it raised.
`F n j` is what the `n`-th call gives when called for job `j`: the output and the pseudotime. -/
def Ex.process (F : Nat → Nat → Option (Out × α)) (j : Nat) (e : Ex α Out) : Bool × Ex α Out :=
  match e.jobs[j]? with
  | none => (true, e)
  | some job =>
    match job.out with
    | some _ => (true, e)
    | none =>
      match F e.calls j with
      | none => (false, { e with calls := e.calls + 1 })
      | some (o, d) =>
        (true, { e with jobs := e.jobs.set j { job with out := some (o, max 0 d) }, calls := e.calls + 1 })

/-- `heapq.heappush` on the sorted list; elements are compared as tuples (execution.py 68-73). -/
def push (x : α × Nat × Nat) : List (α × Nat × Nat) → List (α × Nat × Nat)
  | [] => [x]
  | y :: q => if y.1 < x.1 ∨ y.1 = x.1 ∧ y.2.1 < x.2.1 then y :: push x q else x :: y :: q

/-- `job.release_time` (execution.py 37-40) of a computed job. -/
def Job.release (job : Job α Out) : Option α := job.out.map (fun o => o.2 + job.time)

/-- `_process_submissions` (execution.py 101-109); `false` if a function raised, its job staying first in line. -/
def Ex.processAll (F : Nat → Nat → Option (Out × α)) : Nat → Ex α Out → Bool × Ex α Out
  | 0, e => (true, e)
  | n + 1, e =>
    match e.todo with
    | [] => (true, e)
    | j :: todo =>
      match e.process F j with
      | (false, e') => (false, e')
      | (true, e') =>
        match (e'.jobs[j]?).bind Job.release with
        | none => (false, e')
        | some r =>
          Ex.processAll F n
            { e' with
              queue := if e'.batch then e'.queue else push (r, e'.order, j) e'.queue,
              todo := todo, order := e'.order + 1 }

/-- `_process_submissions` with as many rounds as needed. Used in `Ex.done` (execution.py 111-117). -/
def Ex.settle (F : Nat → Nat → Option (Out × α)) (e : Ex α Out) : Bool × Ex α Out := e.processAll F e.todo.length

/-- `check_is_done` (execution.py 111-117); `none` if it raised. -/
def Ex.done (F : Nat → Nat → Option (Out × α)) (j : Nat) (e : Ex α Out) : Option Bool × Ex α Out :=
  match e.settle F with
  | (false, e') => (none, e')
  | (true, e') =>
    match e'.jobs[j]? with
    | none => (none, e')
    | some job =>
      if e'.batch ∨ job.read then (some true, e')
      else
        match e'.queue with
        | [] => (none, e')
        | h :: _ => (some (h.2.2 == j), e')

/-- The value of `result`, or its exceptions: the one of a function, "Asking result which is not ready", and "Only first job
should be read" (or IndexError when no job is left). Used in `Ex.result` (execution.py 53-62). -/
inductive Res (Out : Type) where
  | value (o : Out)
  | raised
  | notReady
  | notFirst
  deriving DecidableEq

/-- `result` (execution.py 53-62) with `notify_read` (lines 119-130). -/
def Ex.result (F : Nat → Nat → Option (Out × α)) (j : Nat) (e : Ex α Out) : Res Out × Ex α Out :=
  match e.process F j with
  | (false, e1) => (.raised, e1)
  | (true, e1) =>
    match e1.done F j with
    | (none, e2) => (.raised, e2)
    | (some false, e2) => (.notReady, e2)
    | (some true, e2) =>
      match e2.jobs[j]? with
      | none => (.raised, e2)
      | some job =>
        let e3 := { e2 with jobs := e2.jobs.set j { job with read := true } }
        match e3.settle F with
        | (false, e4) => (.raised, e4)
        | (true, e4) =>
          match job.out, job.release with
          | some (o, _), some r =>
            if e4.batch then (.value o, { e4 with time := max e4.time r, reads := e4.reads ++ [(j, r)] })
            else
              match e4.queue with
              | [] => (.notFirst, e4)
              | h :: q =>
                if h.2.2 = j then
                  (.value o, { e4 with queue := q, time := max e4.time r, reads := e4.reads ++ [(j, r)] })
                else (.notFirst, e4)
          | _, _ => (.raised, e4)

/-- The operations of the users of an executor; jobs that were not submitted cannot be used. Used in `Ex.step` (execution.py 53-62). -/
inductive ExOp where
  | submit
  | done (j : Nat)
  | result (j : Nat)

/-- One operation. Built on `Ex.result` (execution.py 53-62). -/
def Ex.step (F : Nat → Nat → Option (Out × α)) (op : ExOp) (e : Ex α Out) : Ex α Out :=
  match op with
  | .submit => e.submit
  | .done j => if j < e.jobs.length then (e.done F j).2 else e
  | .result j => if j < e.jobs.length then (e.result F j).2 else e

end Jobs
end NG
