import Verif.Model.Tools
import Mathlib.Algebra.Order.Field.Basic

/-!
# The waiting times of `minimize`

Model of `Sleeper` (`nevergrad/common/tools.py` 77-122) and of its use in `Optimizer.minimize` (`nevergrad/optimization/base.py` 682-740).
Clocks and the ends of jobs are arguments.  The loop only keeps the numbers of jobs; the rest of it is in `Model/Minimize.lean`.
-/

namespace NG.Waiting

variable {K : Type} [Field K] [LinearOrder K]

/-- The state of a `Sleeper` (tools.py 92-97); `queue` has the oldest duration first, `warnings` counts the warnings given. -/
structure Sleeper (K : Type) where
  lo : K
  hi : K
  size : Nat
  start : Option K
  queue : List K
  warnings : Nat
  deriving DecidableEq

/-- `Sleeper()` (tools.py 92-97). -/
def Sleeper.new (lo hi : K) (size : Nat) : Sleeper K := ⟨lo, hi, size, none, [], 0⟩

/-- `start_timer` (tools.py 99-103) at time `now`. -/
def Sleeper.startTimer (s : Sleeper K) (now : K) : Sleeper K :=
  match s.start with
  | some _ => { s with warnings := s.warnings + 1 }
  | none => { s with start := some now }

/-- `append` to a `deque` with a maximal length (tools.py 96, 109). -/
def push (size : Nat) (l : List K) (x : K) : List K := (l ++ [x]).drop (l.length + 1 - size)

/-- `stop_timer` (tools.py 105-110) at time `now`. -/
def Sleeper.stopTimer (s : Sleeper K) (now : K) : Sleeper K :=
  match s.start with
  | none => { s with warnings := s.warnings + 1 }
  | some t => { s with queue := push s.size s.queue (now - t), start := none }

/-- `np.mean` of the durations (tools.py 118), if there are any (113). -/
def mean (l : List K) : Option K := if l = [] then none else some (l.sum / l.length)

/-- `sleep` (tools.py 112-122) at time `now`: the duration. -/
def Sleeper.sleep (s : Sleeper K) (now : K) : K := Tools.advisedSleep s.lo s.hi 10 (s.start.map fun t => now - t) (mean s.queue)

/-- The state of the loop of `minimize` (base.py 682-740): the budget that remains, at first the budget less the number of asks (683), not negative; the
jobs that run and those that are finished; the sleeper and what it has slept. -/
structure Loop (K : Type) where
  remaining : Nat
  running : Nat
  finished : Nat
  first : Bool
  sleeper : Sleeper K
  slept : List K
  deriving DecidableEq

/-- What a turn of the loop meets: the clock at its two uses, the number of asks before an early stopping if there is one (base.py 721-724), and the number of
jobs that are done at the end of the turn, if there are as many (736-739). -/
structure Turn (K : Type) where
  time1 : K
  time2 : K
  early : Option Nat
  done : Nat

/-- `new_sugg` (base.py 716-718). -/
def suggestions (workers : Nat) (batch : Bool) (s : Loop K) : Nat :=
  if !batch || s.running == 0 then min s.remaining (workers - s.running) else 0

/-- The timer and the sleep at the beginning of a turn (base.py 693-697, 714-715). -/
def begin (s : Loop K) (t : Turn K) : Sleeper K × List K :=
  if 0 < s.finished then
    if (decide (s.remaining ≠ 0) || s.sleeper.start.isSome) && !s.first then (s.sleeper.stopTimer t.time1, s.slept) else (s.sleeper, s.slept)
  else if s.first then (s.sleeper, s.slept) else (s.sleeper, s.slept ++ [s.sleeper.sleep t.time1])

/-- The asks of a turn and whether it is stopped early (base.py 719-728). -/
def asks (n : Nat) (early : Option Nat) : Nat × Bool :=
  match early with
  | some k => if k < n then (k, true) else (n, false)
  | none => (n, false)

/-- One turn of the loop (base.py 687-740), nothing if the loop has ended. -/
def turn (workers : Nat) (batch : Bool) (s : Loop K) (t : Turn K) : Loop K :=
  if s.remaining = 0 ∧ s.running = 0 ∧ s.finished = 0 then s
  else
    let b := begin s t
    let n := suggestions workers batch s
    let a := asks n t.early
    let running := s.running + a.1
    { remaining := if a.2 then 0 else s.remaining - n
      running := running - min t.done running
      finished := min t.done running
      first := false
      sleeper := if 0 < n then b.1.startTimer t.time2 else b.1
      slept := b.2 }

/-- The loop from a state. Built on `turn` (base.py 687-740). -/
def run (workers : Nat) (batch : Bool) (s : Loop K) (l : List (Turn K)) : Loop K := l.foldl (turn workers batch) s

/-- The loop of a new optimizer (base.py 682-684). -/
def fresh (budget : Nat) (lo hi : K) (size : Nat) : Loop K := ⟨budget, 0, 0, true, Sleeper.new lo hi size, []⟩

end NG.Waiting
