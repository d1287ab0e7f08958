/-!
# Model of `Optimizer.minimize`

Source: nevergrad/optimization/base.py 629-741.

The loop is a small-step machine: one step per statement with an effect on the optimizer, so that an
exception (`KeyboardInterrupt`, failing objective, failing executor) can happen between any two of them.
The state is what survives an interruption (`_running_jobs`, `_finished_jobs`, `num_ask`) plus the local
variables of the current call and a log of observable events. The executor and the clock are inputs.
`sleeper` (only waits) and `verbosity` (only prints) are left out. The `n`-th ask returns candidate number `n`:
candidates are fresh objects. An ask that raises is assumed to leave `num_ask` unchanged (see
`Opt.num_ask_inflated` for the exception).
-/

namespace NG
namespace Minimize

/-- An entry `(x, job)` of `_running_jobs`/`_finished_jobs`: the candidate and the argument given to
`executor.submit` (base.py 727-729). -/
structure Job where
  cand : Nat
  arg : Nat
deriving DecidableEq, Repr

/-- Observable events. `submit c`: the job of `c` was registered in the running jobs (base.py 729). `poll` is the inspection of the running jobs (base.py 737-738). `crash d` is an exception leaving `minimize`; `d` is the number of finished jobs that
are dropped because the exception hits between the two attribute stores of base.py 739. -/
inductive Ev (R : Type) where
  | call
  | ask (c : Nat)
  | tell (c : Nat) (r : R)
  | submit (c : Nat)
  | stop
  | poll
  | timeout
  | crash (dropped : Nat)
deriving DecidableEq, Repr

/-- Program point. Used in `St` (base.py 679-741). -/
inductive Pc where
  /-- not in `minimize` (never called, interrupted or timed out) -/
  | idle
  /-- `minimize` returned because the loop condition was false -/
  | returned
  /-- `while` test (base.py 687-689) -/
  | test
  /-- `while self._finished_jobs` (base.py 698) -/
  | tell
  /-- after `tell`, before `popleft` (base.py 707) -/
  | pop
  /-- base.py 717-718 -/
  | start
  /-- `for _ in range(new_sugg)` with `k` iterations left (base.py 721) -/
  | launch (k : Nat)
  /-- `ask` returned `c`, the job is not registered yet (base.py 727) -/
  | submit (k : Nat) (c : Nat)
  /-- base.py 732 -/
  | refresh
  /-- base.py 736 -/
  | split
  /-- between the stores of `_running_jobs` and `_finished_jobs` (base.py 739) -/
  | half (fin : List Job)
deriving DecidableEq, Repr

/-- What `ask` does (base.py 722-726). -/
inductive AskRes where
  | cand
  /-- raises `NevergradEarlyStopping` -/
  | stop
  /-- raises anything else -/
  | raises
deriving DecidableEq, Repr

/-- Inputs of one step. Used in `step` (base.py 679-741). -/
inductive Inp where
  /-- the user calls `minimize` -/
  | call (batch : Bool)
  /-- an exception hits the current statement -/
  | crash
  /-- the next statement is executed; the clock, `ask` and `done()` answer as given -/
  | go (timeUp : Bool) (ask : AskRes) (done : Nat → Bool)

/-- Budget, `num_workers` and objective function. Used in `exec` (base.py 679-741). -/
structure Cfg (R : Type) where
  budget : Nat
  workers : Nat
  f : Nat → R

/-- State of optimizer and call; the log is most recent first. Used in `exec` (base.py 679-741). -/
structure St (R : Type) where
  numAsk : Nat
  running : List Job
  finished : List Job
  pc : Pc
  remaining : Int
  batch : Bool
  log : List (Ev R)

/-- An optimizer on which `n0` candidates were already asked (outside of `minimize`). Built on `St` (base.py 679-741). -/
def init {R : Type} (n0 : Nat) : St R :=
  { numAsk := n0, running := [], finished := [], pc := .idle, remaining := 0, batch := false, log := [] }

/-- An exception leaves `minimize`. Used in `exec` (base.py 679-741). -/
def interrupt {R : Type} (s : St R) : St R :=
  let dropped := match s.pc with
    | .half fin => fin.length
    | _ => 0
  { s with pc := .idle, log := .crash dropped :: s.log }

/-- One statement (base.py 679-741). -/
def exec {R : Type} (cfg : Cfg R) (s : St R) (timeUp : Bool) (ask : AskRes) (done : Nat → Bool) : St R :=
  match s.pc with
  | .idle => s
  | .returned => s
  | .test =>
    if s.remaining ≠ 0 ∨ s.running ≠ [] ∨ s.finished ≠ [] then
      if timeUp then { s with pc := .idle, log := .timeout :: s.log } else { s with pc := .tell }
    else { s with pc := .returned }
  | .tell =>
    match s.finished with
    | [] => { s with pc := .start }
    | j :: _ => { s with pc := .pop, log := .tell j.cand (cfg.f j.arg) :: s.log }
  | .pop => { s with pc := .tell, finished := s.finished.tail }
  | .start =>
    if !s.batch || s.running.isEmpty then
      { s with pc := .launch (max 0 (min s.remaining ((cfg.workers : Int) - s.running.length))).toNat }
    else { s with pc := .refresh }
  | .launch 0 => { s with pc := .refresh }
  | .launch (k + 1) =>
    match ask with
    | .cand => { s with pc := .submit k s.numAsk, numAsk := s.numAsk + 1, log := .ask s.numAsk :: s.log }
    | .stop => { s with pc := .refresh, remaining := 0, log := .stop :: s.log }
    | .raises => interrupt s
  | .submit k c =>
    { s with pc := .launch k
             running := s.running ++ [⟨c, c⟩]
             log := .submit c :: s.log }
  | .refresh =>
    { s with pc := .split, remaining := if s.remaining > 0 then (cfg.budget : Int) - s.numAsk else s.remaining }
  | .split =>
    { s with pc := .half (s.running.filter (fun j => done j.cand))
             running := s.running.filter (fun j => !done j.cand)
             log := .poll :: s.log }
  | .half fin => { s with pc := .test, finished := fin }

/-- One step. Built on `exec` (base.py 679-741). -/
def step {R : Type} (cfg : Cfg R) (s : St R) : Inp → St R
  | .call batch =>
    match s.pc with
    | .idle | .returned =>
      { s with pc := .test, remaining := (cfg.budget : Int) - s.numAsk, batch := batch, log := .call :: s.log }
    | _ => s
  | .crash =>
    match s.pc with
    | .idle | .returned => s
    | _ => interrupt s
  | .go timeUp ask done => exec cfg s timeUp ask done

/-- State after a chronological list of inputs. Built on `step` (base.py 679-741). -/
def run {R : Type} (cfg : Cfg R) (s : St R) (inps : List Inp) : St R := inps.foldl (step cfg) s

end Minimize
end NG
