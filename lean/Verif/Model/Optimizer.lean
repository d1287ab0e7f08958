import Verif.Model.Archive
import Verif.Model.Tabu

/-!
# Model of `Optimizer.ask`, `suggest` and `tell`

Sources: nevergrad/optimization/base.py 116-144 (state), 273-297 (`suggest`), 300-431 (`tell`), 481-558
(`ask`), nevergrad/parametrization/core.py 262-318 (`can_skip_constraints`, `satisfies_constraints`).

Candidates are identifiers (the `uid`); their value is fixed once asked, so feasibility and tabu key are
functions of the identifier. The optimizer-specific hooks (`_internal_ask_candidate`,
`_internal_tell_candidate`, the constraint solver) are parameters. Loss values are already normalised
(see `Model/Loss.lean`), multi-objective losses are treated in `Model/Pareto*.lean`.
-/

namespace NG

/-- Everything the ask/tell logic receives from outside. Used in `satisfies` (core.py 274-318). -/
structure OptCfg (α U K T : Type) where
  /-- Archive configuration (standardized data, pruning). -/
  acfg : ArchiveCfg α U K
  /-- `all(self._subobjects.apply("satisfies_constraints").values())` (core.py 289-291). -/
  inside : U → Bool
  /-- `all(float_penalty(func(val)) <= 0 ...)` (core.py 316-318). -/
  own : U → Bool
  /-- `can_skip_constraints` apart from the tabu part (core.py 262-271). -/
  noConstraint : U → Bool
  /-- `tabu_congruence` of the value (core.py 294-299). -/
  tabuKey : U → T
  /-- `tabu_length` of the parametrization. -/
  tabuLength : Nat
  /-- Optimizer budget. -/
  budget : Option Nat
  /-- `_constraints_manager.penalty` as a function of `num_ask` (base.py 398). -/
  penalty : Nat → U → α
  /-- `_constraints_manager.max_trials`. -/
  maxTrials : Nat
  /-- `self.parametrization._constraint_checkers` is non-empty (base.py 520-522). -/
  hasCheckers : Bool
  /-- `_constraint_solver(candidate, budget)` (base.py 537, 862-882): a new candidate. -/
  solver : U → U

/-- What one call of `_internal_ask_candidate` does (base.py 517-523). -/
inductive Gen (U : Type) where
  /-- returns a candidate -/
  | cand (u : U)
  /-- raises `AssertionError`; the fallback is a new child of the parametrization -/
  | assertion (fallback : U)
  /-- raises something else -/
  | raises

/-- State of the optimizer touched by ask/suggest/tell (base.py 113-139). `suggestions` is the deque with its
right end first. `fails` is the attribute `tabu_fails` of the candidates. -/
structure Opt (α U K T : Type) where
  arch : ArchiveSt α U K
  numAsk : Nat
  numTell : Nat
  numTellNotAsked : Nat
  asked : List U
  suggestions : List U
  skip : Bool
  tabu : Tabu T
  fails : U → Nat

namespace Opt
variable {α : Type} [Field α] [LinearOrder α]
variable {U K T : Type} [DecidableEq K] [DecidableEq U] [DecidableEq T]

/-- Fresh optimizer (base.py 85-144). -/
def init (root : U) : Opt α U K T :=
  { arch := ArchiveSt.init root, numAsk := 0, numTell := 0, numTellNotAsked := 0, asked := [],
    suggestions := [], skip := false, tabu := Tabu.empty, fails := fun _ => 0 }

/-- `candidate.satisfies_constraints(self.parametrization)` (core.py 274-318). A tabu error (never reached,
see `tabu_never_fails`) is kept as a refusal without state change. -/
def satisfies (cfg : OptCfg α U K T) (s : Opt α U K T) (u : U) : Bool × Opt α U K T :=
  if !cfg.inside u then (false, s)
  else if cfg.tabuLength > 0 ∧ s.fails u < 30 then
    match Tabu.check cfg.tabuLength s.tabu (cfg.tabuKey u) with
    | .refused => (false, { s with fails := fun v => if v = u then s.fails u + 1 else s.fails v })
    | .accepted t => (cfg.own u, { s with tabu := t })
    | .error => (false, s)
  else (cfg.own u, s)

/-- `candidate.satisfies_constraints(self.parametrization, no_tabu=True)`. Built on `OptCfg` (core.py 274-318). -/
def feasible (cfg : OptCfg α U K T) (u : U) : Bool := cfg.inside u && cfg.own u

/-- Outcome of the trial loop or of `ask`: an exception (with the state it leaves behind) or a candidate. Used in `trials` (base.py 511-533). -/
inductive AskOut (α U K T : Type) where
  | raised (s : Opt α U K T)
  | ok (s : Opt α U K T) (u : U) (isSuggestion : Bool)

/-- One attempt (base.py 512-523): a suggestion if there is one, else the optimizer. `g` is what the
optimizer-specific hook does. The Boolean tells whether the hook was called. -/
def attempt (cfg : OptCfg α U K T) (s : Opt α U K T) (g : Gen U) : Option (Opt α U K T × U × Bool) :=
  match s.suggestions with
  | u :: rest => some ({ s with suggestions := rest }, u, true)
  | [] =>
    match g with
    | .cand u => some (s, u, false)
    | .assertion u => if cfg.hasCheckers then some (s, u, false) else none
    | .raises => none

/-- The loop `for _ in range(max_trials)` (base.py 511-533); `gen k` is the outcome of the hook at attempt
number `k`. `n` is the number of attempts left beyond the current one, `k` the current attempt. -/
def trials (cfg : OptCfg α U K T) (gen : Nat → Gen U) : Nat → Nat → Opt α U K T → AskOut α U K T
  | n, k, s =>
    match s.attempt cfg (gen k) with
    | none => .raised s
    | some (s1, u, sugg) =>
      match s1.satisfies cfg u with
      | (true, s2) =>
        let skip := s2.skip || (s2.numAsk % 10 == 0 && cfg.noConstraint u && cfg.tabuLength == 0)
        .ok { s2 with skip := skip } u sugg
      | (false, s2) =>
        let s3 := { s2 with numAsk := s2.numAsk + 1 }
        match n with
        | 0 => .ok s3 u sugg
        | n + 1 => trials cfg gen n (k + 1) s3

/-- `max_trials` of the loop (base.py 496). -/
def maxTrials (cfg : OptCfg α U K T) : Nat := max 1 (cfg.maxTrials / 2)

/-- `ask` (base.py 481-558). Callbacks are not modelled here (see `Model/Minimize.lean` for early stopping). -/
def ask (cfg : OptCfg α U K T) (gen : Nat → Gen U) (s : Opt α U K T) : AskOut α U K T :=
  let current := s.numAsk
  let r : AskOut α U K T :=
    if s.skip && s.suggestions.isEmpty then
      match gen 0 with
      | .cand u => .ok s u false
      | _ => .raised s
    else trials cfg gen (maxTrials cfg - 1) 0 s
  match r with
  | .raised s => .raised s
  | .ok s u sugg =>
    let (sat, s) := s.satisfies cfg u
    let u' := if !sat && cfg.tabuLength == 0 then cfg.solver u else u
    -- the feasibility check with `no_tabu=True` (base.py 538-543) only emits a warning
    if !sugg && s.asked.contains u' then .raised s
    else
      let asked := if sugg then s.asked else s.asked ++ [u']
      .ok { s with asked := asked, numAsk := current + 1 } u' sugg

/-- `suggest` (base.py 292-297). -/
def suggest (s : Opt α U K T) (u : U) : Opt α U K T := { s with suggestions := u :: s.suggestions }

/-- `tell` of a finite single-objective loss (base.py 384-431). `extra` is the penalty coming from the
`constraint_violation` argument: `none` when absent, otherwise whether some violation is positive and the
amount added to the loss (base.py 402-416). `innerOk = false` when the optimizer-specific hook raises. The
Boolean of the result tells whether `tell` succeeded. -/
def tell (cfg : OptCfg α U K T) (s : Opt α U K T) (u : U) (loss : α) (extra : Option (Bool × α))
    (innerOk : Bool) : Bool × Opt α U K T :=
  let (sat, s) := s.satisfies cfg u
  let (noUpdate, penalized) :=
    if !sat && cfg.budget.isSome then (true, loss + cfg.penalty s.numAsk u) else (false, loss)
  let (noUpdate, penalized) := match extra with
    | none => (noUpdate, penalized)
    | some (viol, amount) => (noUpdate || viol, penalized + amount)
  let arch :=
    if noUpdate then
      { s.arch with candLoss := fun v => if v = u then some loss else s.arch.candLoss v }
    else s.arch.tellAs cfg.acfg u loss penalized
  let s := { s with arch := arch }
  if !innerOk then (false, s)
  else if s.asked.contains u then
    (true, { s with asked := s.asked.filter (· ≠ u), numTell := s.numTell + 1 })
  else (true, { s with numTellNotAsked := s.numTellNotAsked + 1, numTell := s.numTell + 1 })

end Opt
end NG
