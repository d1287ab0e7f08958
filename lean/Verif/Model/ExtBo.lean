import Mathlib.Data.Nat.Digits.Defs
import Mathlib.Data.Nat.Sqrt

/-!
# Model of the Bayesian optimizers of other packages

`_FakeFunction` (optimization/optimizerlib.py 3021-3048) and `_BO` (3053-3158) around the package bayes_opt, `_BayesOptim` (3208-3293) around
bayes_optim, and `AXP` (1150-1203) around ax. The packages are parameters: which points they propose is not modelled. What is assumed
about them: bayes_opt sorts the names of the variables, and keeps the first value of each point it has been given (comment on lines
3148-3150); ax numbers its trials 0, 1, 2, ... in the order in which it creates them.
-/

namespace NG
namespace ExtBo

/-! ## Names of variables -/

/-- The characters of a digit. Used in `str` (optimizerlib.py 3030-3034). -/
def digit (d : Nat) : Char := Char.ofNat (48 + d)

/-- `str(num)`. Used in `key` (optimizerlib.py 3030-3034). -/
def str (num : Nat) : List Char := if num = 0 then ['0'] else (Nat.digits 10 num).reverse.map digit

/-- `str.zfill`. Used in `key` (optimizerlib.py 3030-3034). -/
def zfill (l : List Char) (width : Nat) : List Char := List.replicate (width - l.length) '0' ++ l

/-- `_FakeFunction.key` (3030-3034) with `num_digits=len(str(self.dimension))` (3071). -/
def key (dim num : Nat) : List Char := 'x' :: zfill (str num) (str dim).length

/-! ## The function which returns the registered loss -/

/-- Errors. Used in `register` (optimizerlib.py 3036-3039). -/
inductive Err where
  | registered | notRegistered | mismatch | assertion | notAsked | key
deriving DecidableEq, Repr

variable {X L : Type} [DecidableEq X]

/-- `_FakeFunction.register` (3036-3039). -/
def register (reg : Option (X × L)) (x : X) (loss : L) : Except Err (Option (X × L)) :=
  match reg with
  | some _ => .error .registered
  | none => .ok (some (x, loss))

/-- `_FakeFunction.__call__` (3041-3048); equality of points is exact here (almost equal in the code). -/
def call (reg : Option (X × L)) (x : X) : Except Err (L × Option (X × L)) :=
  match reg with
  | none => .error .notRegistered
  | some (xr, loss) => if x = xr then .ok (loss, none) else .error .mismatch

/-- What bayes_opt knows: the points with their values, and the registered call. Used in `Bo.tell` (optimizerlib.py 3140-3151). -/
structure Bo (X L : Type) where
  cache : List (X × L) := []
  reg : Option (X × L) := none

/-- `probe(y, lazy=False)`: the function is called unless the point is known. Used in `Bo.tell` (optimizerlib.py 3140-3151). -/
def Bo.probe (s : Bo X L) (y : X) : Except Err (Bo X L) :=
  if (s.cache.map Prod.fst).contains y then .ok s
  else match call s.reg y with
    | .error e => .error e
    | .ok (v, reg) => .ok { cache := s.cache ++ [(y, v)], reg := reg }

/-- `_BO._internal_tell_candidate` (3140-3151): `probe` is `_meta["x_probe"]` if there is one, `forward` the normalized data; the loss is
negated because bayes_opt maximizes. -/
def Bo.tell [Neg L] (s : Bo X L) (probe : Option X) (forward : X) (loss : L) : Except Err (Bo X L) :=
  match register s.reg (probe.getD forward) (-loss) with
  | .error e => .error e
  | .ok reg =>
    match ({ s with reg := reg } : Bo X L).probe (probe.getD forward) with
    | .error e => .error e
    | .ok s' => .ok { s' with reg := none }

/-- The first points which are proposed (3101-3126): `middle` is the middle point; `init` the points of the initialization (its `k`-th
point among `n`). -/
def design (budget initBudget : Option Nat) (middlePoint : Bool) (middle : X) (init : Nat → Nat → X) : Except Err (List X) :=
  match initBudget, budget with
  | none, none => .error .assertion
  | _, _ =>
    let n := max 2 (initBudget.getD (Nat.sqrt (budget.getD 0)))
    let m := if middlePoint then n - 1 else n
    .ok ((if middlePoint then [middle] else []) ++ (List.range m).map (init m))

/-! ## Batches of `_BayesOptim` -/

/-- The state of `_BayesOptim` (3228-3230): the buffer, the points and losses not yet passed on, and what was passed on (calls of
`_alg.tell`). -/
structure Batch (X L : Type) where
  buffer : List X := []
  new : List (X × L) := []
  passed : List (List (X × L)) := []

/-- `_internal_ask_candidate` (3267-3277): `fresh` is the answer of `_alg.ask()`; `none` if it is empty (`IndexError`). -/
def Batch.ask (s : Batch X L) (fresh : List X) : Option (X × Batch X L) :=
  let b := if s.buffer = [] then fresh else s.buffer
  b.getLast?.map (fun x => (x, { s with buffer := b.dropLast }))

/-- `_internal_tell_candidate` (3279-3290); `probe` is `_meta["x_probe"]`. -/
def Batch.tell (s : Batch X L) (probe : Option X) (loss : L) : Except Err (Batch X L) :=
  match probe with
  | none => .error .key
  | some x =>
    if s.buffer = [] then .ok { s with new := [], passed := s.passed ++ [s.new ++ [(x, loss)]] }
    else .ok { s with new := s.new ++ [(x, loss)] }

/-- What happens to `_BayesOptim`: an ask, or a tell of an asked candidate. Used in `Batch.step` (optimizerlib.py 3279-3290). -/
inductive BOp (X L : Type) where
  | ask (fresh : List X)
  | tell (x : X) (loss : L)

/-- One operation (an empty answer changes nothing). Built on `Batch.tell` (optimizerlib.py 3279-3290). -/
def Batch.step (s : Batch X L) : BOp X L → Batch X L
  | .ask fresh => (s.ask fresh).elim s Prod.snd
  | .tell x loss => (s.tell (some x) loss).toOption.getD s

/-- The size of the design of experiments (3233-3235): `round` is the rounded product. -/
def doe (factor : Bool) (round : Nat → Nat) (initBudget budget : Option Nat) : Nat :=
  let b := if factor then (match budget with
    | some b => some (if 10 ≤ b then round b else 5)
    | none => initBudget) else initBudget
  b.getD 5

/-! ## Trials of `AXP` -/

/-- The state: `num_ask`, the number of trials ax has created, and for each asked candidate the trial of ax it comes from with the
`trial_index` which will be told. Used in `Ax.step` (base.py 551). -/
structure Ax where
  numAsk : Nat := 0
  trials : Nat := 0
  given : List (Nat × Nat) := []
deriving DecidableEq, Repr

/-- An ask which rejects so many candidates because of constraints (base.py 511-533), or an ask of a suggested point. -/
inductive AOp where
  | ask (rejected : Nat)
  | suggested
deriving DecidableEq, Repr

/-- The loop of `ask` (base.py 511-533) around `_internal_ask_candidate` (1178-1197): the last trial and its index. Each rejected candidate
increases `num_ask` (533). -/
def tries : Nat → Nat → Nat → Nat × Nat
  | 0, numAsk, trials => (trials, numAsk)
  | k + 1, numAsk, trials => tries k (numAsk + 1) (trials + 1)

/-- One ask; `num_ask` is then one more than before (base.py 551). -/
def Ax.step (s : Ax) : AOp → Ax
  | .ask r => { numAsk := s.numAsk + 1, trials := (tries r s.numAsk s.trials).1 + 1, given := s.given ++ [tries r s.numAsk s.trials] }
  | .suggested => { s with numAsk := s.numAsk + 1 }

/-- Several asks. Built on `Ax.step` (base.py 551). -/
def Ax.run (ops : List AOp) : Ax := ops.foldl Ax.step {}

end ExtBo
end NG
