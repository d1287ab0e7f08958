import Mathlib.Data.Rat.Floor

/-!
# Model of portfolios

`Portfolio` (optimization/optimizerlib.py 1938-2098) with the configuration `ConfPortfolio`. Of each optimizer of the portfolio the
model keeps the two flags which matter (does it support parallelization, does it support telling points it was not asked) and its
counters and pending candidates (base.py 336-558); which points it proposes is not modelled. Initialized optimizers passed to the
portfolio (2000-2012), suggestions made to the portfolio itself and cheap constraints are not modelled.
-/

namespace NG
namespace Portfolio

/-- Parameters: for each optimizer `no_parallelization` and whether `tell` accepts points it was not asked; number of workers, budget
and `warmup_ratio` (exact here) (optimizerlib.py 1940-1990). -/
structure Cfg where
  nonPara : List Bool
  supports : List Bool
  workers : Nat
  budget : Option Nat := none
  ratio : Option ℚ := none

variable (cfg : Cfg)

/-- `num` (1960). -/
def Cfg.num : Nat := cfg.nonPara.length

/-- `distribute_workers` (1949). -/
def Cfg.distribute : Bool := cfg.ratio == some 1

/-- `num_non_para` (1963-1969). -/
def Cfg.numNonPara : Nat := if cfg.workers ≤ cfg.num then 0 else cfg.nonPara.count true

/-- `a // b + (a % b > 0)`. Used in `Cfg.subBudget` (optimizerlib.py 1976-1986). -/
def ceilDiv (a b : Nat) : Nat := a / b + (if 0 < a % b then 1 else 0)

/-- `rebudget` (1971-1975). -/
def Cfg.rebudget (b : Nat) : Nat :=
  match cfg.ratio with
  | none => b
  | some r => ⌈(b : ℚ) * r⌉.toNat

/-- `1 + int(budget * (1 - warmup_ratio))` (1977-1986). -/
def Cfg.extra (b : Nat) : Nat :=
  match cfg.ratio with
  | none => 0
  | some r => if r < 1 then 1 + ⌊(b : ℚ) * (1 - r)⌋.toNat else 0

/-- `sub_budget` (1976-1986). -/
def Cfg.subBudget : Option Nat := cfg.budget.map (fun b => ceilDiv (cfg.rebudget b) (cfg.num - cfg.numNonPara) + cfg.extra b)

/-- `sub_workers` (1987-1992). -/
def Cfg.subWorkers : Nat :=
  if cfg.distribute then ceilDiv cfg.workers cfg.num
  else max 1 (ceilDiv (cfg.workers - cfg.numNonPara) (cfg.num - cfg.numNonPara))

/-- The number of workers of optimizer `i` (2019), also the number of its turns (2023). -/
def Cfg.workersOf (i : Nat) : Nat := if cfg.nonPara.getD i false then 1 else cfg.subWorkers

/-- `turns` (1997-2023). -/
def Cfg.turns : List Nat := (List.range cfg.num).flatMap (fun i => List.replicate (cfg.workersOf i) i)

/-- Errors of the constructor. Used in `Cfg.check` (optimizerlib.py 1954-1959). -/
inductive Err where
  | zeroDivision
  | value
  | assertion
deriving DecidableEq, Repr

/-- The constructor, except for the constructors of the optimizers; `num` is positive in the code (1954-1959). The divisions are those
of lines 1976 and 1989. -/
def Cfg.check : Option Err :=
  if cfg.num - cfg.numNonPara = 0 then some .zeroDivision
  else if cfg.num * cfg.subWorkers < cfg.workers then some .assertion
  else if cfg.ratio.isSome && cfg.budget.isNone then some .value
  else none

/-- `_warmup_budget` (2031-2035). -/
def Cfg.warmup : Option Nat :=
  match cfg.ratio, cfg.budget with
  | some r, some b => some ⌊r * (b : ℚ)⌋.toNat
  | _, _ => none

/-- What is followed of an optimizer of the portfolio: `num_ask`, `num_tell` and the candidates in its `_asked`. Used in `hacky` (optimizerlib.py 2072-2074). -/
structure Sub where
  numAsk : Nat := 0
  numTell : Nat := 0
  pending : List Nat := []
deriving DecidableEq, Repr

/-- State of the portfolio; candidates are numbered in the order of the asks. Used in `select` (optimizerlib.py 2040-2045). -/
structure St where
  /-- `optims`, as indices of the initial list -/
  live : List Nat
  /-- `_current + 1` -/
  current : Nat := 0
  numTell : Nat := 0
  subs : Nat → Sub := fun _ => {}
  /-- for each ask, the optimizer asked (index in the initial list) -/
  served : List Nat := []
  /-- for each accepted tell, the optimizers told -/
  told : List (List Nat) := []

/-- State after the constructor. Built on `Cfg.num` (optimizerlib.py 1960). -/
def Cfg.init : St := { live := List.range cfg.num }

/-- Lines 2040-2045: `best` is the `optim_index` of the parameter of the pessimistic best (`none` if it has none). -/
def select (best : Option Nat) (s : St) : St :=
  match cfg.warmup, best.bind (fun i => s.live[i]?) with
  | some w, some j =>
    if 1 < s.live.length ∧ w < s.numTell ∧ (cfg.workers = 1 ∨ 1 < cfg.workersOf j) then { s with live := [j] } else s
  | _, _ => s

/-- Lines 2046-2069: position in `optims` of the optimizer asked. -/
def position (s : St) : Nat := if s.live.length = 1 then 0 else cfg.turns.getD (s.current % cfg.turns.length) 0

/-- Lines 2072-2074: the first point of the optimizer is suggested to it. -/
def hacky (pos : Nat) (sub : Sub) : Bool := decide (1 < pos) && sub.numAsk == 0 && sub.numTell == 0

/-- `ask` of an optimizer of the portfolio: a suggested point is not registered as asked (base.py 544-551). -/
def Sub.ask (c : Nat) (suggested : Bool) (sub : Sub) : Sub :=
  { sub with numAsk := sub.numAsk + 1, pending := if suggested then sub.pending else sub.pending ++ [c] }

/-- `_internal_ask_candidate` (2038-2078). -/
def ask (best : Option Nat) (s0 : St) : St :=
  { select cfg best s0 with
    current := if (select cfg best s0).live.length = 1 then (select cfg best s0).current else (select cfg best s0).current + 1
    subs := fun k =>
      if k = (select cfg best s0).live.getD (position cfg (select cfg best s0)) 0 then
        (s0.subs k).ask s0.served.length (hacky (position cfg (select cfg best s0)) (s0.subs k))
      else s0.subs k
    served := s0.served ++ [(select cfg best s0).live.getD (position cfg (select cfg best s0)) 0] }

/-- Does optimizer `k` accept candidate `c` (`none` for a candidate which was never asked)? Used in `tell` (optimizerlib.py 2080-2094). -/
def accepts (s : St) (c : Option Nat) (k : Nat) : Bool :=
  cfg.supports.getD k false || c.any (fun i => (s.subs k).pending.contains i)

/-- `tell` of an optimizer of the portfolio. Used in `tell` (optimizerlib.py 2080-2094). -/
def Sub.tell (c : Option Nat) (sub : Sub) : Sub :=
  { sub with numTell := sub.numTell + 1, pending := sub.pending.filter (fun i => c != some i) }

/-- `_internal_tell_candidate` (2080-2094) and the counter of base.py 431; `none` when it raises
`TellNotAskedNotSupportedError`. -/
def tell (c : Option Nat) (s : St) : Option St :=
  if s.live.any (accepts cfg s c) then
    some { s with numTell := s.numTell + 1
                  subs := fun k => if s.live.contains k && accepts cfg s c k then (s.subs k).tell c else s.subs k
                  told := s.told ++ [s.live.filter (accepts cfg s c)] }
  else none

/-- One call of the user. Used in `step` (optimizerlib.py 2080-2094). -/
inductive Op where
  | ask (best : Option Nat)
  | tell (c : Option Nat)

/-- One call; a tell which raises changes nothing of what is followed here. Built on `tell` (optimizerlib.py 2080-2094). -/
def step (s : St) : Op → St
  | .ask best => ask cfg best s
  | .tell c => (tell cfg c s).getD s

/-- A session. Built on `step` (optimizerlib.py 2080-2094). -/
def run (ops : List Op) : St := ops.foldl (step cfg) cfg.init

end Portfolio
end NG
