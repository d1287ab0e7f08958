import Verif.Model.Portfolio
import Mathlib.Data.Nat.Sqrt

/-!
# Model of the ready-made portfolios

The subclasses of `Portfolio` (optimization/optimizerlib.py 1938-2098) defined in optimizerlib.py 2371-3018: the twenty-six portfolios
of local searches (2371-2912), `MultiDiscrete` (2915-2935), and the competence maps `CMandAS2`, `CMandAS3` and `CM` (2938-3018).
Of each optimizer of a portfolio the model keeps its algorithm, its budget and its number of workers. The constructors of these
optimizers are assumed to succeed. Ratios are exact; `np.log` is a parameter (its integer part), `int(np.sqrt(b))` is `Nat.sqrt b`,
and budgets are positive.
-/

namespace NG
namespace Ready

/-- The algorithms occurring in these portfolios; `rescaled a` is `Rescaled(base_optimizer=a, ...)` (2367-2368, 2903). -/
inductive Alg where
  | metaCMA | twoPointsDE | scrHammersley | onePlusOne | metaModel | chainCMAPowell
  | bfgs | rbfgs | sqp | cobyla
  | discrete | discreteBSO | doubleFastGA
  | rescaled (a : Alg)
deriving DecidableEq, Repr

/-- `no_parallelization` of the classes the constructor of `Portfolio` may get here (3547; the others keep the default, base.py 83
and 795). -/
def Alg.nonPara : Alg → Bool
  | .chainCMAPowell => true
  | _ => false

/-- An optimizer of the portfolio. Used in `Cls.own` (optimizerlib.py 2378-2381, 2475-2483). -/
structure Sub where
  alg : Alg
  budget : Option Nat
  workers : Nat
deriving DecidableEq, Repr

/-- `ConfPortfolio` (1906-1934). -/
structure Conf where
  optimizers : List Alg := []
  ratio : Option ℚ := none
  noCrossing : Bool := false

/-- The attributes of a `Portfolio`. Used in `init` (optimizerlib.py 1941-2036). -/
structure Obj where
  budget : Option Nat := none
  workers : Nat := 1
  optims : List Sub := []
  turns : List Nat := []
  warmup : Option Nat := none
  noCrossing : Bool := false
deriving DecidableEq, Repr

/-- What the constructors raise. Used in `init` (optimizerlib.py 1941-2036). -/
inductive Err where
  | portfolio (e : Portfolio.Err)
  | type
  | assertion
deriving DecidableEq, Repr

/-- `optimizers` (1953-1959). -/
def optimizers (conf : Option Conf) (budget : Option Nat) (workers : Nat) : List Alg :=
  match (conf.getD {}).optimizers with
  | [] => (if budget.all (fun b => decide (12 * workers ≤ b)) then [.metaCMA, .twoPointsDE] else []) ++
      (if budget.isSome then [.scrHammersley] else [])
  | l => l

/-- The parameters of the model of `Portfolio`. Used in `init` (optimizerlib.py 1941-2036). -/
def cfgOf (conf : Option Conf) (budget : Option Nat) (workers : Nat) : Portfolio.Cfg :=
  { nonPara := (optimizers conf budget workers).map Alg.nonPara
    supports := (optimizers conf budget workers).map (fun _ => true)
    workers := workers, budget := budget, ratio := (conf.getD {}).ratio }

/-- `Portfolio.__init__` (1941-2036) applied to an object: all the attributes are assigned, `optims` starts again from `[]` (1962), and
`no_crossing` is `False` (1948). The error of a missing budget comes after the others, as in `Cfg.check`. -/
def init (self : Obj) (conf : Option Conf) (budget : Option Nat) (workers : Nat) : Except Err Obj :=
  match (cfgOf conf budget workers).check with
  | some e => .error (.portfolio e)
  | none => .ok { self with
      budget := budget
      workers := workers
      optims := (optimizers conf budget workers).map (fun a =>
        ⟨a, (cfgOf conf budget workers).subBudget, if a.nonPara then 1 else (cfgOf conf budget workers).subWorkers⟩)
      turns := (cfgOf conf budget workers).turns
      warmup := (cfgOf conf budget workers).warmup
      noCrossing := false }

/-- The optimizers told about a candidate with this `optim_index` (2080-2094), all of them accepting the candidate. -/
def told (o : Obj) (index : Nat) : List Nat :=
  if o.noCrossing && decide (index < o.optims.length) then [index] else List.range o.optims.length

/-- How the number of workers is replaced: kept (2379), at least `1 + log(budget)` (2400), at least `1 + sqrt(budget)` (2421), at least
`sqrt(budget)` or `log(budget)` without test of the budget (2857, 2878, 2899), or kept but with more optimizers built (2695). -/
inductive Rule where
  | same | log | sqrt | fsqrt | flog | force
deriving DecidableEq, Repr

/-- The classes (2371-2912). -/
inductive Cls where
  | multiBFGSPlus | logMultiBFGSPlus | sqrtMultiBFGSPlus | multiCobylaPlus | multiSQPPlus
  | bfgsCMAPlus | logBFGSCMAPlus | sqrtBFGSCMAPlus | sqpCMAPlus | logSQPCMAPlus | sqrtSQPCMAPlus
  | multiBFGS | logMultiBFGS | sqrtMultiBFGS | multiCobyla | forceMultiCobyla | multiSQP
  | bfgsCMA | logBFGSCMA | sqrtBFGSCMA | sqpCMA | logSQPCMA | sqrtSQPCMA
  | fSQPCMA | f2SQPCMA | f3SQPCMA
deriving DecidableEq, Repr

/-- The algorithm of which the class builds several (2379, 2402, ..., 2903). -/
def Cls.alg : Cls → Alg
  | .multiBFGSPlus | .logMultiBFGSPlus | .sqrtMultiBFGSPlus | .bfgsCMAPlus | .logBFGSCMAPlus | .sqrtBFGSCMAPlus => .rescaled .bfgs
  | .multiCobylaPlus => .rescaled .cobyla
  | .multiSQPPlus | .sqpCMAPlus | .logSQPCMAPlus | .sqrtSQPCMAPlus | .f3SQPCMA => .rescaled .sqp
  | .multiBFGS => .rbfgs
  | .logMultiBFGS | .sqrtMultiBFGS | .bfgsCMA | .logBFGSCMA | .sqrtBFGSCMA => .bfgs
  | .multiCobyla | .forceMultiCobyla => .cobyla
  | .multiSQP | .sqpCMA | .logSQPCMA | .sqrtSQPCMA | .fSQPCMA | .f2SQPCMA => .sqp

/-- Does the class also build a `MetaCMA`? Built on `Cls` (optimizerlib.py 2371-2912). -/
def Cls.cma : Cls → Bool
  | .bfgsCMAPlus | .logBFGSCMAPlus | .sqrtBFGSCMAPlus | .sqpCMAPlus | .logSQPCMAPlus | .sqrtSQPCMAPlus
  | .bfgsCMA | .logBFGSCMA | .sqrtBFGSCMA | .sqpCMA | .logSQPCMA | .sqrtSQPCMA | .fSQPCMA | .f2SQPCMA | .f3SQPCMA => true
  | _ => false

/-- The rule for the number of workers of the class. Used in `Cls.own` (optimizerlib.py 2378-2381, 2475-2483). -/
def Cls.rule : Cls → Rule
  | .logMultiBFGSPlus | .logBFGSCMAPlus | .logSQPCMAPlus | .logMultiBFGS | .logBFGSCMA | .logSQPCMA => .log
  | .sqrtMultiBFGSPlus | .sqrtBFGSCMAPlus | .sqrtSQPCMAPlus | .sqrtMultiBFGS | .sqrtBFGSCMA | .sqrtSQPCMA => .sqrt
  | .fSQPCMA | .f3SQPCMA => .fsqrt
  | .f2SQPCMA => .flog
  | .forceMultiCobyla => .force
  | _ => .same

/-- The new value of `num_workers`; `np.sqrt(None)` and `np.log(None)` raise (2857, 2878, 2899). -/
def Rule.workers (lg : Nat → Nat) : Rule → Option Nat → Nat → Except Err Nat
  | .same, _, n => .ok n
  | .force, _, n => .ok n
  | .log, none, n => .ok n
  | .log, some b, n => .ok (max n (1 + lg b))
  | .sqrt, none, n => .ok n
  | .sqrt, some b, n => .ok (max n (1 + Nat.sqrt b))
  | .fsqrt, none, _ => .error .type
  | .fsqrt, some b, n => .ok (max n (Nat.sqrt b))
  | .flog, none, _ => .error .type
  | .flog, some b, n => .ok (max n (lg b))

/-- `force_num_workers` (2695) for `ForceMultiCobyla`, the number of workers otherwise. -/
def Rule.built : Rule → Option Nat → Nat → Nat
  | .force, some b, n => max n (Nat.sqrt b)
  | _, _, n => n

/-- The list `optims` built by the class (2378-2381, 2475-2483): the `MetaCMA` has half of the workers, the others one each, without
a budget. -/
def Cls.own (c : Cls) (budget : Option Nat) (n : Nat) : List Sub :=
  if c.cma then ⟨.metaCMA, budget, max 1 (n / 2)⟩ :: List.replicate (n - max 1 (n / 2)) ⟨c.alg, none, 1⟩
  else List.replicate (c.rule.built budget n) ⟨c.alg, none, 1⟩

/-- The constructor (2375-2387 and so on): `Portfolio.__init__`, the optimizers, `clear` and `extend`, `Portfolio.__init__` again. -/
def Cls.construct (lg : Nat → Nat) (c : Cls) (budget : Option Nat) (n : Nat) : Except Err Obj := do
  let self ← init {} none budget n
  let n' ← c.rule.workers lg budget n
  let self := { self with optims := c.own budget n' }
  init self none budget n'

/-- `MultiDiscrete.__init__` (2919-2935). -/
def multiDiscrete (budget : Option Nat) (n : Nat) : Except Err Obj := do
  let self ← init {} (some { ratio := some (1 / 4) }) budget n
  match budget with
  | none => .error .assertion
  | some b => .ok { self with
      optims := [⟨.discrete, some (b / 12), n⟩, ⟨.discreteBSO, some (b / 12), n⟩, ⟨.doubleFastGA, some (b / 4 - 2 * (b / 12)), n⟩] }

/-- `CMandAS2` (2942-2964), `CMandAS3` (2971-2994) and `CM` (3001-3018): the algorithms and `warmup_ratio`. -/
inductive Map where
  | cm | as2 | as3
deriving DecidableEq, Repr

/-- The choice of the competence map. Built on `Map` (optimizerlib.py 2942-2964). -/
def Map.conf (m : Map) (dim b n : Nat) : Conf :=
  match m with
  | .cm => { optimizers := if 50 * dim < b then [.metaCMA] else if b < 201 then [.onePlusOne] else [.twoPointsDE], ratio := some 2 }
  | .as2 =>
    if 50 * dim < b ∨ n < 30 then { optimizers := List.replicate 3 .metaModel, ratio := some (1 / 10) }
    else { optimizers := if b < 201 then [.onePlusOne] else [.twoPointsDE], ratio := some 2 }
  | .as3 =>
    if 50 * dim < b ∨ n < 30 then
      { optimizers := List.replicate 3 (if n = 1 then .chainCMAPowell else .metaCMA), ratio := some (1 / 10) }
    else { optimizers := if b < 201 then [.onePlusOne] else [.twoPointsDE], ratio := some 2 }

/-- The constructor of a competence map. Built on `Map` (optimizerlib.py 2942-2964). -/
def Map.construct (m : Map) (dim : Nat) (budget : Option Nat) (n : Nat) : Except Err Obj :=
  match budget with
  | none => .error .assertion
  | some b => init {} (some (m.conf dim b n)) budget n

/-! ## Asks of a portfolio whose optimizers all accept every candidate -/

/-- What happens to a portfolio: an ask, with the candidate which is the pessimistic best at that time (numbered in the order of the
asks; `none` for one which was not asked), or a tell. Used in `step` (optimizerlib.py 2046-2078). -/
inductive Op where
  | ask (best : Option Nat)
  | tell
deriving DecidableEq, Repr

/-- The state: the optimizers left (as numbers in the initial list), `_current + 1`, `num_tell`, the `optim_index` of the candidates, and
the optimizers which were asked. Used in `select` (optimizerlib.py 2040-2045). -/
structure Run where
  live : List Nat
  current : Nat := 0
  tells : Nat := 0
  metas : List Nat := []
  served : List Nat := []
deriving DecidableEq, Repr

/-- Lines 2040-2045. -/
def select (o : Obj) (best : Option Nat) (r : Run) : Run :=
  match o.warmup, best.bind (fun c => r.metas[c]?) with
  | some w, some i =>
    match r.live[i]? with
    | some j =>
      if 1 < r.live.length ∧ w < r.tells ∧ (o.workers = 1 ∨ 1 < ((o.optims[j]?).map Sub.workers).getD 0) then { r with live := [j] }
      else r
    | none => r
  | _, _ => r

/-- Lines 2046-2078. -/
def ask (o : Obj) (best : Option Nat) (r0 : Run) : Run :=
  let r := select o best r0
  if r.live.length = 1 then { r with metas := r.metas ++ [0], served := r.served ++ [r.live.getD 0 0] }
  else
    let i := o.turns.getD (r.current % o.turns.length) 0
    { r with current := r.current + 1, metas := r.metas ++ [i], served := r.served ++ [r.live.getD i 0] }

/-- One operation. Built on `ask` (optimizerlib.py 2046-2078). -/
def step (o : Obj) (r : Run) : Op → Run
  | .ask best => ask o best r
  | .tell => { r with tells := r.tells + 1 }

/-- A whole run. Built on `step` (optimizerlib.py 2046-2078). -/
def run (o : Obj) (ops : List Op) : Run := ops.foldl (step o) { live := List.range o.optims.length }

end Ready
end NG
