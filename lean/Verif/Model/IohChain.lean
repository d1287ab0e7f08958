import Verif.Model.Csec

/-!
# Model of the restarts made by NgIoh12 to NgIoh18

optimization/optimizerlib.py 5692-5776 (`NgIoh11`), 5779-6467 and 7000-7136 (`NgIoh12` to `NgIoh18`). On smooth problems with a large budget, these classes split the
budget among several copies of what `NgIoh11` would use. `NgIoh11._select_optimizer_cls(self, budget)` writes `self.budget` when a budget is given, so
the object is threaded through the calls. Random scales and shifts are given as functions of the number of draws made before.
-/

namespace NG
namespace IohChain

open NGOpt Csec

/-- A class or configuration returned by `NgIoh11`: an algorithm, or `NGOptBase`, whose own selection happens later. -/
inductive Cls where
  | alg (a : Csec.Alg)
  | ngoptBase
  deriving DecidableEq

/-- `NgIoh11._select_optimizer_cls(self, budget)` (5695-5776): the class returned, and `self` afterwards. -/
def ioh11 (v : Problem) (arg : Option Nat) : Cls × Problem :=
  let v : Problem := match arg with
    | none => v
    | some b => { v with budget := some b }
  let inner := if v.continuous && decide (v.workers = 1) && !v.noise then v.budget.bind (ioh21Seq v.dim) else none
  (if v.isArray && !v.continuous && !v.noise then .alg .discretePortfolio
   else match inner with
    | some a => .alg a
    | none =>
      if v.continuous && decide (v.workers = 1) && v.known (fun b => decide (b < 1000 * v.dim ∧ 20 * v.dim < b)) && !v.noise
          && decide (1 < v.dim ∧ v.dim < 100) then .alg .carola2
      else if v.continuous && decide (v.workers = 1) && v.known (fun b => decide (1000 * v.dim ≤ b)) && !v.noise
          && decide (1 < v.dim ∧ v.dim < 50) then .alg .carola2
      else if v.noise && (v.notSoftmax || !v.metrizable) then .alg (.known .recombiningPortfolio)
      else .ngoptBase, v)

/-- `Rescaled(base_optimizer=..., scale=..., shift=...)`, or the optimizer itself. Used in `member18` (optimizerlib.py 7022-7049). -/
structure Member (α : Type) where
  cls : Cls
  scale : Option α := none
  shift : Option α := none
  deriving DecidableEq

/-- What is selected: one class, a chain of optimizers with the budgets of all but the last (`no_crossing=True`), or a portfolio with its
warmup ratio in percent (`no_crossing=True`). Used in `select` (optimizerlib.py 5834-5900). -/
inductive Out (α : Type) where
  | one (c : Cls)
  | chain (members : List (Member α)) (budgets : List Nat)
  | portfolio (members : List (Member α)) (warmup : Nat)
  | zeroDivision
  deriving DecidableEq

/-- `sub_budget` (6373, 7020). -/
def subBudget (b num : Nat) : Nat := b / num + (if 0 < b % num then 1 else 0)

/-- The `k`-th member of NgIoh18 (7022-7049): the first is not rescaled. `k % 3` refers to the loop counter, one less than the index. -/
def member18 {α : Type} (scale shift : Nat → α) (c : Cls) : Nat → Member α
  | 0 => { cls := c }
  | k + 1 =>
    if k % 3 = 2 then { cls := c, scale := some (scale k) }
    else if k % 3 = 0 then { cls := c, shift := some (shift k) }
    else { cls := c, scale := some (scale k), shift := some (shift k) }

/-- The loops of NgIoh17 (6375-6382) and NgIoh18 (7022-7050): `n` calls of `NgIoh11._select_optimizer_cls(self, sub_budget)`, from index `k`. -/
def copies {α : Type} (mk : Cls → Nat → Member α) (arg : Option Nat) : Nat → Nat → Problem → List (Member α) × Problem
  | 0, _, v => ([], v)
  | n + 1, k, v =>
    let (c, v1) := ioh11 v arg
    let (ms, v2) := copies mk arg n (k + 1) v1
    (mk c k :: ms, v2)

/-- The versions. Used in `warmup` (optimizerlib.py 5833, 5957, 6071, 6180, 6287). -/
inductive Version where
  | v12 | v13 | v14 | v15 | v16 | v17 | v18
  deriving DecidableEq

/-- `warmup_ratio` of the portfolios (5833, 5957, 6071, 6180, 6287). -/
def warmup : Version → Nat
  | .v14 | .v15 => 70
  | _ => 100

/-- The members of NgIoh13 and NgIoh14 (5808-5832, 5933-5956): one copy, `FCarola6`, `ChainMetaModelSQP` and a meta-model of CmaFmin2 as far as `num`
allows, then copies. -/
def mixed {α : Type} (scale : Nat → α) (v : Problem) (num : Nat) : List (Member α) :=
  let copy (k : Nat) : Member α := { cls := (ioh11 v none).1, scale := some (scale k) }
  let l := [copy 0]
  let l := if l.length < num then l ++ [{ cls := .alg .fcarola6 }] else l
  let l := if l.length < num then l ++ [{ cls := .alg .chainMetaModelSQP }] else l
  let l := if l.length < num then l ++ [{ cls := .alg .metaModelFmin2 }] else l
  l ++ (List.range (num - l.length)).map (fun k => copy (k + 1))

/-- The part of `_select_optimizer_cls` of NgIoh12 to NgIoh18 which makes restarts, `none` if it is not entered; otherwise what is selected, and
`self` afterwards. -/
def restarts {α : Type} (ver : Version) (scale shift : Nat → α) (v : Problem) : Option (Out α × Problem) :=
  if v.isArray && !v.continuous && !v.noise then none
  else if v.continuous && !v.noise then
    match v.budget with
    | none => none
    | some b =>
      if v.dim = 0 then some (.zeroDivision, v)
      else
        let num := b / (1000 * v.dim)
        if 2000 * v.dim < b ∧ v.workers ≤ num then
          match ver with
          | .v13 | .v14 => some (.portfolio (mixed scale v num) (warmup ver), v)
          | .v12 | .v15 => some (.portfolio ((List.range num).map (fun k => { cls := (ioh11 v none).1, scale := some (scale k) })) (warmup ver), v)
          | .v16 => some (.portfolio ((List.range num).map (fun k => { cls := .alg .carola14, scale := some (scale k) })) (warmup ver), v)
          | .v17 =>
            let r := copies (fun c k => { cls := c, scale := some (scale k) }) (some (subBudget b num)) num 0 v
            some (.chain r.1 (List.replicate (r.1.length - 1) (subBudget b num)), { r.2 with budget := some b })
          | .v18 =>
            let r := copies (fun c k => member18 scale shift c k) (some (subBudget b num)) num 0 v
            some (.chain r.1 (List.replicate (r.1.length - 1) (subBudget b num)), { r.2 with budget := some b })
        else none
  else none

/-- `_select_optimizer_cls` of NgIoh12 to NgIoh18. After the restarts, the code is that of NgIoh11 (5834-5900 and the same lines of the other classes). -/
def select {α : Type} (ver : Version) (scale shift : Nat → α) (v : Problem) : Out α × Problem :=
  match restarts ver scale shift v with
  | some r => r
  | none => (.one (ioh11 v none).1, v)

end IohChain
end NG
