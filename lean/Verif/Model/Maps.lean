import Verif.Model.Csec

/-!
# Model of the other competence maps

optimization/optimizerlib.py: `NGOptDSBase` (3914-3958), `Shiwa` (3962-3973), `NGOpt13` (4161-4172), `NGOpt38` (4259-4300), `NGOptRW` (4386-4394), `Wiz` (4816-4911),
`NgIoh`, `NgIoh2`, `NgIoh3` (4915-5215), `NgIohRW2` (5258-5264), `NgIoh5`, `NgIoh6`, `NgIoh7` (5268-5348, 5557-5601), `NgDS11` (5605-5688), `NgDS` (6470-6567),
`NgIoh20` and `NgIoh19` (6790-6996), `NgIoh10`, `NgIoh9`, `NgIoh8` (7139-7364). See `Verif.Model.NGOpt` and `Verif.Model.Csec` for the problems and for the other
classes. Algorithms are names and numbers are exact.
-/

namespace NG
namespace Maps

open NGOpt Csec

/-- The algorithms: those of the other models and a few new ones. `sqpPortfolio` is `ConfPortfolio([SQPCMA, QODE, PSO])`; `dsNoisyChain` is
`Chaining([SQOPSO, OptimisticDiscreteOnePlusOne], ["half"])`; `metaLPCMA` and `lpcma` are for low dimensions. Used in `Alg.sequential` (optimizerlib.py 3548). -/
inductive Alg where
  | old (a : Csec.Alg)
  | recombiningDiscrete | hyperOpt | sqpPortfolio | dsNoisyChain | chainDSPowell | vlpcma | lpcma | metaLPCMA
  deriving DecidableEq

/-- The algorithms marked `no_parallelization` (optimizerlib.py 3548 for `ChainDSPowell`; `HyperOpt` is not, externalbo.py 234). -/
def Alg.sequential : Alg → Bool
  | .old a => a.sequential
  | .chainDSPowell => true
  | _ => false

/-- The outcome of a selection. Used in `dsBase` (optimizerlib.py 3917-3958). -/
inductive Out where
  | ok (a : Alg)
  | assertionError
  | typeError
  deriving DecidableEq

/-- Outcomes of the previous model. Used in `shiwaEnd` (optimizerlib.py 3968-3973). -/
def Out.ofSel : Sel → Out
  | .ok a => .ok (.old a)
  | .assertionError => .assertionError
  | .typeError => .typeError

/-- Outcomes of the NGOpt family. Used in `opt13` (optimizerlib.py 4162-4172). -/
def Out.ofNG (o : Option NGOpt.Alg) : Out := .ofSel (.ofNG o)

/-- An algorithm of NGOpt. Used in `dsBase` (optimizerlib.py 3917-3958). -/
def ng (a : NGOpt.Alg) : Out := .ok (.old (.known a))

/-- An algorithm of NgIoh21. -/
def alg (a : Csec.Alg) : Out := .ok (.old a)

/-- `self.fully_continuous and self.num_workers == 1 and self.budget is not None and not self.has_noise`, with a test on the budget and the dimension. Used in `opt38` (optimizerlib.py 4260-4300). -/
def smooth1 (v : Problem) (test : Nat → Nat → Bool) : Bool :=
  v.continuous && decide (v.workers = 1) && v.known (fun b => test v.dim b) && !v.noise

/-- `NGOptDSBase._select_optimizer_cls` (3917-3958). -/
def dsBase (v : Problem) : Out :=
  match v.budget with
  | none => .assertionError
  | some b =>
    if v.noise && v.notSoftmax then (if v.dim < 60 then ng .doubleFast else ng .cma)
    else if v.noise && v.continuous then .ok .dsNoisyChain
    else if v.notSoftmax || !v.metrizable || !v.continuous then ng .doubleFast
    else if b < 5 * v.workers then
      if b < 2 * v.workers ∨ b < v.dim then ng .metaRecentering else ng .naiveTBPSA
    else if v.workers = 1 ∧ 6000 < b ∧ 7 < v.dim then .ok .chainDSPowell
    else if v.workers = 1 ∧ b < v.dim * 30 then (if 30 < v.dim then ng .onePlusOne else ng .cobyla)
    else if 2000 < v.dim then ng .de else if 1 < v.dim then ng .metaCMA else ng .onePlusOne

/-- The end of `Shiwa` (3968-3973) and of `NgIoh4` to `NgIoh8` (5251-5254). -/
def shiwaEnd (v : Problem) : Out :=
  if v.noise && (v.notSoftmax || !v.metrizable) then ng .recombiningPortfolio
  else if 60 ≤ v.dim ∧ v.metrizable = false then ng .cma
  else .ofSel (base v)

/-- The end of `NgIoh9`, `NgIoh10`, `NgIoh11`, `NgIoh19`, `NgIoh20`, `NgDS11` and `NgDS` (7213-7216). -/
def lastEnd (v : Problem) : Out :=
  if v.noise && (v.notSoftmax || !v.metrizable) then ng .recombiningPortfolio
  else .ofSel (base v)

/-- `NGOpt13._select_optimizer_cls` (4162-4172). -/
def opt13 (v : Problem) : Out :=
  if !v.noise && v.known (fun b => decide (v.workers * 3 < b ∧ v.dim < 8 ∧ b < 80)) then .ok .hyperOpt
  else .ofNG (select12 v.toEnv)

/-- `NGOpt38._select_optimizer_cls` (4260-4300). -/
def opt38 (v : Problem) : Out :=
  if smooth1 v (fun d b => decide (500 * d < b)) && decide (v.objectives < 2) && v.bounded then
    if v.known (fun b => decide (5000 * v.dim < b)) then .ofNG (select36 v.toEnv.renewed)
    else if v.dim < 5 then .ofNG (select21 v.toEnv.renewed)
    else if v.dim < 10 then ng (.portfolio v.numDim10 false)
    else if v.dim < 20 then ng (.portfolio v.numDim20 true)
    else .ofNG (select16 v.toEnv.renewed)
  else if smooth1 v (fun d b => decide (50 * d < b)) && decide (v.objectives < 2) && v.bounded then
    if v.dim < 3 then .ofNG (select8 v.toEnv.renewed) else .ofNG (select15 v.toEnv.renewed)
  else .ofNG (select16 v.toEnv)

/-- `NGOptRW._select_optimizer_cls` (4387-4394). -/
def optRW (v : Problem) : Out :=
  if v.continuous && !v.noise then
    match v.budget with
    | none => .typeError
    | some b =>
      if 12 * v.dim ≤ b then
        match select39 v.toEnv with
        | some a => alg (.rwPortfolio a)
        | none => .assertionError
      else .ofNG (select39 v.toEnv)
  else .ofNG (select39 v.toEnv)

/-- The part common to `Wiz`, `NgIoh`, `NgIoh2` and `NgIoh3` after `Carola2` (4863-4911): the last case calls the selection of `NGOpt16` on `self`. -/
def wizEnd (v : Problem) : Out :=
  if v.known (fun b => decide (500 * v.dim < b)) && v.continuous && !v.noise && decide (v.objectives < 2)
      && decide (v.workers ≤ v.para) && v.bounded then
    if v.dim = 1 then .ofNG (select16 v.toEnv.renewed)
    else if v.known (fun b => decide (5000 * v.dim < b)) then .ofNG (select36 v.toEnv.renewed)
    else if v.dim < 5 then .ofNG (select21 v.toEnv.renewed)
    else if v.dim < 10 then ng (.portfolio v.numDim10 false)
    else if v.dim < 20 then ng (.portfolio v.numDim20 true)
    else if v.workers = 1 then ng .cmaFmin2
    else .ofNG (select16 v.toEnv.renewed)
  else if v.continuous && !v.noise && decide (v.objectives < 2) && decide (v.workers ≤ v.cmaVars)
      && v.known (fun b => decide (50 * v.dim < b)) && v.bounded then
    if v.dim < 3 then .ofNG (select8 v.toEnv.renewed)
    else if v.dim ≤ 20 ∧ v.workers = 1 then ng .metaModelFmin2
    else .ofNG (select15 v.toEnv.renewed)
  else .ofNG (select16 v.toEnv)

/-- `Wiz` and its variants, with the two tests for `Carola2`. Used in `wiz` (optimizerlib.py 4817-4911). -/
def wizLike (first second : Nat → Nat → Bool) (v : Problem) : Out :=
  if v.continuous && v.noise then ng .noisyChain
  else if smooth1 v first then alg .carola2
  else if smooth1 v second then alg .carola2
  else wizEnd v

/-- `Wiz._select_optimizer_cls` (4817-4911). -/
def wiz : Problem → Out :=
  wizLike (fun d b => decide (b < 1000 * d ∧ 1 < d)) (fun d b => decide (10000 * d < b ∧ 1 < d))

/-- `NgIoh._select_optimizer_cls` (4916-5011). -/
def ioh1 : Problem → Out :=
  wizLike (fun d b => decide (b < 1000 * d ∧ 20 * d < b ∧ 1 < d)) (fun d b => decide (10000 * d < b ∧ 1 < d))

/-- `NgIoh2._select_optimizer_cls` (5016-5113). -/
def ioh2 : Problem → Out :=
  wizLike (fun d b => decide (b < 1000 * d ∧ 20 * d < b ∧ 1 < d ∧ d < 200)) (fun d b => decide (1000 * d ≤ b ∧ 1 < d ∧ d < 200))

/-- `NgIoh3._select_optimizer_cls` (5118-5215). -/
def ioh3 : Problem → Out :=
  wizLike (fun d b => decide (b < 1000 * d ∧ 20 * d < b ∧ 1 < d ∧ d < 100)) (fun d b => decide (1000 * d ≤ b ∧ 1 < d ∧ d < 50))

/-- `NgIohRW2._select_optimizer_cls` (5259-5264). -/
def rw2 (v : Problem) : Out :=
  if v.continuous && !v.noise then
    match v.budget with
    | none => .typeError
    | some b => if 12 * v.dim ≤ b then .ok .sqpPortfolio else .ofSel (ioh4 v)
  else .ofSel (ioh4 v)

/-- The tests for `Carola2` (or `DS2`) since `NgIoh3` (5277-5300), then `rest`. -/
def carola (chain : Csec.Alg) (v : Problem) (rest : Out) : Out :=
  if smooth1 v (fun d b => decide (b < 1000 * d ∧ 20 * d < b ∧ 1 < d ∧ d < 100)) then alg chain
  else if smooth1 v (fun d b => decide (1000 * d ≤ b ∧ 1 < d ∧ d < 50)) then alg chain
  else rest

/-- `NgIoh5._select_optimizer_cls` (5271-5305). -/
def ioh5 (v : Problem) : Out :=
  if !v.noise && decide (0 < v.arity) then ng .lengler else carola .carola2 v (shiwaEnd v)

/-- `NgIoh6._select_optimizer_cls` (5312-5346). -/
def ioh6 (v : Problem) : Out :=
  if !v.noise && decide (0 < v.arity) then .ok .recombiningDiscrete else carola .carola2 v (shiwaEnd v)

/-- `isinstance(self.parametrization, p.Array) and not self.fully_continuous and not self.has_noise` (5563-5571). -/
def integers (v : Problem) (rest : Out) : Out :=
  if v.isArray && !v.continuous && !v.noise then alg .discretePortfolio else rest

/-- The inner table of smooth problems with one worker, if there is a budget. Used in `ioh8` (optimizerlib.py 7304-7364). -/
def table (v : Problem) (t : Nat → Nat → Option Csec.Alg) (rest : Out) : Out :=
  if v.continuous && decide (v.workers = 1) && !v.noise then
    match v.budget.bind (t v.dim) with
    | some a => alg a
    | none => rest
  else rest

/-- `NgIoh7._select_optimizer_cls` (5560-5601). -/
def ioh7 (v : Problem) : Out := integers v (carola .carola2 v (shiwaEnd v))

/-- The table of `NgIoh8` (7316-7336). -/
def seq8 (d b : Nat) : Option Csec.Alg :=
  if b < 30 * d ∧ d < 50 ∧ 30 < d then some .chainMetaModelSQP
  else if 30 * d ≤ b ∧ b < 300 * d ∧ d = 2 then some .sbplx
  else if 30 * d ≤ b ∧ b < 300 * d ∧ d < 15 then some .chainMetaModelSQP
  else if 300 * d ≤ b ∧ b < 3000 * d ∧ d < 30 then some .multiCMA
  else none

/-- The table of `NgIoh9` (7234-7265). -/
def seq9 (d b : Nat) : Option Csec.Alg :=
  if 300 * d < b ∧ b < 3000 * d ∧ d = 2 then some .metaModelFmin2
  else if 300 * d < b ∧ d = 3 then some .chainMetaModelSQP
  else if 3000 * d < b then some .metaModelFmin2
  else if 300 * d < b ∧ b < 3000 * d ∧ d ≤ 3 then some .chainMetaModelSQP
  else seq8 d b

/-- The table of `NgIoh10` (7154-7183). -/
def seq10 (d b : Nat) : Option Csec.Alg :=
  if 300 * d < b ∧ b < 3000 * d ∧ d = 2 then some .fcarola6
  else if 300 * d < b ∧ b < 3000 * d then some .carola6
  else if 3000 * d < b then some .metaModelFmin2
  else if 300 * d < b ∧ b < 3000 * d ∧ d ≤ 3 then some .chainMetaModelSQP
  else seq8 d b

/-- The table of `NgDS11` (5625-5659). -/
def seqDS11 (d b : Nat) : Option Csec.Alg :=
  if 300 * d < b ∧ b < 3000 * d ∧ d = 2 then some .ds14
  else if 300 * d < b ∧ b < 3000 * d ∧ d < 4 then some .ds4
  else if 300 * d < b ∧ b < 3000 * d ∧ d < 8 then some .ds5
  else if 300 * d < b ∧ b < 3000 * d ∧ d < 15 then some .ds9
  else if 300 * d < b ∧ b < 3000 * d ∧ d < 30 then some .ds8
  else if 300 * d < b ∧ b < 3000 * d ∧ d < 60 then some .ds9
  else if 300 * d < b ∧ b < 3000 * d ∧ d = 2 then some .ds6
  else if 300 * d < b ∧ b < 3000 * d then some .ds6
  else if 3000 * d < b then some .metaModelFmin2
  else if 300 * d < b ∧ b < 3000 * d ∧ d ≤ 3 then some .chainMetaModelSQP
  else seq8 d b

/-- `NgIoh8._select_optimizer_cls` (7304-7364). -/
def ioh8 (v : Problem) : Out := integers v (table v seq8 (carola .carola2 v (shiwaEnd v)))

/-- `NgIoh9._select_optimizer_cls` (7222-7297). -/
def ioh9 (v : Problem) : Out := integers v (table v seq9 (carola .carola2 v (lastEnd v)))

/-- `NgIoh10._select_optimizer_cls` (7142-7215). -/
def ioh10 (v : Problem) : Out := integers v (table v seq10 (carola .carola2 v (lastEnd v)))

/-- `NgIoh11._select_optimizer_cls` (5695-5776) without argument; its table is the one of `NgIoh21`. -/
def ioh11 (v : Problem) : Out := integers v (table v ioh21Seq (carola .carola2 v (lastEnd v)))

/-- `NgDS11._select_optimizer_cls` (5608-5688) without argument. -/
def ds11 (v : Problem) : Out := integers v (table v seqDS11 (carola .carola2 v (lastEnd v)))

/-- More than 2000 evaluations per dimension on continuous noise-free problems, for any number of workers (6914-6917). -/
def large (v : Problem) : Bool := v.continuous && v.known (fun b => decide (2000 * v.dim < b)) && !v.noise

/-- `NgIoh19._select_optimizer_cls` (6900-6996). -/
def ioh19 (v : Problem) : Out :=
  integers v (if large v then .ok (if 4 < v.dim then .vlpcma else .lpcma) else table v ioh21Seq (carola .carola2 v (lastEnd v)))

/-- `NgIoh20._select_optimizer_cls` (6793-6893). -/
def ioh20 (v : Problem) : Out :=
  integers v (if large v then .ok (if 4 < v.dim then .old .metaVLPCMA else .metaLPCMA) else table v ioh21Seq (carola .carola2 v (lastEnd v)))

/-- `NgDS._select_optimizer_cls` (6473-6567); its table is the one of `NgDS2`. -/
def ds (v : Problem) : Out :=
  integers v (if large v then alg .metaVLPCMA else table v ds2Seq (carola .ds2 v (lastEnd v)))

/-- The classes. Used in `select` (optimizerlib.py 6473-6567). -/
inductive Cls where
  | dsBase | shiwa | opt13 | opt38 | optRW | wiz | ioh1 | ioh2 | ioh3 | rw2 | ioh5 | ioh6 | ioh7 | ioh8 | ioh9 | ioh10 | ioh11 | ds11 | ioh19 | ioh20 | ds
  deriving DecidableEq

/-- `_select_optimizer_cls` of each class. Built on `ds` (optimizerlib.py 6473-6567). -/
def select : Cls → Problem → Out
  | .dsBase => Maps.dsBase
  | .shiwa => shiwaEnd
  | .opt13 => Maps.opt13
  | .opt38 => Maps.opt38
  | .optRW => Maps.optRW
  | .wiz => Maps.wiz
  | .ioh1 => Maps.ioh1
  | .ioh2 => Maps.ioh2
  | .ioh3 => Maps.ioh3
  | .rw2 => Maps.rw2
  | .ioh5 => Maps.ioh5
  | .ioh6 => Maps.ioh6
  | .ioh7 => Maps.ioh7
  | .ioh8 => Maps.ioh8
  | .ioh9 => Maps.ioh9
  | .ioh10 => Maps.ioh10
  | .ioh11 => Maps.ioh11
  | .ds11 => Maps.ds11
  | .ioh19 => Maps.ioh19
  | .ioh20 => Maps.ioh20
  | .ds => Maps.ds

end Maps
end NG
