import Mathlib.Data.Nat.Sqrt

/-!
# Model of the selection of an algorithm by NGOpt

`NGOptBase` (optimization/optimizerlib.py 3806-3910) and `NGOpt4` ... `NGOpt39` (3991-4381); `NGOpt` is `NGOpt39` (4810-4812). The selection
is lazy: it happens at the first `ask` or `tell`, from what the constructor found out about the parametrization.
The algorithms are names. Numbers are exact (`np.sqrt` and divisions are floating point in the code).
-/

namespace NG
namespace NGOpt

/-- An integer layer of the parametrization (parametrization/_layering.py `Int`): `arity` is set for choices only. Used in `Env` (optimizerlib.py 3816). -/
structure Layer where
  deterministic : Bool
  arity : Option Nat
  softmax : Bool

/-- What the selection depends on. `logTerm` is `int(3 * np.log(dimension))`; `funcDet`, `metrizable` are fields of
`parametrization.function`; `bounded` is `Normalizer(parametrization).fully_bounded`. Used in `Env.noise` (optimizerlib.py 3816). -/
structure Env where
  layers : List Layer
  funcDet : Bool
  metrizable : Bool
  bounded : Bool
  dim : Nat
  logTerm : Nat
  budget : Option Nat
  workers : Nat
  objectives : Nat := 0

/-- `has_noise` (3816; parametrization/helpers.py 114). -/
def Env.noise (v : Env) : Bool := !(v.layers.all (fun l => l.deterministic) && v.funcDet)

/-- `noise_from_instrumentation` (3819). -/
def Env.noiseFromInstr (v : Env) : Bool := v.noise && v.funcDet

/-- `has_real_noise` (3817). -/
def Env.realNoise (v : Env) : Bool := !v.funcDet

/-- `fully_continuous` (3820; helpers.py 115). -/
def Env.continuous (v : Env) : Bool := !v.layers.any (fun l => l.deterministic)

/-- `has_discrete_not_softmax` (3826-3829). -/
def Env.notSoftmax (v : Env) : Bool := v.layers.any (fun l => l.arity.isSome && !l.softmax)

/-- `_arity` (3831-3833). -/
def Env.arity (v : Env) : Int :=
  if v.continuous then -1
  else (v.layers.filterMap (fun l => l.arity)).foldl (fun (a : Int) (b : Nat) => max a (b : Int)) (-1)

/-- The algorithms selected. `portfolio n scaled` is a `ConfPortfolio` of `n` copies of NGOpt14, rescaled or not; `noisyOPO m` is a
`ParametrizedOnePlusOne(crossover=True, mutation=m, noise_handling="optimistic")`. -/
inductive Alg where
  | noisyChain | portfolio (n : Nat) (scaled : Bool) | cmaFmin2 | metaModelFmin2 | cobyla | metaModelOPO | metaModel | lengler
  | recombiningPortfolio | noisyOPO (portfolio : Bool) | bso | cmandas2 | discreteOPO | adaptiveDiscrete | chainMetaModelPowell
  | splitNoisy | onePlusOne | sqp | doubleFast | metaTuneRecentering | diagonalCMA | chainDiagonalMeta | naiveTBPSA
  | chainTBPSACMAPowell | de | cma
  | tbpsa | metaRecentering | chainCMAPowell | metaCMA
  deriving DecidableEq

/-- `NGOptBase._select_optimizer_cls` (3849-3888); `num_workers > budget / 5` and `num_workers > budget / 2.0` are `budget < 5 * num_workers`
and `budget < 2 * num_workers`. -/
def selectBase (v : Env) : Option Alg :=
  match v.budget with
  | none => none
  | some b =>
    if v.noise && v.notSoftmax then some (if v.dim < 60 then .doubleFast else .cma)
    else if v.realNoise && v.continuous then some .tbpsa
    else if v.notSoftmax || !v.metrizable || !v.continuous then some .doubleFast
    else if b < 5 * v.workers then
      if b < 2 * v.workers ∨ b < v.dim then some .metaRecentering else some .naiveTBPSA
    else if v.workers = 1 ∧ 6000 < b ∧ 7 < v.dim then some .chainCMAPowell
    else if v.workers = 1 ∧ b < v.dim * 30 then some (if 30 < v.dim then .onePlusOne else .cobyla)
    else some (if 2000 < v.dim then .de else if 1 < v.dim then .metaCMA else .onePlusOne)

/-- The end of `NGOpt4._select_optimizer_cls` (4026-4073): noise-free, continuous, metrizable. -/
def select4Cont (v : Env) (b : Nat) : Alg :=
  if b < 5 * v.workers then
    if b < 2 * v.workers ∨ b < v.dim then .metaTuneRecentering
    else if v.dim < 5 ∧ b < 100 then .diagonalCMA
    else if v.dim < 5 ∧ b < 500 then .chainDiagonalMeta
    else .naiveTBPSA
  else if v.workers = 1 ∧ 6000 < b ∧ 7 < v.dim then .chainTBPSACMAPowell
  else if v.workers = 1 ∧ b < v.dim * 30 then
    if 30 < v.dim then .onePlusOne else if v.dim < 5 then .metaModel else .cobyla
  else if 2000 < v.dim then .de
  else if v.dim < 10 ∧ b < 500 then .metaModel
  else if 40 < v.dim ∧ v.dim < v.workers ∧ b < 7 * v.dim ^ 2 then .diagonalCMA
  else if v.dim ^ 2 < 3 * v.workers ∧ v.dim ^ 2 < b then .metaModel
  else .cma

/-- `fully_continuous` as `NGOpt4` redefines it (3996-3998). -/
def Env.continuous4 (v : Env) : Bool := v.continuous && !v.notSoftmax && decide (v.arity < 0)

/-- `NGOpt4._select_optimizer_cls` (3995-4073). -/
def select4 (v : Env) : Option Alg :=
  match v.budget with
  | none => none
  | some b =>
    if v.noise && (v.notSoftmax || !v.metrizable) then some (.noisyOPO (decide (1000 < b)))
    else if 0 < v.arity then
      if v.arity = 2 then some .discreteOPO else if v.arity < 5 then some .adaptiveDiscrete else some .cmandas2
    else if v.noise && v.continuous4 && decide (100 < v.dim) then some .splitNoisy
    else if v.noise && v.continuous4 then
      if 100 < b then (if v.noiseFromInstr || decide (1 < v.workers) then some .onePlusOne else some .sqp) else some .onePlusOne
    else if v.notSoftmax || !v.metrizable || !v.continuous4 then some .doubleFast
    else some (select4Cont v b)

/-- `NGOpt8._select_optimizer_cls` (4081-4111). -/
def select8 (v : Env) : Option Alg :=
  match v.budget with
  | none => none
  | some b =>
    if v.noise && (v.notSoftmax || !v.metrizable) then
      if 10000 < b then some .recombiningPortfolio else some (.noisyOPO false)
    else if 0 < v.arity then
      if b < 1000 ∧ v.workers = 1 then some .bso
      else if 2 < v.workers then some .cmandas2
      else select4 v
    else if !(v.noise && v.continuous && decide (100 < v.dim)) && !(v.noise && v.continuous) && !decide (b < 5 * v.workers)
        && decide (v.workers = 1 ∧ 6000 < b ∧ 7 < v.dim) && decide (v.workers < b) then some .chainMetaModelPowell
    else select4 v

/-- `NGOpt10._select_optimizer_cls` (4123-4127). -/
def select10 (v : Env) : Option Alg := if !v.noise && decide (0 < v.arity) then some .lengler else select8 v

/-- `cma_vars` (4135). -/
def Env.cmaVars (v : Env) : Nat := max 1 (4 + v.logTerm)

/-- `self.budget is not None and test(self.budget)`. Used in `select12` (optimizerlib.py 4134-4159). -/
def Env.known (v : Env) (test : Nat → Bool) : Bool :=
  match v.budget with
  | none => false
  | some b => test b

/-- `NGOpt12._select_optimizer_cls` (4134-4159). -/
def select12 (v : Env) : Option Alg :=
  if !v.noise && v.continuous && decide (v.workers ≤ v.cmaVars) && decide (v.dim < 100)
      && v.known (fun b => decide (b < v.dim * 50 ∧ min 50 (v.dim * 5) < b)) then some .metaModel
  else if !v.noise && v.continuous && decide (v.workers ≤ v.cmaVars) && decide (v.dim < 100)
      && v.known (fun b => decide (b < v.dim * 5 ∧ 50 < b)) then some .metaModel
  else select10 v

/-- `NGOpt14._select_optimizer_cls` (4177-4181). -/
def select14 (v : Env) : Option Alg := if v.known (fun b => decide (b < 600)) then some .metaModel else select12 v

/-- `NGOpt15._select_optimizer_cls` (4186-4199). -/
def select15 (v : Env) : Option Alg :=
  if v.known (fun b => decide (b < v.dim ^ 2 * 2)) && v.continuous && decide (v.workers = 1) && !v.noise && decide (v.objectives < 2) then
    some .metaModelOPO
  else if v.continuous && v.known (fun b => decide (b < 600)) then some .metaModel
  else select12 v

/-- `NGOpt16._select_optimizer_cls` (4204-4216). -/
def select16 (v : Env) : Option Alg :=
  if v.known (fun b => decide (b < 200 * v.dim)) && v.continuous && decide (v.workers = 1) && !v.noise && decide (v.objectives < 2)
      && v.bounded then some .cobyla
  else select15 v

/-- `num` of NGOpt21 (4222), `num21` (4322). -/
def Env.num21 (v : Env) : Nat := match v.budget with | none => 1 | some b => 1 + (4 * b) / (v.dim * 1000)

/-- `num` of NGOpt36 (4241-4245), `num36` (4317-4321). -/
def Env.num36 (v : Env) : Nat := match v.budget with | none => 1 | some b => 1 + Nat.sqrt ((16 * b) / (v.dim * 1000))

/-- `num_dim10` (4323-4327). -/
def Env.numDim10 (v : Env) : Nat := match v.budget with | none => 1 | some b => 1 + Nat.sqrt ((64 * b) / (v.dim * 1000))

/-- `num_dim20` (4328). -/
def Env.numDim20 (v : Env) : Nat := match v.budget with | none => 1 | some b => b / (500 * v.dim)

/-- `NGOpt21._select_optimizer_cls` (4220-4235). -/
def select21 (v : Env) : Option Alg :=
  if v.known (fun b => decide (500 * v.dim < b)) && v.continuous && decide (v.workers ≤ v.num21 * v.cmaVars) then
    some (.portfolio v.num21 true)
  else select16 v

/-- `NGOpt36._select_optimizer_cls` (4240-4259). -/
def select36 (v : Env) : Option Alg :=
  if v.known (fun b => decide (500 * v.dim < b)) && v.continuous && decide (v.workers ≤ v.num36 * v.cmaVars) then
    some (.portfolio v.num36 true)
  else select16 v

/-- `para` (4329-4337). -/
def Env.para (v : Env) : Nat :=
  if v.known (fun b => decide (5000 * v.dim < b)) then v.num36 * v.cmaVars
  else if v.dim < 5 then v.num21 * v.cmaVars
  else if v.dim < 10 then v.numDim10 * v.cmaVars
  else if v.dim < 20 then v.numDim20 * v.cmaVars
  else 1

/-- A new instance of another class of the family, whose own selection is used (`optim`, 3843): it has not seen any loss. -/
def Env.renewed (v : Env) : Env := { v with objectives := 0 }

/-- `NGOpt39._select_optimizer_cls` (4310-4381). -/
def select39 (v : Env) : Option Alg :=
  if v.continuous && v.noise then some .noisyChain
  else if v.known (fun b => decide (500 * v.dim < b)) && v.continuous && !v.noise && decide (v.objectives < 2)
      && decide (v.workers ≤ v.para) && v.bounded then
    if v.dim = 1 then select16 v.renewed
    else if v.known (fun b => decide (5000 * v.dim < b)) then select36 v.renewed
    else if v.dim < 5 then select21 v.renewed
    else if v.dim < 10 then some (.portfolio v.numDim10 false)
    else if v.dim < 20 then some (.portfolio v.numDim20 true)
    else if v.workers = 1 then some .cmaFmin2
    else select16 v.renewed
  else if v.continuous && !v.noise && decide (v.objectives < 2) && decide (v.workers ≤ v.cmaVars)
      && v.known (fun b => decide (50 * v.dim < b)) && v.bounded then
    if v.dim < 3 then select8 v.renewed
    else if v.dim ≤ 20 ∧ v.workers = 1 then some .metaModelFmin2
    else select15 v.renewed
  else select16 v.renewed

/-- `NGOpt8._num_objectives_set_callback` (4113-4119), run when the first loss is told (base.py 177-183): the algorithm becomes a new `DE`. -/
def callback (v : Env) (objectives : Nat) (current : Option Alg) : Option Alg :=
  if 1 < objectives then
    if v.noiseFromInstr || !v.noise then some .de else current
  else current

/-- The algorithms marked `no_parallelization` (recastlib.py 523, optimizerlib.py 3547, 3556, 3568, 4378). -/
def Alg.sequential : Alg → Bool
  | .cmaFmin2 | .metaModelFmin2 | .cobyla | .sqp | .chainMetaModelPowell | .chainTBPSACMAPowell | .chainCMAPowell => true
  | _ => false

/-- What the first `ask` gives (base.py 514-523): an AssertionError of the selection is raised, except if the parametrization has constraints, in
which case a copy of the initial point is returned. -/
inductive First where
  | raises
  | initialPoint
  | point (a : Alg)
  deriving DecidableEq

/-- The first `ask` of NGOpt; `constraints` says whether a constraint was registered. Built on `First` (base.py 514-523). -/
def firstAsk (v : Env) (constraints : Bool) : First :=
  match select39 v with
  | some a => .point a
  | none => if constraints then .initialPoint else .raises

end NGOpt
end NG
