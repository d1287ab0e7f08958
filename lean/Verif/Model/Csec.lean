import Verif.Model.NGOpt

/-!
# Model of the selection of an algorithm by NgIohTuned

`NgIohTuned` is `CSEC11` (optimization/optimizerlib.py 7578-7681). `CSEC` and `CSEC10` (7433-7575) are the previous versions. They call the
selections of `NgIoh4` (5219-5254), `NgIoh21` (6571-6670), `NgDS2` (6674-6773), `NGDSRW` (6777-6786) and `NGOpt` on themselves
(`NgIoh4._select_optimizer_cls(self)`), so `self` need not be an instance of the class whose code runs. The algorithms are names.
Numbers are exact.
-/

namespace NG
namespace Csec

open NGOpt

/-- What the selection depends on. The new fields are attributes of the parametrization (parametrization/core.py 52-56), except
`isArray` (`isinstance(parametrization, p.Array)`) and `overLog`, which stands for `num_workers > np.log(3 + budget)`. -/
structure Problem extends NGOpt.Env where
  isArray : Bool := false
  realWorld : Bool := false
  hptuning : Bool := false
  neural : Bool := false
  hasConstraints : Bool := false
  enforceDet : Bool := false
  overLog : Bool := false

/-- The algorithms. `known` are those of NGOpt. Used in `ioh21Seq` (optimizerlib.py 6596-6648). -/
inductive Alg where
  | known (a : NGOpt.Alg)
  | geneticDE | ngLn | ngDS3 | dsproba | noisyRL2 | sqopso
  | carola2 | carola4 | carola5 | carola6 | carola8 | carola9 | carola14 | fcarola6
  | ds2 | ds4 | ds5 | ds6 | ds8 | ds9 | ds14 | multiCMA | multiDS
  | metaVLPCMA | metaModelFmin2 | metaModelDS | chainMetaModelSQP | chainMetaModelDSSQP | sbplx
  | discretePortfolio
  | rwPortfolio (third : NGOpt.Alg)
  deriving DecidableEq

/-- The outcome of a selection. Used in `base` (optimizerlib.py 3839-3845). -/
inductive Sel where
  | ok (a : Alg)
  | assertionError
  | typeError
  deriving DecidableEq

/-- The selection of a class of the NGOpt family, `none` being the failure of its assertion. Used in `base` (optimizerlib.py 3839-3845). -/
def Sel.ofNG : Option NGOpt.Alg → Sel
  | some a => .ok (.known a)
  | none => .assertionError

/-- `return NGOptBase`, then the selection of the new instance (`optim`, 3839-3845). -/
def base (v : Problem) : Sel := .ofNG (selectBase v.toEnv.renewed)

/-- `NgIoh4._select_optimizer_cls` (5222-5254). -/
def ioh4 (v : Problem) : Sel :=
  if v.continuous && decide (v.workers = 1) && v.known (fun b => decide (b < 1000 * v.dim ∧ 20 * v.dim < b)) && !v.noise
      && decide (1 < v.dim ∧ v.dim < 100) then .ok .carola2
  else if v.continuous && decide (v.workers = 1) && v.known (fun b => decide (1000 * v.dim ≤ b)) && !v.noise
      && decide (1 < v.dim ∧ v.dim < 50) then .ok .carola2
  else if v.noise && (v.notSoftmax || !v.metrizable) then .ok (.known .recombiningPortfolio)
  else if 60 ≤ v.dim ∧ v.metrizable = false then .ok (.known .cma)
  else base v

/-- The inner part of `NgIoh21` (6596-6648), when the problem is smooth, sequential and the budget `b` known; `none` if nothing is returned. -/
def ioh21Seq (d b : Nat) : Option Alg :=
  if 300 * d < b ∧ b < 3000 * d ∧ d = 2 then some .carola14
  else if 300 * d < b ∧ b < 3000 * d ∧ d < 4 then some .carola4
  else if 300 * d < b ∧ b < 3000 * d ∧ d < 8 then some .carola5
  else if 300 * d < b ∧ b < 3000 * d ∧ d < 15 then some .carola9
  else if 300 * d < b ∧ b < 3000 * d ∧ d < 30 then some .carola8
  else if 300 * d < b ∧ b < 3000 * d ∧ d < 60 then some .carola9
  else if 300 * d < b ∧ b < 3000 * d ∧ d = 2 then some .fcarola6
  else if 300 * d < b ∧ b < 3000 * d then some .carola6
  else if 3000 * d < b then some .metaModelFmin2
  else if 300 * d < b ∧ b < 3000 * d ∧ d ≤ 3 then some .chainMetaModelSQP
  else if b < 30 * d ∧ d < 50 ∧ 30 < d then some .chainMetaModelSQP
  else if 30 * d ≤ b ∧ b < 300 * d ∧ d = 2 then some .sbplx
  else if 30 * d ≤ b ∧ b < 300 * d ∧ d < 15 then some .chainMetaModelSQP
  else if 300 * d ≤ b ∧ b < 3000 * d ∧ d < 30 then some .multiCMA
  else none

/-- The inner part of `NgDS2` (6702-6744). -/
def ds2Seq (d b : Nat) : Option Alg :=
  if 300 * d < b ∧ b < 3000 * d ∧ d = 2 then some .ds14
  else if 300 * d < b ∧ b < 3000 * d ∧ d < 4 then some .ds4
  else if 300 * d < b ∧ b < 3000 * d ∧ d < 8 then some .ds5
  else if 300 * d < b ∧ b < 3000 * d ∧ d < 15 then some .ds9
  else if 300 * d < b ∧ b < 3000 * d ∧ d < 30 then some .ds8
  else if 300 * d < b ∧ b < 3000 * d ∧ d < 60 then some .ds9
  else if 300 * d < b ∧ b < 3000 * d ∧ d = 2 then some .ds6
  else if 300 * d < b ∧ b < 3000 * d then some .ds6
  else if 3000 * d < b then some .metaModelDS
  else if 300 * d < b ∧ b < 3000 * d ∧ d ≤ 3 then some .chainMetaModelDSSQP
  else if b < 30 * d ∧ d < 50 ∧ 30 < d then some .chainMetaModelDSSQP
  else if 30 * d ≤ b ∧ b < 300 * d ∧ d = 2 then some .sbplx
  else if 30 * d ≤ b ∧ b < 300 * d ∧ d < 15 then some .chainMetaModelDSSQP
  else if 300 * d ≤ b ∧ b < 3000 * d ∧ d < 30 then some .multiDS
  else none

/-- The common frame of `NgIoh21` (6574-6670) and `NgDS2` (6679-6773): `seq` is the inner part, `chain` what is returned for the remaining smooth
sequential problems. -/
def frame (v : Problem) (seq : Nat → Nat → Option Alg) (chain : Alg) : Sel :=
  if v.isArray && !v.continuous && !v.noise then .ok .discretePortfolio
  else if v.continuous && v.known (fun b => decide (2000 * v.dim < b)) && !v.noise then .ok .metaVLPCMA
  else
    let inner := if v.continuous && decide (v.workers = 1) && !v.noise then v.budget.bind (seq v.dim) else none
    match inner with
    | some a => .ok a
    | none =>
      if v.continuous && decide (v.workers = 1) && v.known (fun b => decide (b < 1000 * v.dim ∧ 20 * v.dim < b)) && !v.noise
          && decide (1 < v.dim ∧ v.dim < 100) then .ok chain
      else if v.continuous && decide (v.workers = 1) && v.known (fun b => decide (1000 * v.dim ≤ b)) && !v.noise
          && decide (1 < v.dim ∧ v.dim < 50) then .ok chain
      else if v.noise && (v.notSoftmax || !v.metrizable) then .ok (.known .recombiningPortfolio)
      else base v

/-- `NgIoh21._select_optimizer_cls` (6574-6670). -/
def ioh21 (v : Problem) : Sel := frame v ioh21Seq .carola2

/-- `NgDS2._select_optimizer_cls` (6677-6773). -/
def ds2 (v : Problem) : Sel :=
  if v.known (fun b => decide (v.dim < b)) then ioh21 v else frame v ds2Seq .ds2

/-- `NGDSRW._select_optimizer_cls` (6778-6786). `isRW` says whether `self` is an instance of `NGDSRW`: `super()` raises a TypeError otherwise.
Comparing a missing budget also raises a TypeError. -/
def dsrw (isRW : Bool) (v : Problem) : Sel :=
  let rest : Sel :=
    if v.known (fun b => decide (b < v.dim)) then ds2 v else .ofNG (select39 v.toEnv)
  if v.continuous && !v.noise then
    match v.budget with
    | none => .typeError
    | some b =>
      if 12 * v.dim ≤ b then
        if isRW then
          match select39 v.toEnv with
          | some a => .ok (.rwPortfolio a)
          | none => .assertionError
        else .typeError
      else rest
  else rest

/-- The last part of the three versions: `limit` is 3000 (`CSEC`, `CSEC10`: 7439-7472, 7540-7575) or 300 (`CSEC11`: 7640-7675), `many` the test on the
number of workers. -/
def csecTail (v : Problem) (limit : Nat) (many : Bool) : Sel :=
  if v.continuous && decide (v.workers = 1) && v.known (fun b => decide (limit * v.dim ≤ b)) && !v.noise
      && decide (1 < v.dim ∧ v.dim < 50) then ioh21 v
  else if v.continuous && decide (v.workers = 1) && v.known (fun b => decide (30 * v.dim ≤ b)) && !v.noise
      && decide (1 < v.dim ∧ v.dim < 50) then ioh4 v
  else if v.continuous && many && v.known (fun b => decide (30 * v.dim ≤ b)) && !v.noise && decide (1 < v.dim ∧ v.dim < 50) then .ok .ngDS3
  else ds2 v

/-- The real-world part of `CSEC10` and `CSEC11` (7491-7539, 7591-7639), `none` if nothing is returned. `num_workers < np.sqrt(1 + dimension)` is
`num_workers ** 2 < 1 + dimension`. -/
def csecHead (v : Problem) (b : Nat) : Option Sel :=
  if v.isArray && !v.continuous && !v.noise then some (.ok .geneticDE)
  else if v.realWorld && !v.hptuning && !v.neural && !v.metrizable then some (ds2 v)
  else if v.hasConstraints then some (.ok .ngLn)
  else if v.realWorld && !v.hptuning && !v.neural && v.continuous && !v.noise && decide (v.workers = 1 ∧ b < v.dim) then some (.ok .dsproba)
  else if v.realWorld && !v.hptuning && !v.neural && v.continuous && !v.noise && decide (v.workers ^ 2 < 1 + v.dim ∧ b < 8 * v.dim) then
    some (.ok (.known .lengler))
  else if v.realWorld && !v.hptuning && !v.neural && v.continuous then some (.ofNG (select39 v.toEnv))
  else if v.realWorld && v.neural && !v.funcDet && !v.enforceDet then some (.ok .noisyRL2)
  else if v.realWorld && v.neural && (v.funcDet || v.enforceDet) then some (.ok .sqopso)
  else if v.realWorld && !v.neural then some (dsrw false v)
  else none

/-- `CSEC10` and `CSEC11`, according to `limit`. -/
def csecN (limit : Nat) (v : Problem) : Sel :=
  match v.budget with
  | none => .assertionError
  | some b =>
    match csecHead v b with
    | some s => s
    | none => csecTail v limit v.overLog

/-- `CSEC11._select_optimizer_cls` (7580-7675); `NgIohTuned` (7679-7681). -/
def csec11 (v : Problem) : Sel := csecN 300 v

/-- `CSEC10._select_optimizer_cls` (7480-7575). -/
def csec10 (v : Problem) : Sel := csecN 3000 v

/-- `CSEC._select_optimizer_cls` (7437-7475); `num_workers > np.sqrt(budget)` is `budget < num_workers ** 2`. -/
def csec (v : Problem) : Sel := csecTail v 3000 (v.known (fun b => decide (b < v.workers ^ 2)))

/-- The algorithms marked `no_parallelization` (3466-3507, 3547-3568, 7386-7396, 6614, 6721; recastlib.py 523 for `NLOPT_LN_SBPLX` and `DSproba`).
`DS9` is not marked. -/
def Alg.sequential : Alg → Bool
  | .known a => a.sequential
  | .dsproba | .carola2 | .carola4 | .carola5 | .carola6 | .carola8 | .carola9 | .carola14 | .fcarola6 | .ds2 | .ds4 | .ds5 | .ds6 | .ds8 | .ds14
  | .metaModelFmin2 | .metaModelDS | .chainMetaModelSQP | .chainMetaModelDSSQP | .sbplx => true
  | _ => false

end Csec
end NG
