import Verif.Model.PopSize
import Mathlib.Analysis.SpecialFunctions.Log.Basic
import Mathlib.Algebra.Order.Monoid.WithTop
import Mathlib.Data.List.Sort
import Mathlib.LinearAlgebra.Matrix.PosDef

/-!
# Models of TBPSA, EDA and EMNA

`EDA` and its variants (optimization/optimizerlib.py 1071-1142, 1206-1218), `_TBPSA` (1221-1295) and `_EMNA` (3633-3765). Points are their
standardized data, functions from the coordinates `ι`; data which was set is assumed to read back unchanged. Random draws are parameters. The
raw loss of a candidate (`candidate.loss`, base.py 389) can be minus infinity (`⊥`); the loss given to the optimizer also contains penalties
(base.py 397-418). Arithmetic is exact. The spawning of children from the parents (for the heritage) is not followed, only the list of the
parents.
-/

namespace NG
namespace Eda

variable {ι : Type} {σ : Type}

/-- A candidate: `candidate.loss`, its data and `_meta["sigma"]`. Used in `ranked` (optimizerlib.py 1123, 1278, 3712). -/
structure Cand (ι σ : Type) where
  loss : WithBot ℝ
  data : ι → ℝ
  sigma : σ

/-- `sorted(self.children, key=base._loss)` (1123, 1278, 3712). -/
noncomputable def ranked (l : List (Cand ι σ)) : List (Cand ι σ) := l.insertionSort (fun a b => a.loss ≤ b.loss)

/-- `sum(arrays) / mu` (1136, 1283-1288, 3716-3721). -/
noncomputable def centre (mu : Nat) (l : List (Cand ι σ)) (i : ι) : ℝ := (l.map (fun c => c.data i)).sum / mu

open Classical in
/-- `np.exp(sum(np.log(sigmas)) / mu)` (1137, 1289): the logarithm of 0 is minus infinity, whose exponential is 0. -/
noncomputable def geo (mu : Nat) (l : List ℝ) : ℝ := if (0 : ℝ) ∈ l then 0 else Real.exp ((l.map Real.log).sum / mu)

/-- `_POPSIZE_ADAPTATION` and `_COVARIANCE_MEMORY` (1077-1078); TBPSA adapts the size and has no covariance. -/
structure Cfg where
  adaptive : Bool
  memory : Bool
  pop : PopSize.Cfg

/-- State of EDA (1083-1095) or of TBPSA (1238-1251), which has no covariance. Parents are `none` for the parametrization. -/
structure St (ι : Type) where
  pop : PopSize.St
  centre : ι → ℝ
  sigma : ℝ
  cov : Matrix ι ι ℝ
  parents : List (Option (Cand ι ℝ))
  children : List (Cand ι ℝ)

/-- The constructor: `size` is the dimension, or `initial_popsize` for TBPSA. Built on `St` (optimizerlib.py 1083-1095). -/
def start [DecidableEq ι] (size workers : Nat) : St ι :=
  { pop := PopSize.start (4 * size) size workers
    centre := fun _ => 0
    sigma := 1
    cov := 1
    parents := [none]
    children := [] }

/-- `centered_arrays.T.dot(centered_arrays)` (1129-1130). -/
def scatter (c : ι → ℝ) (l : List (Cand ι σ)) : Matrix ι ι ℝ :=
  Matrix.of (fun i j => (l.map (fun x => (x.data i - c i) * (x.data j - c j))).sum)

/-- Lines 1123-1139 of EDA, 1277-1289 of TBPSA: the new generation. -/
noncomputable def generation (cfg : Cfg) (s : St ι) : St ι :=
  { s with
    cov := (if cfg.memory then (9 / 10 : ℝ) else 0) • s.cov +
      (1 - (if cfg.memory then (9 / 10 : ℝ) else 0)) • scatter s.centre ((ranked s.children).take s.pop.mu)
    centre := centre s.pop.mu ((ranked s.children).take s.pop.mu)
    sigma := geo s.pop.mu (((ranked s.children).take s.pop.mu).map Cand.sigma)
    parents := ((ranked s.children).take s.pop.mu).map some
    children := [] }

/-- `_internal_tell_candidate` of EDA (1118-1139) and of TBPSA (1273-1289). -/
noncomputable def tell (cfg : Cfg) (c : Cand ι ℝ) (loss : Option ℝ) (s : St ι) : St ι :=
  if (if cfg.adaptive then PopSize.add cfg.pop loss s.pop else s.pop).lam ≤ s.children.length + 1 then
    generation cfg { s with pop := if cfg.adaptive then PopSize.add cfg.pop loss s.pop else s.pop, children := s.children ++ [c] }
  else { s with pop := if cfg.adaptive then PopSize.add cfg.pop loss s.pop else s.pop, children := s.children ++ [c] }

variable [Fintype ι]

/-- The step-size of a new point (1103 of EDA and 1264 of TBPSA). -/
noncomputable def mutated (g : ℝ) (s : St ι) : ℝ := s.sigma * Real.exp (g / Real.sqrt (Fintype.card ι))

/-- `_internal_ask_candidate` of TBPSA (1263-1271): data and step-size. -/
noncomputable def ask (g : ℝ) (z : ι → ℝ) (s : St ι) : (ι → ℝ) × ℝ := (fun i => s.centre i + mutated g s * z i, mutated g s)

/-- The step-size guessed for a point which was not asked (TBPSA, 1292-1293). -/
noncomputable def guess (data : ι → ℝ) (s : St ι) : ℝ :=
  Real.sqrt (Finset.univ.sum (fun i => (data i - s.centre i) ^ 2)) / Real.sqrt (Fintype.card ι)

/-- `_internal_tell_not_asked` of TBPSA (1291-1295). -/
noncomputable def tellForeign (cfg : Cfg) (raw : WithBot ℝ) (data : ι → ℝ) (loss : Option ℝ) (s : St ι) : St ι :=
  tell cfg ⟨raw, data, guess data s⟩ loss s

/-- One call by a user of TBPSA; points asked are told by their index, in any order. Used in `step` (optimizerlib.py 1291-1295). -/
inductive Op (ι : Type) where
  | ask (g : ℝ) (z : ι → ℝ)
  | tell (i : Nat) (raw : WithBot ℝ) (loss : Option ℝ)
  | foreign (raw : WithBot ℝ) (data : ι → ℝ) (loss : Option ℝ)

/-- A session: the optimizer and the points asked so far. Used in `step` (optimizerlib.py 1291-1295). -/
structure Session (ι : Type) where
  st : St ι
  asked : List ((ι → ℝ) × ℝ)

/-- One call. Built on `tellForeign` (optimizerlib.py 1291-1295). -/
noncomputable def step (cfg : Cfg) (s : Session ι) : Op ι → Session ι
  | .ask g z => { s with asked := s.asked ++ [ask g z s.st] }
  | .tell i raw loss =>
    match s.asked[i]? with
    | some c => { s with st := tell cfg ⟨raw, c.1, c.2⟩ loss s.st }
    | none => s
  | .foreign raw data loss => { s with st := tellForeign cfg raw data loss s.st }

/-- A sequence of calls. Built on `Cfg` (optimizerlib.py 1077-1078). -/
noncomputable def run (cfg : Cfg) (s : Session ι) (ops : List (Op ι)) : Session ι := ops.foldl (step cfg) s

end Eda

/-! ## EMNA -/

namespace Emna

open Eda (Cand ranked centre geo)

variable {ι : Type}

/-- Step-sizes: a number or one number per coordinate (3654-3660). -/
inductive Sigma (ι : Type) where
  | one (s : ℝ)
  | axes (s : ι → ℝ)

/-- The number, if it is one. Built on `Sigma` (optimizerlib.py 3654-3660). -/
def Sigma.one? : Sigma ι → Option ℝ
  | .one s => some s
  | .axes _ => none

/-- The numbers, if there is one per coordinate. Built on `Sigma` (optimizerlib.py 3654-3660). -/
def Sigma.axes? : Sigma ι → Option (ι → ℝ)
  | .one _ => none
  | .axes s => some s

/-- Sizes of the population for the non-adaptive variant (3665-3671): `mu` and `llambda`. -/
def sizes (dim workers : Nat) (budget : Option Nat) : Nat × Nat :=
  match budget with
  | some b =>
    if b < max (4 * max 16 dim) workers then (b / 4, b) else (max 16 dim, max (4 * max 16 dim) workers)
  | none => (max 16 dim, max (4 * max 16 dim) workers)

/-- `isotropic`, `population_size_adaptation`, and what the controller needs. Used in `tellForeign` (optimizerlib.py 1291-1295). -/
structure Cfg where
  isotropic : Bool
  adaptive : Bool
  pop : PopSize.Cfg

/-- State (3649-3679). -/
structure St (ι : Type) where
  pop : PopSize.St
  centre : ι → ℝ
  sigma : Sigma ι
  children : List (Cand ι (Sigma ι))

variable [Fintype ι]

/-- The constructor (3649-3679) without adaptation. -/
def start (isotropic : Bool) (workers : Nat) (budget : Option Nat) : St ι :=
  { pop := { mu := (sizes (Fintype.card ι) workers budget).1, lam := (sizes (Fintype.card ι) workers budget).2 }
    centre := fun _ => 0
    sigma := if isotropic then .one 1 else .axes (fun _ => 1)
    children := [] }

/-- `np.sum(stdd, axis=0)`: squared deviations of one coordinate (3747-3756). -/
def sumSq {σ : Type} (c : ι → ℝ) (parents : List (Cand ι σ)) (i : ι) : ℝ := (parents.map (fun p => (p.data i - c i) ^ 2)).sum

/-- The update without adaptation (3747-3758): the sum is over the parents if `isotropic`, over parents and coordinates otherwise. -/
noncomputable def update {σ : Type} (isotropic : Bool) (mu : Nat) (c : ι → ℝ) (parents : List (Cand ι σ)) : Sigma ι :=
  if isotropic then .axes (fun i => Real.sqrt (sumSq c parents i / (mu * Fintype.card ι)))
  else .one (Real.sqrt (Finset.univ.sum (sumSq c parents) / mu))

/-- The update with adaptation and a large population (3734-3744): the sum is over parents and coordinates. -/
noncomputable def updateLarge {σ : Type} (isotropic : Bool) (mu : Nat) (c : ι → ℝ) (parents : List (Cand ι σ)) : Sigma ι :=
  .one (Real.sqrt (Finset.univ.sum (sumSq c parents) / (mu * (if isotropic then Fintype.card ι else 1))))

/-- The update with adaptation and a small population (3726-3732). Numbers are summed; for arrays the sum is over the parents if `isotropic`, over
everything otherwise; a list with both cannot be made an array (`ValueError`). -/
noncomputable def updateSmall (isotropic : Bool) (mu : Nat) (parents : List (Cand ι (Sigma ι))) : Option (Sigma ι) :=
  match (parents.map (fun p => p.sigma.one?)).mapM id, (parents.map (fun p => p.sigma.axes?)).mapM id with
  | some l, _ => some (.one (geo mu l))
  | none, some l =>
    if isotropic then some (.axes (fun i => geo mu (l.map (fun s => s i))))
    else some (.one (geo mu (l.flatMap (fun s => Finset.univ.toList.map s))))
  | none, none => none

/-- Lines 3760-3762: `max(1, (log(llambda) / 2) ** (1 / dimension))`. -/
noncomputable def imp (dim lam : Nat) : ℝ := max 1 ((Real.log lam / 2) ^ ((1 : ℝ) / dim))

/-- Line 3762. -/
noncomputable def Sigma.div : Sigma ι → ℝ → Sigma ι
  | .one s, d => .one (s / d)
  | .axes s, d => .axes (fun i => s i / d)

/-- Lines 3722-3762. -/
noncomputable def newSigma (cfg : Cfg) (mu lam : Nat) (c : ι → ℝ) (parents : List (Cand ι (Sigma ι))) : Option (Sigma ι) :=
  (if cfg.adaptive then
      (if lam < 8 * Fintype.card ι then updateSmall cfg.isotropic mu parents else some (updateLarge cfg.isotropic mu c parents))
    else some (update cfg.isotropic mu c parents)).map
    (fun s => if 32 * Fintype.card ι < cfg.pop.workers then s.div (imp (Fintype.card ι) lam) else s)

/-- Lines 3711-3762: the new generation. -/
noncomputable def generation (cfg : Cfg) (s : St ι) : Option (St ι) :=
  if s.pop.mu = 0 then none
  else
    (newSigma cfg s.pop.mu s.pop.lam (centre s.pop.mu ((ranked s.children).take s.pop.mu)) ((ranked s.children).take s.pop.mu)).map
      (fun sigma => { s with centre := centre s.pop.mu ((ranked s.children).take s.pop.mu), sigma := sigma, children := [] })

/-- `_internal_tell_candidate` (3706-3762); `none` when it raises (a division by zero without parents, or arrays and numbers mixed). -/
noncomputable def tell (cfg : Cfg) (c : Cand ι (Sigma ι)) (loss : Option ℝ) (s : St ι) : Option (St ι) :=
  if (if cfg.adaptive then PopSize.add cfg.pop loss s.pop else s.pop).lam ≤ s.children.length + 1 then
    generation cfg { s with pop := if cfg.adaptive then PopSize.add cfg.pop loss s.pop else s.pop, children := s.children ++ [c] }
  else some { s with pop := if cfg.adaptive then PopSize.add cfg.pop loss s.pop else s.pop, children := s.children ++ [c] }

/-- The step-size along a coordinate, as used by `ask` (3692-3698). -/
def Sigma.at : Sigma ι → ι → ℝ
  | .one s, _ => s
  | .axes s, i => s i

end Emna
end NG
