import Mathlib.Algebra.Order.Floor.Ring
import Mathlib.Order.WithBot
import Mathlib.Analysis.SpecialFunctions.Pow.Real

/-!
# Model of the adaptation rules of one-plus-one optimizers

`_OnePlusOne` (optimization/optimizerlib.py 90-524): what the mutation rates, step-sizes, rewards and the annealing base become as
losses are told. The mutations themselves are in `Model/Mutations.lean`. `prev` is `_previous_best_loss` (`⊤` before the first tell), set
at the end of each tell to the mean of the pessimistic best (505): it is an input here.
-/

namespace NG
namespace OnePlusOne

variable {α : Type} [Field α] [LinearOrder α]

/-- Lines 467-468. -/
def sigmaStep (sigma : α) (prev : WithTop α) (loss : α) : α :=
  if prev = (loss : WithTop α) then sigma
  else if (loss : WithTop α) < prev then sigma * 2 else sigma * (84 / 100)

/-- Lines 482-484 (`mutation="adaptive"`). -/
def adaptiveStep (mr : α) (prev : WithTop α) (loss : α) : α :=
  min 1 ((if (loss : WithTop α) ≤ prev then 12 / 10 else 731 / 1000) * mr)

/-- Line 343. -/
def adaptiveIntensity [FloorRing α] (mr : α) (dim : Nat) : Int := max 1 ⌊mr * dim⌋

/-- Lines 346-350 (`mutation="discreteBSO"`); `int` truncates towards zero but negative values end up at 1 all the same. -/
def bsoIntensity [FloorRing α] (dim numAsk budget : Nat) : Int :=
  if ⌊(dim : α) - numAsk * dim / budget⌋ < 1 then 1 else ⌊(dim : α) - numAsk * dim / budget⌋

/-- Lines 364-403 (`lengler` and variants): `alpha` is the constant of the variant. -/
noncomputable def lenglerIntensity (alpha : ℝ) (dim numAsk : Nat) : Int :=
  ⌊max 1 ((dim : ℝ) * (alpha * Real.log numAsk / numAsk))⌋

/-- `np.clip(x, low, high)`: minimum of `high` and the maximum of `x` and `low`. Used in `velocityStep` (optimizerlib.py 486-491). -/
def clip (x low high : α) : α := min (max x low) high

/-- Lines 486-491 (`mutation="coordinatewise_adaptive"`): the modified variables recorded are always all of them, since
`coordinatewise_mutation` rebinds its argument (mutations.py 110) instead of filling it. -/
def velocityStep (arity : Nat) (velocity : List α) (prev : WithTop α) (loss : α) : List α :=
  velocity.map (fun v => clip (v * (if (loss : WithTop α) < prev then 12 / 10 else 731 / 1000)) 1 ((arity : α) / 4))

/-! ## Log-normal mutation rates -/

/-- State of the lognormal mutations (197-231). -/
structure LogN (α : Type) where
  globalMr : α
  index : Nat := 0
  bestLoss : WithTop α := ⊤
  bestMr : α
deriving DecidableEq

/-- Lines 329-333: individual mutation rate; `e` is `exp(0.22 * randn())`, positive. -/
def individualRate (dim : Nat) (globalMr e : α) : α :=
  1 / (1 + ((1 - max ((1 / 10 : α) / dim) globalMr) / max ((1 / 10 : α) / dim) globalMr) * e)

/-- Lines 496-499. -/
def LogN.record (imr loss : α) (size : Nat) (s : LogN α) : LogN α :=
  if (loss : WithTop α) < s.bestLoss then { s with index := (s.index + 1) % size, bestLoss := loss, bestMr := imr }
  else { s with index := (s.index + 1) % size }

/-- Lines 496-503; `imr` is the rate of the told candidate (0.2 if it has none, 519-523). -/
def LogN.tell (imr loss : α) (size : Nat) (s : LogN α) : LogN α :=
  if (s.record imr loss size).index = 0 then { s.record imr loss size with globalMr := (s.record imr loss size).bestMr, bestLoss := ⊤ }
  else s.record imr loss size

/-! ## Doerr's adaptive rates -/

/-- Lines 247-255: the rates after 1 and 2. -/
def ratesLoop (dim : Nat) : Nat → Nat → Nat → List Nat
  | 0, _, _ => []
  | fuel + 1, i, j => if i < dim then i :: ratesLoop dim fuel (i + j) (j + 2) else []

/-- `_doerr_mutation_rates` (241-255). -/
def rates (dim : Nat) : List Nat := 1 :: 2 :: ratesLoop dim dim 3 2

/-- State (241-249): `index` is `none` for -1. -/
structure Doerr (α : Type) where
  rewards : Nat → α
  counters : Nat → α
  best : WithTop α
  index : Option Nat

/-- Initial state (242-249). -/
def Doerr.init : Doerr α := ⟨fun _ => 0, fun _ => 0, ⊤, none⟩

/-- `_doerr_gamma` (245). -/
def gamma (dim : Nat) : α := 1 - 2 / dim

/-- First index of the maximum of the rewards (411). -/
def greedy (rewards : Nat → α) (n : Nat) : Nat :=
  ((List.range n).find? (fun i => (List.range n).all (fun j => decide (rewards j ≤ rewards i)))).getD 0

/-- Lines 404-413: the index of the rate used and the new state; `none` for a failed assertion. `pick` is the index drawn when
`uniform() < epsilon`, `none` otherwise. The very first ask (261-264) does not come here. -/
def Doerr.ask (n : Nat) (pick : Option Nat) (s : Doerr α) : Option (Nat × Doerr α) :=
  match s.index with
  | some _ => none
  | none =>
    match pick with
    | some i => some (i, { s with index := some i })
    | none => some (greedy s.rewards n, s)

/-- Lines 469-479: a reward is updated; `none` for a division by zero. -/
def Doerr.learn (g : α) (i : Nat) (improvement : α) (s : Doerr α) : Option (Doerr α) :=
  if g * s.counters i + 1 = 0 then none
  else some { s with
    rewards := fun k => if k = i then (g * s.counters i * s.rewards i + improvement) / (g * s.counters i + 1) else s.rewards k
    counters := fun k => if k = i then g * s.counters k + 1 else g * s.counters k
    index := none }

/-- Lines 469-481. -/
def Doerr.tell (g : α) (loss : α) (s : Doerr α) : Option (Doerr α) :=
  match s.best, s.index with
  | some b, some i => (s.learn g i (max 0 (b - loss))).map (fun s' => { s' with best := min s'.best loss })
  | _, _ => some { s with best := min s.best loss }

/-! ## Annealing -/

/-- The schedules of lines 453-460. -/
inductive Schedule where
  | exp09
  | exp099
  | exp09Auto
  | lin100
  | lin1
  | linAuto
deriving DecidableEq, Repr

/-- Lines 453-461: the temperature. -/
noncomputable def temperature (sch : Schedule) (amplitude : ℝ) (numAsk budget : Nat) : ℝ :=
  match sch with
  | .exp09 => 33 / 100 * amplitude * (9 / 10) ^ numAsk
  | .exp099 => 33 / 100 * amplitude * (99 / 100) ^ numAsk
  | .exp09Auto => 33 / 100 * amplitude * ((1 / 1000 : ℝ) ^ (1 / (budget : ℝ))) ^ numAsk
  | .lin100 => 100 * amplitude * (1 - numAsk / (budget + 1))
  | .lin1 => 1 * amplitude * (1 - numAsk / (budget + 1))
  | .linAuto => 10 * amplitude * (1 - numAsk / (budget + 1))

/-- Lines 444-465: does the told point become the base? `prev` is finite here (the first told point is always taken: the difference is then
infinite); `u` is the uniform draw. -/
noncomputable def anneals (sch : Schedule) (maxLoss prev loss : ℝ) (numAsk budget : Nat) (u : ℝ) : Prop :=
  0 ≤ prev - loss ∨
    (numAsk < budget ∧ 0 < temperature sch (max 1 (max maxLoss loss - prev)) numAsk budget ∧
      u < Real.exp ((prev - loss) / temperature sch (max 1 (max maxLoss loss - prev)) numAsk budget))

end OnePlusOne
end NG
