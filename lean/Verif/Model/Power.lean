import Mathlib.Algebra.Order.Field.Basic
import Mathlib.Data.List.Sort
import Mathlib.Analysis.SpecialFunctions.Trigonometric.Basic

/-!
# Model of the power system simulator

functions/powersystems/core.py. Numbers are exact, `none` is an exception, the random draws are parameters. The dispatch is over any ordered field, the whole
simulation over the reals.
-/

namespace NG
namespace Power

section dispatch

variable {α : Type*} [Field α] [LinearOrder α]

/-- The variables of a time step in `_simulate_power_system`. Used in `produce` (core.py 205-220). -/
structure Step (α : Type*) where
  stocks : List α
  hydro : List α
  cost : α
  marginal : α
  needed : α

/-- The loop on the plants (core.py 205-220). A plant is its price, its capacity and its dam index; `none` is a failed assertion. -/
def produce : List (α × α × Int) → Step α → Option (Step α)
  | [], s => some s
  | (price, capacity, dam) :: r, s =>
    if s.needed ≤ 0 then some s
    else
      let production := min capacity s.needed
      if 0 ≤ dam then
        let stocks := s.stocks.modify dam.toNat (fun v => v - production)
        match stocks[dam.toNat]? with
        | none => none
        | some v =>
          if -(1 / 10 ^ 7) ≤ v then
            produce r { s with stocks := stocks, hydro := s.hydro.modify dam.toNat (fun v => v + production), needed := s.needed - production }
          else none
      else
        produce r { s with
          cost := s.cost + production * price
          marginal := if 1 / 10 ^ 7 < production then price else s.marginal
          needed := s.needed - production }

/-- `order` (core.py 198): a stable sort of the indices. -/
def order (price : List α) : List Nat := (List.range price.length).insertionSort (fun i j => price[i]?.getD 0 ≤ price[j]?.getD 0)

/-- The plants in the order of their prices (core.py 188-201). The indices of dams are followed by -1. -/
def plants (damPrices stocks prices capacities : List α) : List (α × α × Int) :=
  let price := damPrices ++ prices
  let capacity := stocks ++ capacities
  let dam := (List.range stocks.length).map Int.ofNat ++ List.replicate price.length (-1)
  (order price).map (fun i => (price[i]?.getD 0, capacity[i]?.getD 0, dam[i]?.getD (-1)))

/-- The dispatch of a time step (core.py 188-226), from the prices of the dams, the stocks after the rain and the consumption. -/
def dispatch (damPrices stocks prices capacities : List α) (failure cost consumption : α) : Option (Step α) :=
  if (damPrices ++ prices).length = stocks.length + capacities.length then
    (produce (plants damPrices stocks prices capacities)
      { stocks := stocks, hydro := List.replicate stocks.length 0, cost := cost, marginal := 0, needed := consumption }).map fun s =>
        { s with cost := s.cost + failure * s.needed, marginal := if 1 / 10 ^ 7 < s.needed then failure else s.marginal }
  else none

end dispatch

/-- A matrix of an `Agent`, with its entries row by row. Used in `Agent` (core.py 20-52). -/
structure Layer where
  rows : Nat
  cols : Nat
  data : List ℝ

/-- `np.zeros((rows, cols))`. Used in `Agent.make` (core.py 24-32). -/
def Layer.zeros (rows cols : Nat) : Layer := ⟨rows, cols, List.replicate (rows * cols) 0⟩

/-- `layer.size`. Used in `Agent.dimension` (core.py 34-36). -/
def Layer.size (l : Layer) : Nat := l.rows * l.cols

/-- `layer @ data`. Used in `forward` (core.py 49-52). -/
def Layer.apply (l : Layer) (x : List ℝ) : Option (List ℝ) :=
  if x.length = l.cols then
    some ((List.range l.rows).map fun i => (List.zipWith (fun a b => a * b) ((l.data.drop (i * l.cols)).take l.cols) x).sum)
  else none

/-- `Agent` (core.py 20-52). -/
structure Agent where
  inputSize : Nat
  outputSize : Nat
  layers : List Layer

/-- `Agent.__init__` (core.py 24-32). -/
def Agent.make (inputSize outputSize : Nat) (layers : Nat := 3) (layerWidth : Nat := 14) : Option Agent :=
  if 2 ≤ layers then
    some ⟨inputSize, outputSize,
      Layer.zeros layerWidth inputSize :: List.replicate (layers - 2) (Layer.zeros layerWidth layerWidth) ++ [Layer.zeros outputSize layerWidth]⟩
  else none

/-- `Agent.dimension` (core.py 34-36). -/
def Agent.dimension (a : Agent) : Nat := (a.layers.map Layer.size).sum

/-- The loop of `Agent.set_parameters` (core.py 41-45). -/
def distribute (weights : List ℝ) : Nat → List Layer → List Layer
  | _, [] => []
  | start, l :: r => { l with data := (weights.drop start).take l.size } :: distribute weights (start + l.size) r

/-- `Agent.set_parameters` (core.py 38-47). -/
def Agent.setParameters (a : Agent) (weights : List ℝ) : Option Agent :=
  if weights.length = a.dimension then some { a with layers := distribute weights 0 a.layers } else none

/-- The loop of `Agent.get_output` (core.py 49-52). -/
noncomputable def forward : List Layer → List ℝ → Option (List ℝ)
  | [], _ => none
  | [l], x => l.apply x
  | l :: r, x => (l.apply x).bind fun y => forward r (y.map Real.tanh)

/-- `Agent.get_output` (core.py 49-52). -/
noncomputable def Agent.getOutput (a : Agent) (x : List ℝ) : Option (List ℝ) := forward a.layers x

/-- The attributes of `PowerSystem` (core.py 84-117). `steps` is `int(365 * 24 * num_years)`. -/
structure Sys where
  numDams : Nat
  yearToDay : ℝ
  constantToYear : ℝ
  backToNormal : ℝ
  noise : ℝ
  numThermal : Nat
  steps : Nat
  failure : ℝ
  capacities : List ℝ
  prices : List ℝ
  agents : List Agent

/-- `PowerSystem.__init__` (core.py 84-121), with the draws of the capacities and of the prices. The parametrization is not modelled. -/
def Sys.make (numDams depth width : Nat) (yearToDay constantToYear backToNormal noise : ℝ) (numThermal steps : Nat) (failure : ℝ)
    (drawCapacity drawPrice : List ℝ) : Option Sys :=
  (List.replicate numDams (Agent.make (10 + numDams + 2 * numThermal) depth width)).mapM id |>.map fun agents =>
    { numDams, yearToDay, constantToYear, backToNormal, noise, numThermal, steps, failure, agents
      capacities := drawCapacity.map (fun u => constantToYear * yearToDay * u), prices := drawPrice }

/-- `base_consumption` (core.py 152-156). -/
noncomputable def Sys.base (s : Sys) (t : Nat) : ℝ :=
  s.constantToYear * s.yearToDay + 0.5 * s.yearToDay * (1 + Real.cos (2 * Real.pi * t / (24 * 365))) + 0.5 * (1 + Real.cos (2 * Real.pi * t / 24))

/-- `consumption` (core.py 158-166), from the previous one. -/
noncomputable def Sys.consumption (s : Sys) (t : Nat) (before draw : ℝ) : ℝ :=
  if t = 0 then s.base t else max 0 (before + s.noise * (draw - 0.5) + s.backToNormal * (s.base t - before))

/-- The inputs of the agents (core.py 172-185). -/
noncomputable def Sys.inputs (s : Sys) (t : Nat) (needed : ℝ) (stocks : List ℝ) : List ℝ :=
  [Real.cos (2 * Real.pi * t / 24), Real.sin (2 * Real.pi * t / 24), Real.cos (2 * Real.pi * t / (365 * 24)), Real.sin (2 * Real.pi * t / (365 * 24)),
    needed, s.constantToYear * s.yearToDay, s.yearToDay, s.constantToYear, s.backToNormal, s.noise] ++ s.capacities ++ s.prices ++ stocks

/-- The rain (core.py 140, 150). -/
noncomputable def rain (t : Nat) (draws stocks : List ℝ) : List ℝ :=
  List.zipWith (fun v w => v + w) stocks (draws.mapIdx fun i u => 0.5 * (1 + Real.cos (2 * Real.pi * t / (24 * 365) + Real.cos i)) * u)

/-- The variables of the simulation that survive a time step, with the logs. Used in `Sys.step` (core.py 147-228). -/
structure State where
  stocks : List ℝ
  cost : ℝ
  consumption : ℝ
  hydroLog : List (List ℝ)
  consumptionLog : List ℝ
  marginalLog : List ℝ

/-- A time step (core.py 147-228). -/
noncomputable def Sys.step (s : Sys) (t : Nat) (draws : List ℝ) (draw : ℝ) (st : State) : Option State :=
  let stocks := rain t draws st.stocks
  let consumption := s.consumption t st.consumption draw
  (s.agents.mapM fun (a : Agent) => (a.getOutput (s.inputs t consumption stocks)).bind List.head?).bind fun damPrices =>
    (dispatch damPrices stocks s.prices s.capacities s.failure st.cost consumption).map fun r =>
      { stocks := r.stocks, cost := r.cost, consumption := consumption, hydroLog := st.hydroLog ++ [r.hydro],
        consumptionLog := st.consumptionLog ++ [consumption], marginalLog := st.marginalLog ++ [r.marginal] }

/-- The loop on time steps (core.py 136-228). -/
noncomputable def Sys.run (s : Sys) (draws : Nat → List ℝ) (draw : Nat → ℝ) : Nat → Option State
  | 0 => some ⟨List.replicate s.numDams 0, 0, 0, [], [], []⟩
  | t + 1 => (s.run draws draw t).bind (s.step t (draws t) (draw t))

/-- `_simulate_power_system` (core.py 126-235): the cost and the logs. -/
noncomputable def Sys.simulate (s : Sys) (arrays : List (List ℝ)) (draws : Nat → List ℝ) (draw : Nat → ℝ) : Option State :=
  ((s.agents.zip arrays).mapM fun (p : Agent × List ℝ) => p.1.setParameters p.2).bind fun agents =>
    { s with agents := agents ++ s.agents.drop agents.length }.run draws draw s.steps

/-- `block24` (core.py 252-258): averages of the successive days. -/
noncomputable def block24 (x : List ℝ) : List ℝ :=
  (List.range ((x.length + 23) / 24)).map fun i => ((x.drop (24 * i)).take 24).sum / ((x.drop (24 * i)).take 24).length

/-- `deblock24` (core.py 260-264). -/
noncomputable def deblock24 (x : List ℝ) : List ℝ :=
  (List.range 24).map fun h => (((List.range x.length).filter fun i => i % 24 = h).map fun i => x[i]?.getD 0 / 24).sum

end Power
end NG
