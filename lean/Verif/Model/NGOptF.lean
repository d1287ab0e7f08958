import Mathlib.Data.Rat.Defs
import Mathlib.Algebra.Order.Ring.Rat

/-!
# The tables of NGOptF, NGOptF2, NGOptF3 and NGOptF5 (nevergrad/optimization/optimizerlib.py 4385-4806)

Optimizers are their names. `budget / dimension` and the distances are exact (floating-point numbers in python).
-/

namespace NG
namespace NGOptF

/-- A line `best[d][nod] += [name]`. Used in `recommend` (optimizerlib.py 4402-4459). -/
structure Entry where
  d : Nat
  nod : ℚ
  name : String
  deriving DecidableEq

/-- The names of one dimension, by ratio, in order of insertion (an inner `defaultdict(list)`). Used in `nearest` (optimizerlib.py 4452-4458). -/
abbrev Row := List (ℚ × List String)

/-- `row[nod] += [name]`. Built on `Row` (optimizerlib.py 4452-4458). -/
def addRow (nod : ℚ) (name : String) : Row → Row
  | [] => [(nod, [name])]
  | (n, l) :: r => if n = nod then (n, l ++ [name]) :: r else (n, l) :: addRow nod name r

/-- `best[d][nod] += [name]`: dictionaries keep the order of insertion. Used in `build` (optimizerlib.py 4402-4459). -/
def addEntry (e : Entry) : List (Nat × Row) → List (Nat × Row)
  | [] => [(e.d, addRow e.nod e.name [])]
  | (d, r) :: t => if d = e.d then (d, addRow e.nod e.name r) :: t else (d, r) :: addEntry e t

/-- `best` after all lines. Used in `recommend` (optimizerlib.py 4402-4459). -/
def build (es : List Entry) : List (Nat × Row) := es.foldl (fun t e => addEntry e t) []

/-- `(d - d1) ** 2 + (nod - nod2) ** 2`. Used in `scan` (optimizerlib.py 4453-4458). -/
def dist (d : Nat) (nod : ℚ) (d1 : Nat) (nod2 : ℚ) : ℚ := ((d : ℚ) - d1) ^ 2 + (nod - nod2) ^ 2

/-- One pass of the inner loop (4453-4458); `none` is the initial `inf`. -/
def scan (d : Nat) (nod : ℚ) (acc : Option (ℚ × List String)) (d1 : Nat) (c : ℚ × List String) : Option (ℚ × List String) :=
  match acc with
  | none => some (dist d nod d1 c.1, c.2)
  | some (b, l) => if dist d nod d1 c.1 < b then some (dist d nod d1 c.1, c.2) else some (b, l)

/-- The two loops (4452-4458). -/
def nearest (d : Nat) (nod : ℚ) (t : List (Nat × Row)) : Option (ℚ × List String) :=
  t.foldl (fun acc row => row.2.foldl (fun acc c => scan d nod acc row.1 c) acc) none

/-- `recommend_method` (4402-4459), on the table `es`. -/
def recommend (es : List Entry) (d : Nat) (nod : ℚ) : Option (List String) := (nearest d nod (build es)).map (·.2)

/-- `max(set(List), key=List.count)`: the first name of greatest count in the order of iteration of the set, which is `order` (4542-4543). -/
def mostFrequent (order l : List String) : Option String :=
  order.foldl (fun acc a => match acc with
    | none => some a
    | some b => if l.count b < l.count a then some a else some b) none

/-- What `_select_optimizer_cls` returns. Used in `select` (optimizerlib.py 4461-4472). -/
inductive Choice where
  | portfolio (names : List String)
  | single (name : String)
  | sqpcma
  | geneticPortfolio
  | parent
  | typeError
  | zeroDivision
  | unbound
  deriving DecidableEq

/-- The optimizer at the time of selection. Used in `select` (optimizerlib.py 4461-4472). -/
structure Setting where
  continuous : Bool
  noisy : Bool
  budget : Option Nat
  dimension : Nat
  workers : Nat

/-- Lines 4461-4472 (`NGOptF`), 4534-4550 (`NGOptF2`), same for `NGOptF3`, `NGOptF5`: `finish` is the last step, on the remaining names. `noPara` is
the flag `no_parallelization` of the registered optimizers. Without a budget `self.budget / self.dimension` raises; `unbound` is the
UnboundLocalError of an empty table. -/
def select (es : List Entry) (noPara : String → Bool) (finish : List String → Choice) (s : Setting) : Choice :=
  if s.continuous && !s.noisy then
    match s.budget with
    | none => .typeError
    | some b =>
      if s.dimension = 0 then .zeroDivision else
      match recommend es s.dimension ((b : ℚ) / s.dimension) with
      | none => .unbound
      | some algs =>
        if 1 < s.workers then
          let algs := algs.filter (fun a => !noPara a)
          if algs.length = 0 then .sqpcma else finish algs
        else finish algs
  else if s.continuous && !s.noisy then
    match s.budget with
    | none => .typeError
    | some b => if 12 * s.dimension ≤ b then .geneticPortfolio else .parent
  else .parent

/-- `NGOptF` (4465): all of them. -/
def finishAll (algs : List String) : Choice := .portfolio algs

/-- `NGOptF2`, `NGOptF3`, `NGOptF5` (4545): the most frequent one; `order` is the order of iteration of a set, which depends on the hash seed. -/
def finishOne (order : List String → List String) (algs : List String) : Choice :=
  match mostFrequent (order algs) algs with
  | none => .typeError
  | some a => .single a

/-- `NGOptRW` (4385-4393): the conditions are evaluated from left to right. -/
def selectRW (s : Setting) : Choice :=
  if s.continuous && !s.noisy then
    match s.budget with
    | none => .typeError
    | some b => if 12 * s.dimension ≤ b then .geneticPortfolio else .parent
  else .parent

/-- The table of `NGOptF` (4403-4451, same in `NGOptF2`, 4482-4530). -/
def tableF : List Entry := [
  ⟨12, 833333 / 1000, "MemeticDE"⟩,
  ⟨12, 833333 / 10000, "MemeticDE"⟩,
  ⟨12, 833333 / 100000, "RealSpacePSO"⟩,
  ⟨12, 833333 / 1000000, "CauchyOnePlusOne"⟩,
  ⟨12, 833333 / 1000, "VLPCMA"⟩,
  ⟨12, 833333 / 10000, "NLOPT_LN_SBPLX"⟩,
  ⟨12, 833333 / 100000, "NLOPT_LN_SBPLX"⟩,
  ⟨12, 833333 / 1000000, "NLOPT_LN_SBPLX"⟩,
  ⟨12, 833333 / 1000, "VLPCMA"⟩,
  ⟨12, 833333 / 10000, "MemeticDE"⟩,
  ⟨12, 833333 / 100000, "SMAC3"⟩,
  ⟨12, 833333 / 1000000, "Cobyla"⟩,
  ⟨24, 416667 / 1000, "VLPCMA"⟩,
  ⟨24, 416667 / 10000, "Wiz"⟩,
  ⟨24, 416667 / 100000, "NLOPT_LN_SBPLX"⟩,
  ⟨24, 416667 / 1000000, "Cobyla"⟩,
  ⟨24, 416667 / 1000, "NLOPT_LN_SBPLX"⟩,
  ⟨24, 416667 / 10000, "Wiz"⟩,
  ⟨24, 416667 / 100000, "NLOPT_LN_SBPLX"⟩,
  ⟨24, 416667 / 1000000, "NLOPT_LN_SBPLX"⟩,
  ⟨24, 416667 / 1000, "ChainDiagonalCMAPowell"⟩,
  ⟨24, 416667 / 10000, "NLOPT_LN_SBPLX"⟩,
  ⟨24, 416667 / 100000, "QORealSpacePSO"⟩,
  ⟨24, 416667 / 1000000, "Cobyla"⟩,
  ⟨2, 5000, "NGOpt16"⟩,
  ⟨2, 500, "LhsDE"⟩,
  ⟨2, 50, "SODE"⟩,
  ⟨2, 5, "Carola2"⟩,
  ⟨2, 5000, "MetaModelQODE"⟩,
  ⟨2, 500, "MetaModelQODE"⟩,
  ⟨2, 50, "PCABO"⟩,
  ⟨2, 5, "HammersleySearchPlusMiddlePoint"⟩,
  ⟨2, 5000, "QORealSpacePSO"⟩,
  ⟨2, 500, "ChainDiagonalCMAPowell"⟩,
  ⟨2, 50, "MetaModelQODE"⟩,
  ⟨2, 5, "Cobyla"⟩,
  ⟨5, 2000, "MemeticDE"⟩,
  ⟨5, 200, "MemeticDE"⟩,
  ⟨5, 20, "LhsDE"⟩,
  ⟨5, 2, "MultiSQP"⟩,
  ⟨5, 2000, "MemeticDE"⟩,
  ⟨5, 200, "LhsDE"⟩,
  ⟨5, 20, "LhsDE"⟩,
  ⟨5, 2, "NLOPT_LN_SBPLX"⟩,
  ⟨5, 2000, "LhsDE"⟩,
  ⟨5, 200, "VLPCMA"⟩,
  ⟨5, 20, "BayesOptimBO"⟩,
  ⟨5, 2, "NLOPT_LN_SBPLX"⟩,
  ⟨96, 104167 / 1000000, "PCABO"⟩]

/-- The table of `NGOptF3` (4565-4648). -/
def tableF3 : List Entry := [
  ⟨12, 833333 / 1000, "MemeticDE"⟩,
  ⟨12, 833333 / 10000, "NGOptRW"⟩,
  ⟨12, 833333 / 100000, "RealSpacePSO"⟩,
  ⟨12, 833333 / 1000000, "ASCMADEthird"⟩,
  ⟨12, 833333 / 100, "GeneticDE"⟩,
  ⟨12, 833333 / 1000, "TripleCMA"⟩,
  ⟨12, 833333 / 10000, "NLOPT_LN_SBPLX"⟩,
  ⟨12, 833333 / 100000, "NLOPT_LN_SBPLX"⟩,
  ⟨12, 833333 / 1000000, "NLOPT_LN_SBPLX"⟩,
  ⟨12, 833333 / 100, "GeneticDE"⟩,
  ⟨12, 833333 / 1000, "VLPCMA"⟩,
  ⟨12, 833333 / 10000, "MemeticDE"⟩,
  ⟨12, 833333 / 100000, "SMAC3"⟩,
  ⟨12, 833333 / 1000000, "Cobyla"⟩,
  ⟨24, 416667 / 1000, "VLPCMA"⟩,
  ⟨24, 416667 / 10000, "Wiz"⟩,
  ⟨24, 416667 / 100000, "NLOPT_LN_SBPLX"⟩,
  ⟨24, 416667 / 1000000, "Cobyla"⟩,
  ⟨24, 416667 / 100, "NGOptF"⟩,
  ⟨24, 416667 / 1000, "NLOPT_LN_SBPLX"⟩,
  ⟨24, 416667 / 10000, "ChainNaiveTBPSAPowell"⟩,
  ⟨24, 416667 / 100000, "NLOPT_LN_SBPLX"⟩,
  ⟨24, 416667 / 1000000, "NLOPT_LN_NELDERMEAD"⟩,
  ⟨24, 416667 / 100, "Carola1"⟩,
  ⟨24, 416667 / 1000, "ChainDiagonalCMAPowell"⟩,
  ⟨24, 416667 / 10000, "NLOPT_LN_SBPLX"⟩,
  ⟨24, 416667 / 100000, "NLOPT_GN_CRS2_LM"⟩,
  ⟨24, 416667 / 1000000, "Cobyla"⟩,
  ⟨2, 500000, "NGOptF2"⟩,
  ⟨2, 50000, "NeuralMetaModelDE"⟩,
  ⟨2, 5000, "ASCMADEthird"⟩,
  ⟨2, 500, "LQODE"⟩,
  ⟨2, 50, "SODE"⟩,
  ⟨2, 5, "Carola2"⟩,
  ⟨2, 500000, "NLOPT_GN_CRS2_LM"⟩,
  ⟨2, 50000, "NGOptF2"⟩,
  ⟨2, 5000, "MetaModelQODE"⟩,
  ⟨2, 500, "MetaModelQODE"⟩,
  ⟨2, 50, "PCABO"⟩,
  ⟨2, 5, "HammersleySearchPlusMiddlePoint"⟩,
  ⟨2, 500000, "NGOptF"⟩,
  ⟨2, 50000, "NGOptF"⟩,
  ⟨2, 5000, "LQODE"⟩,
  ⟨2, 500, "ChainDiagonalCMAPowell"⟩,
  ⟨2, 50, "NLOPT_GN_DIRECT"⟩,
  ⟨2, 5, "Cobyla"⟩,
  ⟨48, 208333 / 10000, "RLSOnePlusOne"⟩,
  ⟨48, 208333 / 100000, "NGOptF"⟩,
  ⟨48, 208333 / 1000000, "NGOptF2"⟩,
  ⟨48, 208333 / 1000, "MetaModelQODE"⟩,
  ⟨48, 208333 / 10000, "DiscreteLengler2OnePlusOne"⟩,
  ⟨48, 208333 / 100000, "NGOptF"⟩,
  ⟨48, 208333 / 1000000, "NGOptF2"⟩,
  ⟨48, 208333 / 100, "NGOptF2"⟩,
  ⟨48, 208333 / 1000, "ChainNaiveTBPSAPowell"⟩,
  ⟨48, 208333 / 10000, "ChainNaiveTBPSAPowell"⟩,
  ⟨48, 208333 / 100000, "NLOPT_LN_NELDERMEAD"⟩,
  ⟨48, 208333 / 1000000, "BOBYQA"⟩,
  ⟨5, 20000, "NGOptF"⟩,
  ⟨5, 2000, "MemeticDE"⟩,
  ⟨5, 200, "TwoPointsDE"⟩,
  ⟨5, 20, "NGOptF2"⟩,
  ⟨5, 2, "MultiSQP"⟩,
  ⟨5, 20000, "CmaFmin2"⟩,
  ⟨5, 2000, "DiscreteDE"⟩,
  ⟨5, 200, "LhsDE"⟩,
  ⟨5, 20, "SMAC3"⟩,
  ⟨5, 2, "NLOPT_LN_SBPLX"⟩,
  ⟨5, 200000, "LQODE"⟩,
  ⟨5, 20000, "NGOptF"⟩,
  ⟨5, 2000, "LhsDE"⟩,
  ⟨5, 200, "FCMA"⟩,
  ⟨5, 20, "SMAC3"⟩,
  ⟨5, 2, "NLOPT_LN_SBPLX"⟩,
  ⟨96, 104167 / 10000, "Carola2"⟩,
  ⟨96, 104167 / 100000, "ChainDiagonalCMAPowell"⟩,
  ⟨96, 104167 / 1000000, "MetaModelQODE"⟩,
  ⟨96, 104167 / 10000, "NGOpt8"⟩,
  ⟨96, 104167 / 100000, "ChoiceBase"⟩,
  ⟨96, 104167 / 1000000, "Carola1"⟩,
  ⟨96, 104167 / 1000, "NGOptF"⟩,
  ⟨96, 104167 / 10000, "CMandAS3"⟩,
  ⟨96, 104167 / 100000, "ASCMADEthird"⟩,
  ⟨96, 104167 / 1000000, "CMAtuning"⟩]

/-- The table of `NGOptF5` (4683-4781). -/
def tableF5 : List Entry := [
  ⟨12, 833333 / 100, "DiscreteDE"⟩,
  ⟨12, 833333 / 1000, "DiscreteDE"⟩,
  ⟨12, 833333 / 10000, "MetaModelDE"⟩,
  ⟨12, 833333 / 100000, "NGOpt"⟩,
  ⟨12, 833333 / 1000000, "NLOPT_GN_DIRECT_L"⟩,
  ⟨12, 833333 / 10, "RPowell"⟩,
  ⟨12, 833333 / 100, "DiscreteDE"⟩,
  ⟨12, 833333 / 1000, "NLOPT_GN_ISRES"⟩,
  ⟨12, 833333 / 10000, "SMAC3"⟩,
  ⟨12, 833333 / 100000, "NGOpt"⟩,
  ⟨12, 833333 / 1000000, "NLOPT_LN_SBPLX"⟩,
  ⟨12, 833333 / 10, "NGOptBase"⟩,
  ⟨12, 833333 / 100, "RPowell"⟩,
  ⟨12, 833333 / 1000, "ChainMetaModelPowell"⟩,
  ⟨12, 833333 / 10000, "RotatedTwoPointsDE"⟩,
  ⟨12, 833333 / 100000, "NGOpt39"⟩,
  ⟨12, 833333 / 1000000, "NLOPT_LN_NEWUOA_BOUND"⟩,
  ⟨24, 416667 / 100, "CmaFmin2"⟩,
  ⟨24, 416667 / 1000, "CmaFmin2"⟩,
  ⟨24, 416667 / 10000, "CmaFmin2"⟩,
  ⟨24, 416667 / 100000, "NLOPT_LN_SBPLX"⟩,
  ⟨24, 416667 / 1000000, "Cobyla"⟩,
  ⟨24, 416667 / 10, "MultiCMA"⟩,
  ⟨24, 416667 / 100, "CmaFmin2"⟩,
  ⟨24, 416667 / 1000, "RotatedTwoPointsDE"⟩,
  ⟨24, 416667 / 10000, "CmaFmin2"⟩,
  ⟨24, 416667 / 100000, "pysot"⟩,
  ⟨24, 416667 / 1000000, "NLOPT_LN_NELDERMEAD"⟩,
  ⟨24, 416667 / 10, "MultiCMA"⟩,
  ⟨24, 416667 / 100, "Shiwa"⟩,
  ⟨24, 416667 / 1000, "CmaFmin2"⟩,
  ⟨24, 416667 / 10000, "NLOPT_GN_CRS2_LM"⟩,
  ⟨24, 416667 / 100000, "NLOPT_GN_CRS2_LM"⟩,
  ⟨24, 416667 / 1000000, "Cobyla"⟩,
  ⟨2, 500000, "BAR"⟩,
  ⟨2, 50000, "ASCMADEthird"⟩,
  ⟨2, 5000, "ChainMetaModelPowell"⟩,
  ⟨2, 500, "DiscreteDE"⟩,
  ⟨2, 50, "RFMetaModelOnePlusOne"⟩,
  ⟨2, 5, "Carola2"⟩,
  ⟨2, 500000, "BAR3"⟩,
  ⟨2, 50000, "ChainCMAPowell"⟩,
  ⟨2, 5000, "ASCMADEthird"⟩,
  ⟨2, 500, "NeuralMetaModelTwoPointsDE"⟩,
  ⟨2, 50, "CMandAS2"⟩,
  ⟨2, 5, "NaiveTBPSA"⟩,
  ⟨2, 500000, "BAR"⟩,
  ⟨2, 50000, "ASCMADEthird"⟩,
  ⟨2, 5000, "CM"⟩,
  ⟨2, 500, "ChainDiagonalCMAPowell"⟩,
  ⟨2, 50, "Powell"⟩,
  ⟨2, 5, "Cobyla"⟩,
  ⟨48, 208333 / 1000, "DiscreteDE"⟩,
  ⟨48, 208333 / 10000, "pysot"⟩,
  ⟨48, 208333 / 100000, "MultiCobyla"⟩,
  ⟨48, 208333 / 1000000, "NLOPT_LN_NELDERMEAD"⟩,
  ⟨48, 208333 / 100, "RPowell"⟩,
  ⟨48, 208333 / 1000, "CmaFmin2"⟩,
  ⟨48, 208333 / 10000, "RPowell"⟩,
  ⟨48, 208333 / 100000, "pysot"⟩,
  ⟨48, 208333 / 1000000, "BOBYQA"⟩,
  ⟨48, 208333 / 10, "MetaModelTwoPointsDE"⟩,
  ⟨48, 208333 / 100, "RPowell"⟩,
  ⟨48, 208333 / 1000, "DiscreteDE"⟩,
  ⟨48, 208333 / 10000, "ChainNaiveTBPSACMAPowell"⟩,
  ⟨48, 208333 / 100000, "NLOPT_LN_BOBYQA"⟩,
  ⟨48, 208333 / 1000000, "BOBYQA"⟩,
  ⟨5, 200000, "RescaledCMA"⟩,
  ⟨5, 20000, "RFMetaModelDE"⟩,
  ⟨5, 2000, "DiscreteDE"⟩,
  ⟨5, 200, "TwoPointsDE"⟩,
  ⟨5, 20, "NGOpt39"⟩,
  ⟨5, 2, "OnePlusLambda"⟩,
  ⟨5, 200000, "BAR"⟩,
  ⟨5, 20000, "ChainNaiveTBPSACMAPowell"⟩,
  ⟨5, 2000, "CmaFmin2"⟩,
  ⟨5, 200, "RotatedTwoPointsDE"⟩,
  ⟨5, 20, "pysot"⟩,
  ⟨5, 2, "NLOPT_LN_SBPLX"⟩,
  ⟨5, 200000, "ASCMADEthird"⟩,
  ⟨5, 20000, "ASCMADEthird"⟩,
  ⟨5, 2000, "QOTPDE"⟩,
  ⟨5, 200, "NGOpt10"⟩,
  ⟨5, 20, "LQODE"⟩,
  ⟨5, 2, "NLOPT_LN_SBPLX"⟩,
  ⟨96, 104167 / 1000, "NGOptF"⟩,
  ⟨96, 104167 / 10000, "NGOpt4"⟩,
  ⟨96, 104167 / 100000, "RPowell"⟩,
  ⟨96, 104167 / 1000000, "ASCMADEthird"⟩,
  ⟨96, 104167 / 100, "NLOPT_LN_NELDERMEAD"⟩,
  ⟨96, 104167 / 1000, "RPowell"⟩,
  ⟨96, 104167 / 10000, "NGOpt8"⟩,
  ⟨96, 104167 / 100000, "RPowell"⟩,
  ⟨96, 104167 / 1000000, "NLOPT_LN_NELDERMEAD"⟩,
  ⟨96, 104167 / 100, "CMandAS3"⟩,
  ⟨96, 104167 / 1000, "Powell"⟩,
  ⟨96, 104167 / 10000, "NGOptBase"⟩,
  ⟨96, 104167 / 100000, "Powell"⟩,
  ⟨96, 104167 / 1000000, "NLOPT_LN_NELDERMEAD"⟩]

end NGOptF
end NG
