import Mathlib.Analysis.Real.Sqrt
import Mathlib.Algebra.BigOperators.Fin

/-!
# The yabbob family of experiment plans

`nevergrad/benchmark/experiments.py`: `yabbob` (1485-1750) and its variants (1750-1997), the
constraints `_Constraint` (640-659), the smooth random constraints made in `yabbob` (1678-1703) and
`refactor_optims` (57-593).

Not modelled: the functions and optimizers themselves (they are names here), the shuffled list
returned by `get_optimizers` (it is overwritten; only the seed it takes counts), floating point.
-/

namespace NG.Yabbob

/-- The arguments of `yabbob` (experiments.py 1487-1502), with their defaults. -/
structure Flags where
  parallel : Bool := false
  big : Bool := false
  small : Bool := false
  noise : Bool := false
  hd : Bool := false
  constraintCase : Int := 0
  split : Bool := false
  tuning : Bool := false
  reduction : Nat := 1
  bounded : Bool := false
  box : Bool := false
  maxConstraints : Nat := 4
  mega : Nat := 0
deriving DecidableEq

/-- The arguments of one `ArtificialFunction` (experiments.py 1646-1654). -/
structure Fn where
  name : String
  rotation : Bool
  blocks : Nat
  d : Nat
  noiseLevel : Nat
  split : Bool
  bounded : Bool
deriving DecidableEq

/-- A constraint: a `_Constraint` with its name and `as_bool`, or one of the random ones of
`make_ctr` with its number (experiments.py 1673-1703). -/
inductive Ctr
  | plain (name : String) (asBool : Bool)
  | smooth (i : Nat)
deriving DecidableEq

/-- experiments.py 1512-1525: the names, in order. -/
def names : List String :=
  ["hm", "rastrigin", "griewank", "rosenbrock", "ackley", "lunacek", "deceptivemultimodal",
    "bucherastrigin", "multipeak"] ++
  ["sphere", "doublelinearslope", "stepdoublelinearslope"] ++
  ["cigar", "altcigar", "ellipsoid", "altellipsoid", "stepellipsoid", "discus", "bentcigar"] ++
  ["deceptiveillcond", "deceptivemultimodal", "deceptivepath"]

/-- experiments.py 1530-1534: the noise level. -/
def noiseLevel (f : Flags) : Nat :=
  if f.noise then (if f.hd then 100000 else 100) else 0

/-- experiments.py 1657: the numbers of blocks. -/
def blocks (f : Flags) : List Nat := if !f.split then [1] else [7, 12]

/-- experiments.py 1658-1666: the dimensions of a block. -/
def dims (f : Flags) : List Nat :=
  if f.hd then [100, 1000, 3000]
  else if f.tuning then [2, 5, 10, 15]
  else if f.bounded then [40]
  else if f.noise then [2, 3, 5, 10, 15, 20, 50] else [2, 10, 50]

/-- experiments.py 1645-1667: the comprehension that makes the functions. -/
def allFunctions (f : Flags) : List Fn :=
  names.flatMap fun name => [true, false].flatMap fun rotation => (blocks f).flatMap fun nb =>
    (dims f).map fun d =>
      { name := name, rotation := rotation, blocks := nb, d := d, noiseLevel := noiseLevel f,
        split := f.split, bounded := f.bounded || f.box }

/-- Skips `c` elements, takes one, then skips `k - 1` before each of the next. Used in `every` (experiments.py 1669-1670). -/
def everyFrom {α : Type} (k : Nat) : Nat → List α → List α
  | _, [] => []
  | 0, x :: l => x :: everyFrom k (k - 1) l
  | c + 1, _ :: l => everyFrom k c l

/-- Python's `l[::k]` for a positive step. Used in `functions` (experiments.py 1669-1670). -/
def every {α : Type} (k : Nat) (l : List α) : List α := everyFrom k 0 l

/-- experiments.py 1669-1670: the assertion and the reduction; `none` is the failed assertion. -/
def functions (f : Flags) : Option (List Fn) :=
  if f.reduction ∈ [1, 7, 13, 17] then some (every f.reduction (allFunctions f)) else none

/-- experiments.py 1673-1677 and 1678-1703: the list of constraints. -/
def constraints (f : Flags) : List Ctr :=
  if 0 < f.mega then (List.range f.mega).map Ctr.smooth
  else [false, true].flatMap fun b =>
    ["sum", "diff", "second_diff", "ball"].map fun n => Ctr.plain n b

/-- experiments.py 1681: `max_num_constraints` is replaced for the smooth ones. -/
def maxNum (f : Flags) : Nat := if 0 < f.mega then f.mega else f.maxConstraints

/-- experiments.py 1682: the case becomes a penalized one for the smooth constraints. -/
def case (f : Flags) : Int := if 0 < f.mega then -|f.constraintCase| else f.constraintCase

/-- experiments.py 1705-1707: the assertion about the case. -/
def caseOk (f : Flags) : Bool :=
  decide ((case f).natAbs < (constraints f).length + maxNum f)

/-- experiments.py 1714-1716: `constraints[max(0, |case| - max_num) : |case|]`. -/
def window (f : Flags) : List Ctr :=
  ((constraints f).take (case f).natAbs).drop ((case f).natAbs - maxNum f)

/-- A function together with the constraints it got: the cheap ones, registered on its
parametrization, and the penalized ones, stored in `constraint_violation`. A function that the loop
does not visit keeps the empty list set by its initialization (functionlib.py 165). -/
structure FnC where
  fn : Fn
  cheap : List Ctr := []
  penalized : List Ctr := []
deriving DecidableEq

/-- experiments.py 1711-1722: the constraints given to one visited function. -/
def giveTo (f : Flags) (g : Fn) : FnC :=
  { fn := g
    cheap := if 0 < case f then window f else []
    penalized := if case f < 0 then window f else [] }

/-- experiments.py 1708-1722: the loop over `functions[:: 13 if abs(case) > 0 else 1]`; `i` is
the position in the list. -/
def addConstraints (f : Flags) : Nat → List Fn → List FnC
  | _, [] => []
  | i, g :: l =>
    (if i % (if 0 < (case f).natAbs then 13 else 1) = 0 then giveTo f g else { fn := g }) ::
      addConstraints f (i + 1) l

/-- experiments.py 1724-1732: the budgets. -/
def budgets (f : Flags) : List Nat :=
  let b := if f.big && !f.noise then [40000, 80000, 160000, 320000]
    else if !f.noise then [50, 200, 800, 3200, 12800] else [3200, 12800, 51200, 102400]
  let b := if f.small && !f.noise then [10, 20, 40] else b
  if f.bounded then [10, 20, 40, 100, 300] else b

/-- One experiment (experiments.py 1737-1746). -/
structure Xp where
  fn : FnC
  optim : String
  workers : Nat
  budget : Nat
  seed : Option Nat
  hasConstraints : Bool
deriving DecidableEq

/-- experiments.py 1737-1749: one turn of the innermost loop. The seed is taken from the generator
(`n` is the number of seeds taken so far) whether or not the experiment is kept. -/
def turn (seedg : Nat → Option Nat) (incoherent : Xp → Bool) (f : Flags) (optim : String) (g : FnC)
    (n : Nat) (budget : Nat) : List Xp :=
  let xp : Xp :=
    { fn := g, optim := optim, workers := if f.parallel then 100 else 1, budget := budget,
      seed := seedg n, hasConstraints := decide (case f ≠ 0) }
  if incoherent xp then [] else [xp]

/-- experiments.py 1736: the loop over the budgets, with the number of seeds taken. -/
def overBudgets (seedg : Nat → Option Nat) (incoherent : Xp → Bool) (f : Flags) (optim : String)
    (g : FnC) : Nat → List Nat → List Xp × Nat
  | n, [] => ([], n)
  | n, b :: l =>
    let r := overBudgets seedg incoherent f optim g (n + 1) l
    (turn seedg incoherent f optim g n b ++ r.1, r.2)

/-- experiments.py 1735: the loop over the functions. -/
def overFunctions (seedg : Nat → Option Nat) (incoherent : Xp → Bool) (f : Flags) (optim : String) :
    Nat → List FnC → List Xp × Nat
  | n, [] => ([], n)
  | n, g :: l =>
    let p := overBudgets seedg incoherent f optim g n (budgets f)
    let r := overFunctions seedg incoherent f optim p.2 l
    (p.1 ++ r.1, r.2)

/-- experiments.py 1734: the loop over the optimizers. -/
def overOptims (seedg : Nat → Option Nat) (incoherent : Xp → Bool) (f : Flags) (fns : List FnC) :
    Nat → List String → List Xp × Nat
  | n, [] => ([], n)
  | n, o :: l =>
    let p := overFunctions seedg incoherent f o n fns
    let r := overOptims seedg incoherent f fns p.2 l
    (p.1 ++ r.1, r.2)

/-- The entries of the table `algos` of `refactor_optims` for two benchmarks of the family
(experiments.py 250-257, 426-433); the other entries are left out. -/
def algos (benchmark : String) : Option (List String) :=
  if benchmark = "yabbob" then
    some ["CMA", "ChainMetaModelSQP", "MetaModel", "MetaModelOnePlusOne", "NeuralMetaModel",
      "OnePlusOne"]
  else if benchmark = "yatinybbob" then
    some ["Cobyla", "DE", "MetaModel", "MetaModelDE", "MetaModelOnePlusOne", "TwoPointsDE"]
  else none

/-- experiments.py 443-593: what `refactor_optims` returns, from the table and the name of the
calling function; the given list is not read. -/
def refactorOptims (table : String → Option (List String)) (caller : String)
    (_given : List String) : List String :=
  match table caller with
  | some l => l.take 5 ++ ["CSEC10", "NGOpt", "NLOPT_LN_SBPLX"]
  | none => ["NgDS3", "NgIoh4", "NgIoh21", "NGOpt", "NGDSRW"]

/-- The seeds taken before the loop: one by `get_optimizers("oneshot", ...)` and, in high dimension,
one by `get_optimizers("splitters", ...)` (experiments.py 1555, 1587). -/
def seedsBefore (f : Flags) : Nat := (if f.hd then 1 else 0) + 1

/-- experiments.py 1485-1749: the plan; `none` is a failed assertion. All the variants reach
`refactor_optims` from `yabbob`, which is the name the function reads from the stack (444). The
list given to it is `["SQOPSO"]` (1644). -/
def yabbob (table : String → Option (List String)) (incoherent : Xp → Bool)
    (seedg : Nat → Option Nat) (f : Flags) : Option (List Xp) :=
  match functions f with
  | none => none
  | some fns =>
    if caseOk f then
      some (overOptims seedg incoherent f (addConstraints f 0 fns) (seedsBefore f)
        (refactorOptims table "yabbob" ["SQOPSO"])).1
    else none

/-- A plan made of slices chained one after the other, each with a generator made from the same
seed (experiments.py 1779-1781 for instance). -/
def chain (table : String → Option (List String)) (incoherent : Xp → Bool)
    (seedg : Nat → Option Nat) (slices : List Flags) : Option (List Xp) :=
  match slices with
  | [] => some []
  | f :: l =>
    match yabbob table incoherent seedg f, chain table incoherent seedg l with
    | some a, some b => some (a ++ b)
    | _, _ => none

/-- xpbase.py 118-134: the seeds; without a seed they are all `None`. -/
def seedGenerator (draws : Nat → Nat → Nat) : Option Nat → Nat → Option Nat
  | none, _ => none
  | some s, n => some (draws s n)

/-- The slices of the plans, by name (experiments.py 1750-1997). The mega plans, and those that
only differ in a flag, are given by one or two of them each. -/
def slices (plan : String) : List Flags :=
  if plan = "yabbob" then [{}]
  else if plan = "yahdlbbbob" then [{ hd := true, small := true }]
  else if plan = "reduced_yahdlbbbob" then [{ hd := true, small := true, reduction := 17 }]
  else if plan = "yanoisysplitbbob" then [{ noise := true, split := true }]
  else if plan = "yahdnoisysplitbbob" then [{ hd := true, noise := true, split := true }]
  else if plan = "yaconstrainedbbob" then
    [1, 2, 3, 4, 5, 6, 7].map fun i : Int => { constraintCase := i }
  else if plan = "yapenbbob" then
    [1, 2, 3, 4, 5, 6, 7].map fun i : Int => { constraintCase := -i }
  else if plan = "yaonepenbbob" then
    [1, 2, 3, 4, 5, 6, 7].map fun i : Int => { constraintCase := -i, maxConstraints := 1 }
  else if plan = "yamegapenbbob" then
    [1, 2, 3, 4, 5, 6].map fun _ : Int => { constraintCase := -1, mega := 1000 }
  else if plan = "yahdnoisybbob" then [{ hd := true, noise := true }]
  else if plan = "yabigbbob" then [{ big := true }]
  else if plan = "yasplitbbob" then [{ split := true }]
  else if plan = "yahdsplitbbob" then [{ hd := true, split := true }]
  else if plan = "yatuningbbob" then [{ small := true, reduction := 13, tuning := true }]
  else if plan = "yatinybbob" then [{ small := true, reduction := 13 }]
  else if plan = "yasmallbbob" then [{ small := true }]
  else if plan = "yahdbbob" then [{ hd := true }]
  else if plan = "yaparabbob" then [{ parallel := true }]
  else if plan = "yanoisybbob" then [{ noise := true }]
  else if plan = "yaboundedbbob" then [{ bounded := true }]
  else if plan = "yaboxbbob" then [{ box := true }]
  else []

/-! ## The constraints themselves -/

/-- `data[::2]` and `data[1::2]`. Used in `value` (experiments.py 645-658). -/
def evens {R : Type} (l : List R) : List R := every 2 l
/-- `data[1::2]`. Used in `value` (experiments.py 645-658). -/
def odds {R : Type} (l : List R) : List R := every 2 (l.drop 1)

/-- experiments.py 645-658: the value of a `_Constraint` before `as_bool`; `root` is the square
root of the length; `none` is the unknown name. -/
def value {R : Type} [Ring R] (root : R) (name : String) (data : List R) : Option R :=
  if name = "sum" then some data.sum
  else if name = "diff" then some ((evens data).sum - (odds data).sum)
  else if name = "second_diff" then some (2 * (odds data).sum - 3 * (evens data).sum)
  else if name = "ball" then some ((data.map fun x => x ^ 2).sum - data.length - root)
  else none

/-- What a constraint returns: a boolean or a number. Used in `answer` (experiments.py 659). -/
inductive Answer (R : Type)
  | bool (b : Bool)
  | num (x : R)
deriving DecidableEq

/-- experiments.py 659: the answer. -/
def answer {R : Type} [Zero R] [LT R] [DecidableLT R] (asBool : Bool) (v : R) : Answer R :=
  if asBool then .bool (decide (0 < v)) else .num v

/-- parametrization/utils.py 269-277, `float_penalty`: a cheap constraint is met when the boolean is true or
the number is not negative. -/
def cheapOk {R : Type} [Zero R] [LE R] [DecidableLE R] : Answer R → Bool
  | .bool b => b
  | .num x => decide (0 ≤ x)

/-- xpbase.py 236-240: a constraint of the list `constraint_violation` is met when the value is not
positive (`true` counts as one). -/
def penalizedOk {R : Type} [Zero R] [LE R] [DecidableLE R] : Answer R → Bool
  | .bool b => !b
  | .num x => decide (x ≤ 0)

/-- experiments.py 1684-1699: the smooth constraint made by `make_ctr`, on the first `n`
coordinates (the others are cut); `s` is `xs`, `q` is `xfail`, `a` the exponential and `r` the
draws of the scales. -/
noncomputable def smooth {n : Nat} (a : ℝ) (r s q x : Fin n → ℝ) : ℝ :=
  a * Real.sqrt (∑ i, ((x i - s i) * r i) ^ 2) -
    ∑ i, (s i - q i) * (x i - (s i + q i) / 2)

end NG.Yabbob
