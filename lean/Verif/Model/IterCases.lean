import Verif.Model.InitRecord

/-!
# Model of the cases of a benchmark

`FarOptimumFunction` (functions/functionlib.py 322-362) and `PBT` (functions/pbt.py 15-43, 120-129): `itercases`, the initialization as far as descriptors and upper bounds are concerned, and
the check of the loss in experiments (benchmark/xpbase.py 34-40, 274-280). What the functions compute is in `Model/FarOptimum.lean` and `Model/Pbt.lean`.
-/

namespace NG
namespace IterCases

open InitRec

/-- `itertools.product` and `dict(zip(keys, s))` (functionlib.py 359-361, pbt.py 126-128) for options in the order of their keys: the last option changes first. -/
def product : List (String × List Val) → List Dict
  | [] => [[]]
  | (k, vs) :: opts => vs.flatMap fun v => (product opts).map fun c => (k, v) :: c

/-- A Python Boolean as a number. Used in `farArgs` (functionlib.py 322-329). -/
def flag (b : Bool) : Val := .num (if b then 1 else 0)

/-- The options of `FarOptimumFunction.itercases` (functionlib.py 352-358) in the order of their keys. -/
def farOptions : List (String × List Val) :=
  [("independent_sigma", [flag true, flag false]), ("multiobjective", [flag true, flag false]), ("mutable_sigma", [flag true, flag false]),
    ("optimum", [.tup [.inr (4 / 5), .inr 1], .tup [.inr 80, .inr 100], .tup [.inr (4 / 5), .inr 100]]), ("recombination", [.str "average", .str "crossover"])]

/-- The options of `PBT.itercases` (pbt.py 122-125) in the order of their keys: lists. -/
def pbtOptions : List (String × List Val) :=
  [("dimensions", [.lst [.inr 2, .inr 2, .inr 2, .inr 2], .lst [.inr 5, .inr 5, .inr 5, .inr 5], .lst [.inr 77, .inr 77, .inr 77, .inr 77]]),
    ("names", [.lst [.inl "sphere", .inl "cigar", .inl "ellipsoid", .inl "cigar"], .lst [.inl "hm", .inl "rastrigin", .inl "sphere", .inl "cigar"]])]

/-- The signature of `FarOptimumFunction.__init__` (functionlib.py 322-329). -/
def farSig : List (String × Option Val) :=
  [("independent_sigma", some (flag true)), ("mutable_sigma", some (flag true)), ("multiobjective", some (flag false)),
    ("recombination", some (.str "crossover")), ("optimum", some (.tup [.inr 80, .inr 100]))]

/-- The signature of `PBT.__init__` (pbt.py 15-20). -/
def pbtSig : List (String × Option Val) :=
  [("names", some (.tup [.inl "sphere", .inl "cigar", .inl "ellipsoid"])), ("dimensions", some (.tup [.inr 7, .inr 7, .inr 7])), ("num_workers", some (.num 10))]

/-- A loss, used in `assertSingle` (xpbase.py 35-36): a number or an array. -/
inductive Loss where
  | number (q : ℚ)
  | array (l : List ℚ)
deriving DecidableEq, Repr

/-- An experiment function with its upper bounds and whether its function gives an array. Used in `far` (functionlib.py 330-339). -/
structure Func where
  inst : Inst
  upper : Option (List ℚ)
  array : Bool
deriving DecidableEq, Repr

/-- `ExperimentFunction.__init__` (functions/base.py 76-92): it sets the upper bounds to `None` (87), whatever they were before (`old`). -/
def superInit (_old : Option (List ℚ)) (cls : String) (args : Dict) (array : Bool) : Func :=
  { inst := create cls args .own "", upper := none, array := array }

/-- The numbers of a tuple, `np.array(optimum, dtype=float)` (functionlib.py 331). -/
def numbers : Val → Option (List ℚ)
  | .tup l | .lst l => l.mapM fun i => match i with | .inl _ => none | .inr q => some q
  | _ => none

/-- `FarOptimumFunction(**kw)` (functionlib.py 322-339); `none` when something is raised. The bounds are set (338) before the call of the base class (339). The mutations are not modelled. -/
def far (kw : Dict) : Option Func := do
  let args ← callargs farSig [] kw
  let recombination ← args.lookup "recombination"
  let optimum ← (args.lookup "optimum").bind numbers
  let multi ← args.lookup "multiobjective"
  if recombination = .str "crossover" ∨ recombination = .str "average" then
    let bounds := if multi = flag true then some (optimum.map fun x => 2 * x) else none
    some (superInit bounds "FarOptimumFunction" args (decide (multi = flag true)))
  else none

/-- The elements of a tuple or list. Used in `pbt` (pbt.py 21-28). -/
def items : Val → Option (List Item)
  | .tup l | .lst l => some l
  | _ => none

/-- `PBT(**kw)` (pbt.py 15-43); `known` is the registry of functions; `none` when something is raised. -/
def pbt (known : Item → Bool) (kw : Dict) : Option Func := do
  let args ← callargs pbtSig [] kw
  let names ← (args.lookup "names").bind items
  let dims ← (args.lookup "dimensions").bind items
  if names.all known ∧ names.length = dims.length then some (superInit none "PBT" args false) else none

/-- `_assert_singleobjective_callback` (xpbase.py 35-40): whether it raises, for the number of tells and the loss. -/
def assertSingle (numTell : Nat) : Loss → Bool
  | .number _ => false
  | .array _ => decide (numTell ≤ 1)

/-- Whether the first tell of a loss in an experiment raises (xpbase.py 277-280): the callback is registered if there are no upper bounds. -/
def firstTellRaises (f : Func) (loss : Loss) : Bool := f.upper.isNone && assertSingle 0 loss

end IterCases
end NG
