import Mathlib.Analysis.SpecialFunctions.Pow.Real
import Verif.Model.Transforms

/-!
# Model of the bounds and scales of data parameters

`Data.bounds`, `set_bounds`, `set_mutation`, `_fix_legacy`, `sample` and the constructors of `Array`, `Scalar` and `Log` (`parametrization/data.py`), with the operations and bounds of
`parametrization/_datalayers.py`. One entry of an array is described; numbers are real, `none` is NaN. Not modelled: infinite values (0 has no logarithm here, `set_mutation` would store
-inf), bounds which are not positive together with an exponent, exponent 1, the methods arctan, tanh and gaussian, `Modulo` (see `Model/Transforms.lean`), products with 0, warnings, and the
list of constraints to which the method "constraint" appends a check.
-/

namespace NG
namespace Bnd

noncomputable section
open Classical

/-- A number, `none` for NaN. Used in `Op.fwd` (_datalayers.py 192, 206, 220, 235). -/
abbrev Num := Option ℝ

/-- The operations (_datalayers.py 180-235). -/
inductive Op where
  | add (c : ℝ)
  | mul (c : ℝ)
  | exp (base : ℝ)
  | pow (p : ℝ)

/-- `x ** p` for numpy floats: NaN for negative numbers unless `p` is an integer; 0 to a negative power is infinite. Used in `Op.fwd` (_datalayers.py 192, 206, 220, 235). -/
def power (x p : ℝ) : Num :=
  if 0 < x then some (x ^ p)
  else if x = 0 then (if p < 0 then none else some (x ^ p))
  else if ∃ k : ℤ, p = k then some (x ^ p) else none

/-- `forward` of the operations (_datalayers.py 192, 206, 220, 235). -/
def Op.fwd : Op → ℝ → Num
  | .add c, x => some (c + x)
  | .mul c, x => some (c * x)
  | .exp b, x => some (b ^ x)
  | .pow p, x => power x p

/-- `backward` of the operations (_datalayers.py 195, 209, 223, 238); the logarithm is NaN for negative numbers. -/
def Op.bwd : Op → ℝ → Num
  | .add c, v => some (v - c)
  | .mul c, v => some (v / c)
  | .exp b, v => if 0 < v then some (Real.log v / Real.log b) else none
  | .pow p, v => power v (1 / p)

/-- Methods of bounds: `Bound` with clipping or bouncing, or the plain `BoundLayer` of the method "constraint" (data.py 220-229). -/
inductive Method where
  | clip
  | bounce
  | constraint
deriving DecidableEq

/-- Layers between the root and the castings; `legacy` is `_LEGACY`. Used in `Lay.fwd` (_datalayers.py 167-168, 271-278). -/
inductive Lay where
  | op (o : Op) (legacy : Bool)
  | bound (lo hi : Option ℝ) (m : Method) (uniform legacy : Bool)

/-- Whether a layer was made by a deprecated method. Used in `fixLegacy` (data.py 388-434). -/
def Lay.legacy : Lay → Bool
  | .op _ l => l
  | .bound _ _ _ _ l => l

/-- `np.clip` with optional bounds. Used in `Lay.fwd` (_datalayers.py 167-168, 271-278). -/
def clip (lo hi : Option ℝ) (x : ℝ) : ℝ :=
  let x := match lo with | none => x | some l => max x l
  match hi with | none => x | some u => min x u

/-- `BoundChecker` (utils.py 35-52). -/
def Inside (lo hi : Option ℝ) (x : ℝ) : Prop := (∀ l, lo = some l → l ≤ x) ∧ (∀ u, hi = some u → x ≤ u)

/-- What the getter of a layer makes of the value below (_datalayers.py 167-168, 271-278, transforms.py 208-215). NaN stays NaN, since it passes the checks. -/
def Lay.fwd : Lay → Num → Num
  | _, none => none
  | .op o _, some x => o.fwd x
  | .bound _ _ .constraint _ _, some x => some x
  | .bound lo hi .clip _ _, some x => if Inside lo hi x then some x else some (clip lo hi x)
  | .bound lo hi .bounce _ _, some x => if Inside lo hi x then some x else some (clip lo hi (2 * clip lo hi x - x))

/-- What the setter of a layer sends to the layer below, `none` for a `ValueError` (_datalayers.py 170-171, 280-281, transforms.py 217-223). -/
def Lay.bwd : Lay → Num → Option Num
  | _, none => some none
  | .op o _, some v => some (o.bwd v)
  | .bound _ _ .constraint _ _, some v => some (some v)
  | .bound lo hi _ _ _, some v => if Inside lo hi v then some (some v) else none

/-- Whether a changed value is sent back below (_datalayers.py 274-277). -/
def Lay.refresh : Lay → Bool
  | .op _ _ => false
  | .bound _ _ m _ _ => m != .constraint

/-- The setters from the highest layer, the first of the list, to the root: the new `_value`. Built on `Lay.bwd` (_datalayers.py 170-171, 280-281). -/
def set : List Lay → Num → Option Num
  | [], v => some v
  | l :: ls, v => (l.bwd v).bind (set ls)

/-- The getters: the value and the `_value` afterwards. Built on `Lay.refresh` (_datalayers.py 274-277). -/
def get : List Lay → Num → Option (Num × Num)
  | [], r => some (r, r)
  | l :: ls, r => (get ls r).bind (fun p =>
      if l.refresh = true ∧ l.fwd p.1 ≠ p.1 then (set ls (l.fwd p.1)).map (fun r => (l.fwd p.1, r)) else some (l.fwd p.1, p.2))

/-- The `bounds` property (data.py 119-138), `none` for `None`: the bounds of the highest bound layer, sent through the operations above it. -/
def bounds : List Lay → Option Num × Option Num
  | [] => (none, none)
  | .bound lo hi _ _ _ :: _ => (lo.map some, hi.map some)
  | .op o l :: ls => ((bounds ls).1.map (Lay.op o l).fwd, (bounds ls).2.map (Lay.op o l).fwd)

/-- A data parameter: `_value`, the value of `sigma`, and the layers, the highest one first. Used in `callBound` (_datalayers.py 84-113). -/
structure P where
  root : Num
  sigma : ℝ
  layers : List Lay

/-- The kinds of exceptions. Used in `callBound` (_datalayers.py 84-113). -/
inductive Err where
  | value
  | attribute
  | runtime
deriving DecidableEq

/-- Reading `value`: the value and the parameter afterwards. Used in `callBound` (_datalayers.py 84-113). -/
def P.read (p : P) : Option (Num × P) := (get p.layers p.root).map (fun q => (q.1, { p with root := q.2 }))

/-- `p.value = v`. Used in `callBound` (_datalayers.py 84-113). -/
def P.assign (p : P) (v : Num) : Option P := (set p.layers v).map (fun r => { p with root := r })

/-- The constructor of `BoundLayer` (_datalayers.py 60-74): whether full range sampling is used, or an error. -/
def mkBound (lo hi : Option ℝ) (uniform : Option Bool) : Option Bool :=
  let both := lo.isSome && hi.isSome
  let u := uniform.getD both
  if u && !both then none
  else if ∃ l h, lo = some l ∧ hi = some h ∧ h ≤ l then none
  else some u

/-- `BoundLayer.__call__` in place (_datalayers.py 84-113): an error leaves the layer in place. -/
def callBound (p : P) (l : Lay) (lo hi : Option ℝ) : P × Option Err :=
  match p.read with
  | none => (p, some .value)
  | some (v, p) =>
    let q : P := { p with layers := l :: p.layers }
    match q.assign v with
    | none => (q, some .value)
    | some q =>
      match lo, hi with
      | some a, some b => if (set q.layers (some a)).isSome ∧ (set q.layers (some b)).isSome then (q, none) else (q, some .value)
      | _, _ => (q, none)

/-- The bounds of a legacy layer sent through `backward` of the other one (data.py 419-422), `none` for an `AttributeError`: a bound layer has no `backward` and an operation no `bounds`. -/
def backBounds (first second : Lay) : Option (Lay × Lay) :=
  let go := fun (b e : Lay) => match b, e with
    | .op _ _, _ => none
    | .bound lo hi m u l, .op (.exp base) l' =>
      some (Lay.bound (lo.map (fun x => Real.log x / Real.log base)) (hi.map (fun x => Real.log x / Real.log base)) m u l, Lay.op (.exp base) l')
    | .bound none none m u l, e => some (Lay.bound none none m u l, e)
    | .bound _ _ _ _ _, _ => none
  match first with
  | .op (.exp _) _ => go second first
  | _ => go first second

/-- The `Bound` built again in `_fix_legacy` (data.py 423-429): it is not marked as legacy; the layer of the method "constraint" is kept. -/
def rebuild : Lay → Option Lay
  | .op o l => some (.op o l)
  | .bound lo hi .constraint u l => some (.bound lo hi .constraint u l)
  | .bound lo hi m u _ => (mkBound lo hi (some u)).map (fun u => .bound lo hi m u false)

/-- `_fix_legacy` (data.py 388-434), with the parameter as it is after an exception. -/
def fixLegacy (p : P) : P × Option Err :=
  match p.layers.filter Lay.legacy with
  | [] => (p, none)
  | [_] => (p, none)
  | [second, first] =>
    match p.read with
    | none => (p, some .value)
    | some (v, p) =>
      -- the legacy layers are next to each other when nothing is between the first and the last of them
      if (((p.layers.dropWhile (fun l => !l.legacy)).drop 1).headD first).legacy = false then (p, some .runtime)
      else
        match ({ p with layers := p.layers.filter (fun l => !l.legacy) } : P).assign v with
        | none => ({ p with layers := p.layers.filter (fun l => !l.legacy) }, some .value)
        | some p =>
          match backBounds first second with
          | none => (p, some .attribute)
          | some (b, e) =>
            match rebuild b with
            | none => (p, some .value)
            | some b => ({ p with layers := e :: b :: p.layers }, none)
  | _ => (p, some .runtime)

/-- `set_bounds` (data.py 215-240). -/
def setBounds (p : P) (lo hi : Option ℝ) (m : Method) (full : Option Bool) : P × Option Err :=
  match p.read with
  | none => (p, some .value)
  | some (v, p) =>
    match mkBound lo hi full with
    | none => (p, some .value)
    | some u =>
      match callBound p (.bound lo hi m u true) lo hi with
      | (p, some e) => (p, some e)
      | (p, none) =>
        match fixLegacy p with
        | (p, some e) => (p, some e)
        | (p, none) =>
          match p.assign v with
          | none => (p, some .value)
          | some p => (p, none)

/-- `set_mutation(exponent=e)` (data.py 270-286). -/
def setExponent (p : P) (e : ℝ) : P × Option Err :=
  if e ≤ 0 then (p, some .value)
  else
    match p.read with
    | none => (p, some .value)
    | some (v, p) =>
      match fixLegacy { p with layers := .op (.exp e) true :: p.layers } with
      | (p, some er) => (p, some er)
      | (p, none) =>
        match p.assign v with
        | none => (p, some .value)
        | some p => (p, none)

/-- The operators of `Data` (data.py 344-385): a copy with one more operation. -/
def P.withOp (p : P) (o : Op) : P := { p with layers := .op o false :: p.layers }

/-- `set_standardized_data(x)` on a child (data.py 300-306): the parameter after its value was read. -/
def P.setStd (p : P) (x : ℝ) : Option (Num × P) := ({ p with root := p.root.map (fun r => p.sigma * (x + r / p.sigma)) } : P).read

/-- `Scalar(init, lower=, upper=)` (data.py 461-479). -/
def scalar (init lo hi : Option ℝ) : P × Option Err :=
  let init' := match init, lo, hi with
    | some x, _, _ => x
    | none, some l, some h => (l + h) / 2
    | none, _, _ => 0
  let sigma := match lo, hi with
    | some l, some h => (h - l) / 6
    | _, _ => 1
  let p : P := ⟨some init', sigma, []⟩
  if lo.isSome || hi.isSome then setBounds p lo hi .bounce (some (lo.isSome && hi.isSome && init.isNone)) else (p, none)

/-- One entry of `Array(init=, shape=, lower=, upper=)` (data.py 58-117); exactly one of `init` and `shape` is given. `init is None` (line 94) is tested after line 79 or 84 has made it
an array. -/
def array (init : Option ℝ) (lo hi : Option ℝ) : P × Option Err :=
  let given := some (match init, lo, hi with
    | some x, _, _ => x
    | none, some l, some h => (l + h) / 2
    | none, _, _ => 0)
  let sigma := match lo, hi with
    | some l, some h => (h - l) / 6
    | _, _ => 1
  if lo.isSome || hi.isSome then
    match mkBound lo hi (some (given.isNone && lo.isSome && hi.isSome)) with
    | none => (⟨given, 1, []⟩, some .value)
    | some u => callBound ⟨given, sigma, []⟩ (.bound lo hi .bounce u false) lo hi
  else (⟨given, sigma, []⟩, none)

/-- The end of the constructor of `Log` (data.py 528-538) for an initial value and an exponent: the bounds are sent through the logarithm. -/
def logWith (x base : ℝ) (lo hi : Option ℝ) (uniform : Bool) : P × Option Err :=
  if base ≤ 0 then (⟨none, 1, []⟩, some .value)
  else
    let p : P := ⟨(Op.exp base).bwd x, 1, []⟩
    if lo.isSome || hi.isSome then
      match mkBound (lo.map (fun x => Real.log x / Real.log base)) (hi.map (fun x => Real.log x / Real.log base)) (some uniform) with
      | none => (p, some .value)
      | some u =>
        match callBound p (.bound (lo.map (fun x => Real.log x / Real.log base)) (hi.map (fun x => Real.log x / Real.log base)) .bounce u false)
            (lo.map (fun x => Real.log x / Real.log base)) (hi.map (fun x => Real.log x / Real.log base)) with
        | (p, some er) => (p, some er)
        | (p, none) => ({ p with layers := .op (.exp base) false :: p.layers }, none)
    else ({ p with layers := [.op (.exp base) false] }, none)

/-- `Log(init=, exponent=, lower=, upper=)` (data.py 507-538). -/
def log (init exponent lo hi : Option ℝ) : P × Option Err :=
  let init' := match init, lo, hi with
    | some x, _, _ => some x
    | none, some l, some h => some (Real.sqrt (l * h))
    | none, _, _ => none
  let base := match exponent, lo, hi with
    | some e, _, _ => e
    | none, some l, some h => Real.exp ((Real.log h - Real.log l) / 6)
    | none, _, _ => 2
  match init' with
  | none => (⟨none, 1, []⟩, some .value)
  | some x => logWith x base lo hi (lo.isSome && hi.isSome && init.isNone)

/-- `_layered_sample` from the highest layer (_layering.py 101-102, _datalayers.py 115-131, data.py 165-171): the `_value` of the child. `t` is the uniform draw and `mutated` the `_value` of
a mutated child. -/
def sample (t : ℝ) (mutated : Num) : List Lay → Option Num
  | [] => some mutated
  | .bound (some lo) (some hi) m true l :: ls => set (.bound (some lo) (some hi) m true l :: ls) (some ((hi - lo) * t + lo))
  | .bound lo hi _ u _ :: ls => if u = true ∧ (lo = none ∨ hi = none) then none else sample t mutated ls
  | .op _ _ :: ls => sample t mutated ls

/-- `sample()` followed by reading the value of the child. Built on `sample` (_layering.py 101-102). -/
def P.sample (p : P) (t : ℝ) (mutated : Num) : Option (Num × P) :=
  (Bnd.sample t mutated p.layers).bind (fun r => ({ p with root := r } : P).read)

/-- Integer casting above (`set_integer_casting`, _layering.py 269-285) with the bounds of the parameter, `none` if there is no number to cast. -/
def castInt (p : P) : Option Int :=
  match p.read with
  | some (some v, _) =>
    match bounds p.layers with
    | (some none, _) => none
    | (_, some none) => none
    | (b0, b1) => some (Tr.intGet none (b0.bind id) (b1.bind id) v)
  | _ => none

end

end Bnd
end NG
