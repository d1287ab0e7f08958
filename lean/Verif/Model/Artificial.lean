import Mathlib.Data.Matrix.Mul
import Mathlib.Analysis.SpecialFunctions.Pow.Real
import Mathlib.Data.List.Sort
import Verif.Model.Tools

/-!
# Model of the artificial functions of the benchmarks

`Transform` (`functions/utils.py`), `ArtificialVariable`, `ArtificialFunction` and `_noisy_call` (`functions/functionlib.py`), over exact reals.
The core function is arbitrary (those of `corefuncs.py` are in `Model/CoreFuncs.lean`). An array is a list, a block of `bd` coordinates a function
on `Fin bd`; `none` is an IndexError. The random generator is an arbitrary state with the draws it gives.
-/

namespace NG
namespace Artificial

/-- `Transform` (utils.py 10-32). The matrix is the orthogonal factor of a QR decomposition (32), an external call. -/
structure Transform (bd : Nat) where
  indices : Fin bd → Nat
  translation : Fin bd → ℝ
  rotation : Option (Matrix (Fin bd) (Fin bd) ℝ)

/-- `normal ** expo` (utils.py 29) with numpy's rule: `none` (NaN) for a negative base and a non-integral exponent, and (infinity) for a zero base and
a negative exponent. -/
noncomputable def power (x expo : ℝ) : Option ℝ :=
  open Classical in
  if x < 0 ∧ ¬ ∃ k : ℤ, expo = k then none
  else if x = 0 ∧ expo < 0 then none
  else some (x ^ expo)

/-- Translation and rotation of `Transform.__call__` (utils.py 35-37). -/
def Transform.move {bd : Nat} (t : Transform bd) (v : Fin bd → ℝ) : Fin bd → ℝ :=
  match t.rotation with
  | none => fun k => v k - t.translation k
  | some q => q.mulVec (fun k => v k - t.translation k)

/-- `data[transform.indices]`: an IndexError if one of the indices is too large. Used in `Transform.apply` (functionlib.py 82-84). -/
def select {bd : Nat} (idx : Fin bd → Nat) (x : List ℝ) : Option (Fin bd → ℝ) :=
  if ∀ k, idx k < x.length then some (fun k => x.getD (idx k) 0) else none

/-- One step of the loop of `ArtificialVariable.process` (functionlib.py 82-84): functions registered with `no_transform` only select coordinates. -/
def Transform.apply {bd : Nat} (onlyIndex : Bool) (t : Transform bd) (x : List ℝ) : Option (Fin bd → ℝ) :=
  (select t.indices x).map (fun v => if onlyIndex then v else t.move v)

/-- The index lists of the blocks (functionlib.py 54-60): `drawn` is the result of `choice(dimension, block_dimension * num_blocks, replace=False)`. -/
def groups (bd : Nat) (drawn : List Nat) : List (List Nat) := Tools.grouper (drawn.insertionSort (· ≤ ·)) bd 0

/-- `ArtificialVariable._initialize` (functionlib.py 48-68): `translation j` and `rotation j` are drawn for the `j`-th block. -/
def build (bd : Nat) (drawn : List Nat) (translation : Nat → Fin bd → ℝ) (rotation : Nat → Option (Matrix (Fin bd) (Fin bd) ℝ)) :
    List (Transform bd) :=
  (groups bd drawn).mapIdx (fun j g =>
    { indices := fun k => g.getD k 0
      translation := translation j
      rotation := rotation j })

/-- `ArtificialVariable.process` (functionlib.py 70-85) without hashing, once the transforms are drawn. -/
def blocks {bd : Nat} (onlyIndex : Bool) (ts : List (Transform bd)) (x : List ℝ) : Option (List (Fin bd → ℝ)) :=
  ts.mapM (fun t => t.apply onlyIndex x)

/-- `self._aggregator` (functionlib.py 214-218). -/
inductive Agg where
  | max | mean | sum
deriving DecidableEq, Repr

/-- The three aggregators; there always is at least one block. Built on `Agg` (functionlib.py 214-218). -/
noncomputable def Agg.eval : Agg → List ℝ → ℝ
  | .max, l => l.tail.foldl Max.max (l.headD 0)
  | .mean, l => l.sum / l.length
  | .sum, l => l.sum

/-- The penalty of `zero_pen` (functionlib.py 251-256): `x` is the array of *transformed* blocks. -/
noncomputable def zeroPen {bd : Nat} (tf : ℝ) (x : List (Fin bd → ℝ)) : ℝ :=
  1000 * Max.max (tf / (1 / 10 ^ 7 + tf + Real.sqrt (x.map (fun b => Finset.univ.sum (fun k => b k ^ 2))).sum) - 3 / 4) 0

/-- `function_from_transform` (functionlib.py 240-259); overflows are not modelled. -/
noncomputable def fromTransform {bd : Nat} (f : (Fin bd → ℝ) → ℝ) (agg : Agg) (pen : Option ℝ) (x : List (Fin bd → ℝ)) : ℝ :=
  match pen with
  | none => agg.eval (x.map f)
  | some tf => agg.eval (x.map f) + zeroPen tf x

/-- `evaluation_function` (functionlib.py 261-270): without noise. -/
noncomputable def oracle {bd : Nat} (f : (Fin bd → ℝ) → ℝ) (agg : Agg) (pen : Option ℝ) (onlyIndex : Bool) (ts : List (Transform bd))
    (x : List ℝ) : Option ℝ :=
  (blocks onlyIndex ts x).map (fromTransform f agg pen)

/-- `x_transf.ravel()[0]`. Used in `noisy` (functionlib.py 296-313). -/
def first {bd : Nat} (x : List (Fin bd → ℝ)) : ℝ :=
  match x with
  | [] => 0
  | b :: _ => if h : 0 < bd then b ⟨0, h⟩ else 0

/-- `_noisy_call` (functionlib.py 296-313): `side` is the drawn displacement and `g` the drawn factor. -/
noncomputable def noisy {bd : Nat} (f : (Fin bd → ℝ) → ℝ) (agg : Agg) (pen : Option ℝ) (onlyIndex : Bool) (ts : List (Transform bd))
    (level : ℝ) (dissym : Bool) (side : List ℝ) (g : ℝ) (x : List ℝ) : Option ℝ :=
  match blocks onlyIndex ts x with
  | none => none
  | some xt =>
    if level = 0 ∨ (dissym = true ∧ ¬ first xt ≤ 0) then some (fromTransform f agg pen xt)
    else
      match blocks onlyIndex ts (List.zipWith (· + ·) x side) with
      | none => none
      | some st =>
        some (fromTransform f agg pen xt
          + (if dissym then level * (1 + first xt * 100) else level) * g * (fromTransform f agg pen st - fromTransform f agg pen xt))

/-! ## The random state, shared with the optimizer -/

/-- What happens to a function during an experiment: the optimizer draws from the random state of the parametrization, which is the one of the
function (functionlib.py 202-213), and the function is called. -/
inductive Op where
  | draw : Op
  | eval (x : List ℝ) : Op

/-- The random state and `_transforms` (`none` while the list is empty). Used in `ready` (functionlib.py 73-74). -/
structure St (σ : Type) (bd : Nat) where
  rng : σ
  ts : Option (List (Transform bd))

/-- Random generator: `draw` advances the state, `init` draws the transforms of `_initialize`. Used in `ready` (functionlib.py 73-74). -/
structure Rng (σ : Type) (bd : Nat) where
  draw : σ → σ
  init : σ → List (Transform bd) × σ

/-- `if not self._transforms: self._initialize()` (functionlib.py 73-74). -/
def ready {σ : Type} {bd : Nat} (r : Rng σ bd) (s : St σ bd) : St σ bd :=
  match s.ts with
  | some _ => s
  | none => { rng := (r.init s.rng).2, ts := some (r.init s.rng).1 }

/-- One operation on the function. Built on `ready` (functionlib.py 73-74). -/
def step {σ : Type} {bd : Nat} (r : Rng σ bd) (s : St σ bd) : Op → St σ bd
  | .draw => { s with rng := r.draw s.rng }
  | .eval _ => ready r s

/-- A sequence of operations. Built on `Op` (functionlib.py 202-213). -/
def run {σ : Type} {bd : Nat} (r : Rng σ bd) (ops : List Op) (s : St σ bd) : St σ bd := ops.foldl (step r) s

/-! ## Hashing -/

/-- The hashing of `process` (functionlib.py 75-80): the shared random state is seeded with a hash of each element in turn, and the element
replaced by a normal draw. `seeded y` is that draw and the state after it. -/
def hashed {σ : Type} (seeded : ℝ → ℝ × σ) (x : List ℝ) (s : σ) : List ℝ × σ :=
  (x.map (fun y => (seeded y).1), (x.getLast?.map (fun y => (seeded y).2)).getD s)

/-- `_noisy_call` with hashing: `normals n s` draws `n` numbers. Positive noise level, no dissymmetry. Built on `hashed` (functionlib.py 75-80). -/
noncomputable def hashNoisy {σ : Type} {bd : Nat} (seeded : ℝ → ℝ × σ) (normals : Nat → σ → List ℝ × σ) (f : (Fin bd → ℝ) → ℝ) (agg : Agg)
    (ts : List (Transform bd)) (level : ℝ) (x : List ℝ) (s : σ) : Option ℝ × σ :=
  let a := hashed seeded x s
  let b := normals x.length a.2
  let c := hashed seeded (List.zipWith (· + ·) x b.1) b.2
  let g := normals 1 c.2
  (match oracle f agg none false ts a.1, oracle f agg none false ts c.1 with
    | some u, some v => some (u + level * g.1.headD 0 * (v - u))
    | _, _ => none, g.2)

end Artificial
end NG
