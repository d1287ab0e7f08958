/-
The photonics problems: the Bragg mirror and the chirped mirror (`nevergrad/functions/photonics/photonics.py` 33-73), the parametrization and the array given to them
(`nevergrad/functions/photonics/core.py` 31-107, 182-205), and the calls of `ceviche` with their global variables (photonics.py 421-563).

Simplifications. Real and complex numbers are exact: the constants 1.4142135623730951 and 1.7320508075688772 are the square roots of 2 and 3, and `tan` is the total function of Mathlib,
which is 0 where the cosine is 0 (in the code the floating point angle is never there). The sigma, the mutations and the bounding method of the parametrization are not modelled (they are
in other models). In `ceviche` the simulation is a parameter; gradients, fields and the printing of negative losses are not modelled.
-/
import Mathlib.Analysis.SpecialFunctions.Trigonometric.Basic
import Mathlib.Analysis.Complex.Trigonometric
import Mathlib.Analysis.Real.Sqrt
import Mathlib.Data.Complex.Basic
import Mathlib.Order.WithBot

namespace NG.Photonics

/-- One turn of the loops (photonics.py 50, 68): the admittance in front of a layer with the refraction index `n`, from the one behind; `t` is its tangent. -/
noncomputable def layer (n t : ℝ) (Z : ℂ) : ℂ := (Z - Complex.I * n * t) / (1 - Complex.I * t * Z / n)

/-- The loop from the last layer to the second (photonics.py 49-50, 67-68): `ls` are the pairs of index and height of all layers, the outer ones included. -/
noncomputable def admittance (lam : ℝ) (ls : List (ℝ × ℝ)) (Zlast : ℂ) : ℂ :=
  ls.tail.foldr (fun l Z => layer l.1 (Real.tan (2 * Real.pi * l.1 * l.2 / lam)) Z) Zlast

/-- `r` (photonics.py 52, 70). -/
noncomputable def reflected (Z : ℂ) : ℂ := (1 - Z) / (1 + Z)

/-- `bragg` (photonics.py 33-54). -/
noncomputable def bragg (X : List ℝ) : ℝ :=
  let bar := X.length / 2
  let n := [1] ++ (X.take bar).map Real.sqrt ++ [Real.sqrt 3]
  let hauteur := [0] ++ (X.drop bar).take bar ++ [0]
  let Z := admittance 600 (n.zip hauteur) ((Real.sqrt 3 : ℝ) : ℂ)
  (1 - reflected Z * (starRingEnd ℂ) (reflected Z)).re

/-- The indices of the materials (photonics.py 59). -/
noncomputable def index (k : Nat) : ℝ :=
  if k = 0 then 1 else if k = 1 then Real.sqrt 2 else Real.sqrt 3

/-- `np.linspace(500, 800, 50)` (photonics.py 58). -/
noncomputable def lambdas : List ℝ := (List.range 50).map fun k : Nat => 500 + 300 / 49 * (k : ℝ)

/-- `chirped` (photonics.py 57-73); `none` is the error for arrays of different sizes. -/
noncomputable def chirped (X : List ℝ) : Option ℝ :=
  let type_ := [0] ++ (List.replicate (X.length / 2) [2, 1]).flatten ++ [2]
  let hauteur := [0] ++ X ++ [0]
  if type_.length ≠ hauteur.length then none else
    let r := lambdas.map fun lam => reflected (admittance lam ((type_.map index).zip hauteur) ((Real.sqrt 3 : ℝ) : ℂ))
    some (1 - ((r.map fun z => z * (starRingEnd ℂ) z).foldl (· + ·) 0 / (lambdas.length : ℂ)).re)

/-! ### The parametrization -/

/-- The names of the problems (core.py 59-75). -/
inductive Name
  | bragg
  | realistic
  | reference
  | chirped
  | morpho
deriving DecidableEq

/-- `bounds` (core.py 59-73). -/
def Name.bounds : Name → List (ℚ × ℚ)
  | .bragg => [(2, 3), (30, 180)]
  | .realistic => [(1, 9), (30, 180)]
  | .reference => [(30, 180)]
  | .chirped => [(30, 180)]
  | .morpho => [(0, 300), (0, 600), (30, 600), (0, 300)]

/-- `shape` (core.py 59-73). -/
def Name.shape (p : Name) (dimension : Nat) : Nat × Nat :=
  match p with
  | .bragg => (2, dimension / 2)
  | .realistic => (2, dimension / 2)
  | .reference => (1, dimension)
  | .chirped => (1, dimension)
  | .morpho => (4, dimension / 4)

/-- The assertions (core.py 76-82) and the initial array (core.py 83-84); `none` is an `AssertionError`. The array is a list of rows. -/
def makeInit (p : Name) (dimension : Nat) : Option (List (List ℚ)) :=
  let divisor := max 2 p.bounds.length
  let shape := p.shape dimension
  if dimension % divisor ≠ 0 then none
  else if shape.1 * shape.2 ≠ dimension then none
  else if p.bounds.length ≠ shape.1 then none
  else some (p.bounds.map fun b => List.replicate shape.2 ((b.1 + b.2) / 2))

/-- `to_array` (core.py 182-186) of a 2D array, with the element `M i j` in row `i` and column `j`: `ravel`. -/
def ravel {α : Type} (r c : Nat) (M : Nat → Nat → α) : List α := ((List.range r).map fun i => (List.range c).map fun j => M i j).flatten

/-- `to_array` with `as_tuple` (core.py 85-95, 184): the arguments are the columns, arrays with one axis, so that their concatenation has one axis and `.T` has no effect. -/
def ravelTuple {α : Type} (r c : Nat) (M : Nat → Nat → α) : List α := ((List.range c).map fun j => (List.range r).map fun i => M i j).flatten

/-- What the functions do with a computed value: an error or `nan` is infinite (`_compute`, core.py 197-205). The outer `none` is an exception, the inner one `nan`. -/
def compute (f : List ℝ → Option (Option ℝ)) (x : List ℝ) : WithTop ℝ :=
  match f x with
  | none => ⊤
  | some none => ⊤
  | some (some y) => y

/-! ### The calls of `ceviche` -/

/-- The argument `x` of `ceviche` (photonics.py 430): nothing, the word "name", or a design. -/
inductive Arg (D : Type)
  | nothing
  | name
  | design (x : D)

/-- The global variables `first_time_ceviche` and `model` (photonics.py 421-422); the model is known by its number. -/
structure Globals where
  first : Bool
  model : Option Nat
deriving DecidableEq

/-- The result of a call. Used in `ceviche` (photonics.py 429-563). -/
inductive Res (α S : Type)
  | shape (s : S)
  | label (k : Nat)
  | value (y : α)
  | error
deriving DecidableEq

section
variable {α D S : Type} [Field α] [LinearOrder α] [DecidableEq S]
/- The packages: the shape of the designs of a model, the shape of a design, and the squared absolute values of the scattering parameters of a model, `none` for an `IndexError`. -/
variable (shapeOf : Nat → S) (shape : D → S) (power : Nat → D → Nat → Nat → Nat → Option α)

/-- `loss_fn_nograd` (photonics.py 517-541): the loss of the problem `b` with the model `m`. -/
def loss (b m : Nat) (x : D) : Option α :=
  if b = 0 ∨ b = 2 then (power m x 0 0 1).map fun p => 1 - p
  else if b = 1 then do
    let p ← power m x 0 0 1
    let q ← power m x 0 0 2
    return |p - 1 / 2| + |q - 1 / 2|
  else if b = 3 then do
    let p ← power m x 0 0 1
    let q ← power m x 1 0 2
    return 1 - (p + q) / 2
  else none

/-- `ceviche(x, benchmark_type=b)` (photonics.py 429-563), without discretization. -/
def ceviche (g : Globals) (b : Nat) (x : Arg D) : Globals × Res α S :=
  let isNone := match x with
    | .nothing => true
    | _ => false
  let model := if (g.first || isNone) && decide (b < 4) then some b else g.model
  match x with
  | .name => (⟨g.first, model⟩, if b < 4 then .label b else .error)
  | .nothing => (⟨g.first, model⟩, match model with
    | none => .error
    | some m => .shape (shapeOf m))
  | .design d =>
    match model with
    | none => (⟨g.first, model⟩, .error)
    | some m =>
      if shape d ≠ shapeOf m then (⟨g.first, model⟩, .error) else
        match loss power b m d with
        | none => (⟨g.first, model⟩, .error)
        | some y => (⟨false, model⟩, .value y)

/-- A sequence of calls, with the results. Built on `ceviche` (photonics.py 429-563). -/
def calls (g : Globals) : List (Nat × Arg D) → Globals × List (Res α S)
  | [] => (g, [])
  | c :: cs =>
    let (g', r) := ceviche shapeOf shape power g c.1 c.2
    let (g'', rs) := calls g' cs
    (g'', r :: rs)

end

end NG.Photonics
