import Mathlib.Data.List.Basic
import Mathlib.Algebra.BigOperators.Group.List.Basic
import Mathlib.Algebra.Order.Field.Basic
import Mathlib.Order.WithBot

/-!
# Model of population-based training

`functions/pbt.py`. Arrays of the population are cells of a memory, since they are modified in place and may be shared between workers. Random draws
are inputs; `none` is an exception (a failed assertion or a minimum over nothing).
-/

namespace NG
namespace Pbt

variable {F : Type} [Field F] [LinearOrder F]

/-- The function: one core function, optimum and dimension for each hyperparameter (pbt.py 29-34). -/
structure Cfg (F : Type) where
  funcs : List (List F → F)
  optima : List (List F)
  dims : List Nat

/-- The slices of an array (pbt.py 49-51). -/
def blocks : List Nat → List F → List (List F)
  | [], _ => []
  | d :: ds, x => x.take d :: blocks ds (x.drop d)

/-- `unflatten` (pbt.py 46-53). -/
def unflatten (dims : List Nat) (x : List F) : Option (List (List F)) :=
  if dims.sum = x.length then some (blocks dims x) else none

/-- The difference of two arrays. Used in `total` (pbt.py 57). -/
def sub (x y : List F) : List F := List.zipWith (· - ·) x y

/-- The sum of `value` (pbt.py 57): `zip` of the functions, the slices and the optima. -/
def total : List (List F → F) → List (List F) → List (List F) → F
  | f :: fs, y :: ys, o :: os => f (sub y o) + total fs ys os
  | _, _, _ => 0

/-- `value` (pbt.py 55-57). -/
def value (c : Cfg F) (x : List F) : Option F := (unflatten c.dims x).map (fun y => total c.funcs y c.optima)

/-- `gradient` (pbt.py 63-75): finite differences; `eps` is `1e-15`. -/
def gradient (eps : F) (f : List F → F) (x : List F) : List F :=
  (List.range x.length).map (fun i => (f (x.modify i (· + eps)) - f x) / eps)

/-- The update of one slice (pbt.py 85-87): `rate` is `exp(pp[j])`, `noise` the draw of `np.random.normal(dimension)`, which is a single number. -/
def step (eps : F) (f : List F → F) (o : List F) (rate noise : F) (y : List F) : List F :=
  List.zipWith (fun v g => v - rate * (g + noise)) y (gradient eps f (sub y o))

/-- The loop over the slices (pbt.py 82-87). -/
def steps (eps : F) : List (List F → F) → List (List F) → List F → List F → List (List F) → List (List F)
  | f :: fs, o :: os, r :: rs, n :: ns, y :: ys => step eps f o r n y :: steps eps fs os rs ns ys
  | _, _, _, _, _ => []

/-- `evolve` (pbt.py 59-92) as a function of the contents of the array. `expo` is the exponential; the noise has one draw for each slice. The slices
are views of the array, which do not overlap. -/
def evolve (c : Cfg F) (eps : F) (expo : F → F) (noise : List F) (x pp : List F) : Option (List F) :=
  if pp.length = c.dims.length then
    (unflatten c.dims x).map (fun y => (steps eps c.funcs c.optima (pp.map expo) noise y).flatten)
  else none

/-- The population. Checkpoints are addresses of cells. Used in `init` (pbt.py 38-42). -/
structure St (F : Type) where
  cells : List (List F)
  ptr : List Nat
  params : List (List F)
  fit : List (WithTop F)
deriving DecidableEq

/-- The initial population (pbt.py 38-42): `[np.zeros(...)] * num_workers` repeats one array. -/
def init (c : Cfg F) (workers : Nat) : St F :=
  { cells := [List.replicate c.dims.sum 0]
    ptr := List.replicate workers 0
    params := List.replicate workers (List.replicate c.dims.length 0)
    fit := List.replicate workers ⊤ }

/-- The contents of the checkpoint of a worker. Used in `St.copy` (pbt.py 109-111). -/
def St.ckpt (s : St F) (i : Nat) : List F := s.cells.getD (s.ptr.getD i 0) []

/-- How the source is selected (pbt.py 98-104). -/
inductive Mode
  | fitness
  | differ
  | distance
deriving DecidableEq, Repr

/-- `np.linalg.norm(x, 0)`: the number of entries which are not zero. Used in `distances` (pbt.py 98-104). -/
def norm0 (x : List F) : F := ((x.filter (fun v => decide (v ≠ 0))).length : F)

/-- `np.linalg.norm(x, 1)`. Used in `distances` (pbt.py 98-104). -/
def norm1 (x : List F) : F := (x.map (fun v => |v|)).sum

/-- `distances` (pbt.py 98-104). -/
def distances (m : Mode) (x : List F) (s : St F) : List (WithTop F) :=
  match m with
  | .fitness => s.fit
  | .differ => s.params.map (fun i => ((norm0 (sub i x) : F) : WithTop F))
  | .distance => s.params.map (fun i => ((norm1 (sub i x) : F) : WithTop F))

/-- `min((val, idx) for ...)` (pbt.py 105): least value, then least index. -/
def argmin {α : Type} [LinearOrder α] : List α → Option (α × Nat)
  | [] => none
  | v :: l =>
    match argmin l with
    | none => some (v, 0)
    | some (w, i) => if v ≤ w then some (v, 0) else some (w, i + 1)

/-- The copy of the checkpoint of the source (pbt.py 109-111). -/
def St.copy (s : St F) (idx src : Nat) : St F :=
  if idx ≠ src then
    { s with
      cells := s.cells ++ [s.ckpt src]
      ptr := s.ptr.set idx s.cells.length
      fit := s.fit.set idx (s.fit.getD src ⊤) }
  else s

/-- `_func` (pbt.py 94-118): the loss and the new population. `idx` is the worker drawn, among those which exist. -/
def call (c : Cfg F) (eps : F) (expo : F → F) (m : Mode) (idx : Nat) (noise : List F) (x : List F) (s : St F) : Option (F × St F) :=
  if x.length = c.dims.length ∧ idx < s.fit.length then
    match argmin (distances m x s) with
    | none => none
    | some (_, src) =>
      let s := s.copy idx src
      let s := { s with params := s.params.set idx x }
      match evolve c eps expo noise (s.ckpt idx) x with
      | none => none
      | some y =>
        let s := { s with cells := s.cells.set (s.ptr.getD idx 0) y }
        match value c (s.ckpt idx) with
        | none => none
        | some v => some (v, { s with fit := s.fit.set idx (v : WithTop F) })
  else none

end Pbt
end NG
