import Verif.Model.CoreFuncs
import Mathlib.Data.Sign.Defs

/-!
# Model of the LSGO functions

functions/lsgo/_core.py and functions/lsgo/_funcs.py. Arrays are lists of reals, numbers are exact, `none` is an exception. The data files are parameters. The caches of
`Asymmetry` and `Illconditionning` are not modelled: each object is only called on arrays of one size. `np.cumsum` is the one of the core functions.
-/

namespace NG
namespace Lsgo

/-- Points. Used in `sphere` (_core.py 16-18). -/
abbrev Vec := List ℝ

/-- `np.linspace(a, b, n)[i]`. Used in `elliptic` (_core.py 21-26). -/
noncomputable def linspace (a b : ℝ) (n i : Nat) : ℝ := a + (b - a) * (i / ((n : ℝ) - 1))

/-- `x.dot(y)`. Used in `sphere` (_core.py 16-18). -/
def dot (x y : Vec) : ℝ := (List.zipWith (fun a b => a * b) x y).sum

/-- `sphere` (_core.py 16-18). -/
def sphere (x : Vec) : ℝ := dot x x

/-- `Elliptic` (_core.py 21-26): the weights are those of `dimension`, other sizes raise. -/
noncomputable def elliptic (dimension : Nat) (x : Vec) : Option ℝ :=
  if x.length = dimension then
    some (dot ((List.range dimension).map (fun i => (10 : ℝ) ^ linspace 0 6 dimension i)) (x.map (fun v => v ^ 2)))
  else none

/-- `rastrigin` (_core.py 33-35). -/
noncomputable def rastrigin (x : Vec) : ℝ := 10 * (x.length - (x.map (fun v => Real.cos (2 * Real.pi * v))).sum) + sphere x

/-- `ackley` (_core.py 38-41). -/
noncomputable def ackley (x : Vec) : ℝ :=
  -20 * Real.exp (-0.2 * Real.sqrt (sphere x / x.length)) - Real.exp ((x.map (fun v => Real.cos (2 * Real.pi * v))).sum / x.length)
    + 20 + Real.exp 1

/-- `schwefel_1_2` (_core.py 44-46). -/
def schwefel (x : Vec) : ℝ := sphere (Core.cumsum 0 x)

/-- `rosenbrock` (_core.py 49-52). -/
def rosenbrock (x : Vec) : ℝ :=
  let xm1 := x.dropLast.map (fun v => v - 1)
  let diff := List.zipWith (fun a b => a ^ 2 - b) x.dropLast x.tail
  100 * dot diff diff + dot xm1 xm1

/-- One entry of `irregularity` (_core.py 58-67). -/
noncomputable def irregular (v : ℝ) : ℝ :=
  let xhat := Real.log (if v = 0 then 1 else |v|)
  let s : ℝ := SignType.sign v
  let c1 := 0.5 * (10 + 5.5) + 0.5 * (10 - 5.5) * s
  let c2 := 0.5 * (3.1 + 7.9) + 0.5 * (7.9 - 3.1) * s
  s * Real.exp (xhat + 0.049 * (Real.sin (c1 * xhat) + Real.sin (c2 * xhat)))

/-- A step of `FunctionChunk.transforms`. Used in `irregularity` (_core.py 58-67). -/
abbrev Transform := Vec → Option Vec

/-- `irregularity` (_core.py 58-67). -/
noncomputable def irregularity : Transform := fun x => some (x.map irregular)

/-- `Asymmetry.__call__` (_core.py 70-82). -/
noncomputable def asymmetry (beta : ℝ) : Transform := fun x =>
  some (x.mapIdx (fun i v => v ^ (1 + linspace 0 beta x.length i * Real.sqrt (max 0 v))))

/-- `Illconditionning.__call__` (_core.py 85-96). -/
noncomputable def illconditionning (alpha : ℝ) : Transform := fun x =>
  some (x.mapIdx (fun i v => alpha ^ linspace 0 0.5 x.length i * v))

/-- `Translation.__call__` (_core.py 99-104); arrays of different sizes raise (arrays of size 1 would be broadcast). -/
def translation (t : Vec) : Transform := fun x => if x.length = t.length then some (List.zipWith (fun a b => a - b) x t) else none

/-- `Indexing.__call__` (_core.py 107-116). -/
def indexing (indices : List Nat) (indim : Nat) : Transform := fun x =>
  if x.length = indim then indices.mapM (fun i => x[i]?) else none

/-- `Rotation` (_core.py 124-131): the matrix is square, other sizes raise. -/
def rotation (rot : List Vec) : Transform := fun x =>
  if (∀ row ∈ rot, row.length = rot.length) ∧ x.length = rot.length then some (rot.map (fun row => dot row x)) else none

/-- The loop of `split` (_core.py 151-154). -/
def slices (permutation : List Nat) (overlap : Nat) : Nat → List Nat → List (List Nat)
  | _, [] => []
  | start, length :: r => (permutation.drop start).take length :: slices permutation overlap (start + length - overlap) r

/-- `split` (_core.py 140-156), for at least one length and lengths of at least `overlap` (otherwise `start_ind` gets negative). -/
def split (permutation : List Nat) (dimensions : List Nat) (overlap : Nat) : Option (List (List Nat)) :=
  if permutation.Nodup ∧ permutation ≠ [] ∧ permutation.min? = some 0 ∧ permutation.max? = some (permutation.length - 1)
      ∧ permutation.length + (dimensions.length - 1) * overlap = dimensions.sum then
    some (slices permutation overlap 0 dimensions)
  else none

/-- `FunctionChunk` (_funcs.py 39-67). -/
structure Chunk where
  transforms : List Transform
  loss : Vec → Option ℝ
  scalar : ℝ

/-- `FunctionChunk.__init__` (_funcs.py 44-49). -/
def Chunk.make (transforms : List Transform) (loss : Vec → Option ℝ) : Chunk := ⟨transforms, loss, 1⟩

/-- `FunctionChunk.__rmul__` (_funcs.py 62-64). -/
def Chunk.rmul (s : ℝ) (c : Chunk) : Chunk := { c with scalar := c.scalar * s }

/-- `_apply_transforms` (_funcs.py 51-57). -/
def applyAll : List Transform → Vec → Option Vec
  | [], x => some x
  | t :: r, x => (t x).bind (applyAll r)

/-- `FunctionChunk.__call__` (_funcs.py 59-60). -/
def Chunk.call (c : Chunk) (x : Vec) : Option ℝ := (applyAll c.transforms x).bind (fun y => (c.loss y).map (fun v => c.scalar * v))

/-- `LsgoFunction` (_funcs.py 70-93). -/
structure Fn where
  xopt : Vec
  optimum : Option Vec
  functions : List Chunk

/-- The sum of the chunks. Used in `Fn.call` (_funcs.py 86-88). -/
def sumCalls : List Chunk → Vec → Option ℝ
  | [], _ => some 0
  | c :: r, y => (c.call y).bind (fun v => (sumCalls r y).map (fun s => v + s))

/-- `LsgoFunction.__call__` (_funcs.py 86-88); arrays of another size raise (arrays of size 1 would be broadcast). -/
def Fn.call (f : Fn) (x : Vec) : Option ℝ :=
  if x.length = f.xopt.length then sumCalls f.functions (List.zipWith (fun a b => a - b) x f.xopt) else none

/-- `LsgoFunction.__init__` (_funcs.py 81-84). -/
def Fn.make (xopt : Vec) (functions : List Chunk) : Fn := ⟨xopt, some xopt, functions⟩

/-- The losses and transforms (_funcs.py 209-267): `_make_loss` and `_make_transforms`. -/
inductive Kind where
  | elliptic | rastrigin | ackley | schwefel

/-- `_make_loss` (_funcs.py 216-217, 231-232, 246-247, 261-262). -/
noncomputable def Kind.loss (k : Kind) (dimension : Nat) (side : Bool) : Vec → Option ℝ :=
  match k with
  | .elliptic => Lsgo.elliptic dimension
  | .rastrigin => fun x => some (Lsgo.rastrigin x)
  | .ackley => fun x => some (Lsgo.ackley x)
  | .schwefel => fun x => some (if side then sphere x else Lsgo.schwefel x)

/-- `_make_transforms` (_funcs.py 219-220, 234-235, 249-250, 264-267). -/
noncomputable def Kind.transforms (k : Kind) (side : Bool) : List Transform :=
  match k with
  | .elliptic => [irregularity]
  | .rastrigin => [irregularity, asymmetry 0.2, illconditionning 10]
  | .ackley => [irregularity, asymmetry 0.2, illconditionning 10]
  | .schwefel => if side then [] else [irregularity, asymmetry 0.2]

/-- The data of a function (`read_data`, _funcs.py 25-36, with indices from 0). -/
structure Data where
  xopt : Vec
  p : List Nat
  s : List Nat
  w : Vec
  R25 : List Vec
  R50 : List Vec
  R100 : List Vec

/-- `rotations[...]` (_funcs.py 192); `none` is a KeyError. -/
def Data.rotation (d : Data) (n : Nat) : Option (List Vec) :=
  if n = 25 then some d.R25 else if n = 50 then some d.R50 else if n = 100 then some d.R100 else none

/-- The loop of `_MultiPartFunction.__init__` (_funcs.py 196-200). -/
noncomputable def parts (k : Kind) (d : Data) : Vec → List (List Nat) → Option (List Chunk)
  | coeff :: w, inds :: r =>
    (d.rotation inds.length).bind fun rot =>
      (parts k d w r).map fun rest =>
        Chunk.rmul coeff (.make (indexing inds d.p.length :: rotation rot :: k.transforms false) (k.loss inds.length false)) :: rest
  | _, _ => some []

/-- `_MultiPartFunction.__init__` (_funcs.py 176-205). -/
noncomputable def multiPart (k : Kind) (overlap : Nat) (d : Data) : Option Fn :=
  let remaining := 1000 - d.s.sum
  if d.s.sum ≤ 1000 ∧ (remaining = 0 ∨ remaining = 700) ∧ d.xopt.length = d.p.length then
    (split d.p (d.s ++ if remaining = 0 then [] else [remaining]) overlap).bind fun groups =>
      if d.w.length + (if remaining = 700 then 1 else 0) = groups.length then
        (parts k d d.w groups).bind fun chunks =>
          if remaining = 0 then some (.make d.xopt chunks)
          else match groups.getLast? with
            | some last =>
              some (.make d.xopt (chunks ++ [.make (indexing last d.p.length :: k.transforms true) (k.loss last.length true)]))
            | none => none
      else none
  else none

/-- `ShiftedElliptic`, `ShiftedRastrigin`, `ShiftedAckley` and `ShiftedSchwefel` (_funcs.py 111-155, 373-383). -/
noncomputable def shifted (k : Kind) (xopt : Vec) : Fn := .make xopt [.make (k.transforms false) (k.loss xopt.length false)]

/-- `ShiftedRosenbrock` (_funcs.py 312-322). -/
def shiftedRosenbrock (xopt : Vec) : Fn :=
  ⟨xopt, some (xopt.map (fun v => v + 1)), [.make [] (fun x => some (rosenbrock x))]⟩

/-- The loop of `ConflictingSchwefel.__init__` (_funcs.py 360-368). -/
noncomputable def conflicts (d : Data) : Vec → List (List Nat) → List (List Nat) → Option (List Chunk)
  | coeff :: w, inds :: r, xinds :: q =>
    (d.rotation inds.length).bind fun rot =>
      (xinds.mapM (fun i => d.xopt[i]?)).bind fun t =>
        (conflicts d w r q).map fun rest =>
          Chunk.rmul coeff (.make [indexing inds d.p.length, translation t, rotation rot, irregularity, asymmetry 0.2] (fun x => some (schwefel x))) :: rest
  | _, _, _ => some []

/-- `ConflictingSchwefel.__init__` (_funcs.py 342-370). -/
noncomputable def conflicting (d : Data) : Option Fn :=
  if d.xopt.length = 1000 ∧ d.p.length = 905 then
    (split d.p d.s 5).bind fun groups =>
      (split (List.range 1000) d.s 0).bind fun pieces =>
        if d.w.length = groups.length then
          (conflicts d d.w groups pieces).map fun chunks => ⟨List.replicate 905 0, none, chunks⟩
        else none
  else none

/-- `make_function` (_funcs.py 386-404), with the numbers and the overlaps of the registered classes; `none` also for a number without function. -/
noncomputable def makeFunction (number : Nat) (d : Data) : Option Fn :=
  match number with
  | 1 => some (shifted .elliptic d.xopt)
  | 2 => some (shifted .rastrigin d.xopt)
  | 3 => some (shifted .ackley d.xopt)
  | 4 | 8 => multiPart .elliptic 0 d
  | 5 | 9 => multiPart .rastrigin 0 d
  | 6 | 10 => multiPart .ackley 0 d
  | 7 | 11 => multiPart .schwefel 0 d
  | 12 => some (shiftedRosenbrock d.xopt)
  | 13 => multiPart .schwefel 5 d
  | 14 => conflicting d
  | 15 => some (shifted .schwefel d.xopt)
  | _ => none

end Lsgo
end NG
