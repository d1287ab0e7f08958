import Mathlib.Order.Defs.LinearOrder
import Mathlib.Data.Nat.Basic

/-!
# Model of the crossovers of differential evolution

`Crossover` (optimization/differentialevolution.py 15-103). Arrays are lists, the donor is modified in place: the functions
return its new content (`individual` is not changed: line 103 writes back the same values). The random draws are arguments.
-/

namespace NG
namespace Cross
variable {β α : Type} [LinearOrder α]

/-- `variablewise` (48-54): `R` is the position kept, `us` the uniform draws, one per position (none is drawn at `R`). -/
def variablewise (CR : α) (R : Nat) (us : Nat → α) (donor individual : List β) : List β :=
  (donor.zip individual).mapIdx (fun i p => if i ≠ R ∧ CR < us i then p.2 else p.1)

/-- `x[a:b]`. Used in `onepoint` (differentialevolution.py 56-61). -/
def slice (a b : Nat) (l : List β) : List β := (l.take b).drop a

/-- `donor[a:b] = src`, the sizes being equal. Used in `onepoint` (differentialevolution.py 56-61). -/
def assign (a b : Nat) (src donor : List β) : List β := donor.take a ++ src ++ donor.drop b

/-- `onepoint` (56-61): `right` is the outcome of the choice between True and False. -/
def onepoint (R : Nat) (right : Bool) (donor individual : List β) : List β :=
  if right then assign R donor.length (slice R donor.length individual) donor
  else assign 0 R (slice 0 R individual) donor

/-- The bounds (64-66, 74-76): `c1`, `c2` the two draws of `choice`, `which` whether the first bound is the one replaced, `r` the
draw of `randint(1, size)`, which raises (none) when there is no such number. -/
def bounds (size c1 c2 : Nat) (which : Bool) (r : Nat) : Option (Nat × Nat) :=
  if max c1 c2 = size ∧ min c1 c2 = 0 then
    if size ≤ 1 then none else some (if which then (r, size) else (0, r))
  else some (min c1 c2, max c1 c2)

/-- The end of `twopoints` (67-71). -/
def copyTwo (b : Nat × Nat) (inside : Bool) (donor individual : List β) : List β :=
  if inside then assign b.1 b.2 (slice b.1 b.2 individual) donor
  else assign b.2 donor.length (slice b.2 individual.length individual) (assign 0 b.1 (slice 0 b.1 individual) donor)

/-- `twopoints` (63-71). -/
def twopoints (c1 c2 : Nat) (which : Bool) (r : Nat) (inside : Bool) (donor individual : List β) : Option (List β) :=
  (bounds donor.length c1 c2 which r).map (fun b => copyTwo b inside donor individual)

/-- `rotated_twopoints` (73-80): `c` is the draw of line 77. -/
def rotated (c1 c2 : Nat) (which : Bool) (r c : Nat) (donor individual : List β) : Option (List β) :=
  (bounds donor.length c1 c2 which r).map (fun b => assign b.1 b.2 (slice c (c + b.2 - b.1) individual) donor)

/-- Indices of the element at flat position `i` in an array of the given shape (row-major order). Used in `voronoi` (differentialevolution.py 88-103). -/
def unravel : List Nat → Nat → List Nat
  | [], _ => []
  | _ :: ds, i => i / ds.prod :: unravel ds (i % ds.prod)

/-- Squared euclidean distance (the code compares distances, lines 96-100, to the same effect). -/
def dist2 (a b : List Nat) : Int := ((a.zip b).map (fun p => ((p.1 : Int) - p.2) * ((p.1 : Int) - p.2))).sum

/-- The positions copied by `voronoi` (100). -/
def nearFourth (x1 x2 x3 x4 p : List Nat) : Bool := dist2 p x4 < min (min (dist2 p x1) (dist2 p x2)) (dist2 p x3)

/-- `voronoi` (88-103) for an array of at least two axes. -/
def voronoi (shape x1 x2 x3 x4 : List Nat) (donor individual : List β) : List β :=
  (donor.zip individual).mapIdx (fun i p => if nearFourth x1 x2 x3 x4 (unravel shape i) then p.2 else p.1)

/-- The option `crossover` (29): a float or "random" give a rate. -/
inductive Kind (α : Type)
  | rate (CR : α) | twopoints | rotated | onepoint | voronoi (shape : Option (List Nat))

/-- All draws. Used in `apply` (differentialevolution.py 35-46). -/
structure Draws (α : Type) where
  R : Nat
  us : Nat → α
  right : Bool
  c1 : Nat
  c2 : Nat
  which : Bool
  r : Nat
  c : Nat
  x1 : List Nat
  x2 : List Nat
  x3 : List Nat
  x4 : List Nat

/-- `apply` (35-46), with the fallback of `voronoi` (84-87); `half` is the default rate 0.5 (22). -/
def apply (half : α) (kind : Kind α) (d : Draws α) (donor individual : List β) : Option (List β) :=
  match kind with
  | .twopoints =>
    if 4 ≤ donor.length then twopoints d.c1 d.c2 d.which d.r d.right donor individual
    else some (variablewise half d.R d.us donor individual)
  | .rotated =>
    if 4 ≤ donor.length then rotated d.c1 d.c2 d.which d.r d.c donor individual
    else some (variablewise half d.R d.us donor individual)
  | .onepoint =>
    if 3 ≤ donor.length then some (onepoint d.R d.right donor individual)
    else some (variablewise half d.R d.us donor individual)
  | .voronoi (some shape) =>
    if shape.length < 2 then twopoints d.c1 d.c2 d.which d.r d.right donor individual
    else some (voronoi shape d.x1 d.x2 d.x3 d.x4 donor individual)
  | .voronoi none => twopoints d.c1 d.c2 d.which d.r d.right donor individual
  | .rate CR => some (variablewise CR d.R d.us donor individual)

end Cross
end NG
