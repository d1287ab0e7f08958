import Mathlib.Algebra.Order.Field.Basic
import Mathlib.Data.List.Basic
import Mathlib.Data.List.Lex

/-!
# Model of the placement of legends, the splitting of titles and the styles of curves

`LegendGroup`, `compute_best_placements`, `split_long_title` and `NameStyle` (`benchmark/plotting.py`). Positions are numbers of a field.
-/

namespace NG
namespace Legend

variable {K : Type} [Field K] [LinearOrder K]

/-- `all(v2 >= v1 ...)` (plotting.py 1023, 1068-1070). -/
def sorted : List K → Bool
  | a :: b :: l => decide (a ≤ b) && sorted (b :: l)
  | _ => true

/-- `all(x2 - x1 == 1 ...)` (plotting.py 1022). -/
def consecutive : List Nat → Bool
  | a :: b :: l => decide (b = a + 1) && consecutive (b :: l)
  | _ => true

/-- `LegendGroup`. Used in `make` (plotting.py 1021-1028). -/
structure Group (K : Type) where
  indices : List Nat
  init : List K

/-- `LegendGroup.__init__` (plotting.py 1021-1028): `none` if an assertion fails. -/
def make (indices : List Nat) (init : List K) : Option (Group K) :=
  if consecutive indices && sorted init && decide (indices.length = init.length) then some ⟨indices, init⟩ else none

/-- `position` (plotting.py 1028): the mean of the initial positions. -/
def Group.position (g : Group K) : K := g.init.sum / g.init.length

/-- `bounds[0]` (plotting.py 1040-1043). -/
def Group.lower (d : K) (g : Group K) : K := g.position - g.indices.length * d / 2

/-- `bounds[1]` (plotting.py 1040-1043). -/
def Group.upper (d : K) (g : Group K) : K := g.position + g.indices.length * d / 2

/-- `get_positions` (plotting.py 1036-1038). -/
def Group.positions (d : K) (g : Group K) : List K := (List.range g.indices.length).map (fun k : Nat => (g.lower d + d / 2) + (k : K) * d)

/-- `combine_with` (plotting.py 1030-1034). -/
def Group.combine (g h : Group K) : Option (Group K) := make (g.indices ++ h.indices) (g.init ++ h.init)

/-- The inner loop (plotting.py 1076-1088): the first two overlapping groups are combined; `some none` if there are none. -/
def merge (d : K) : List (Group K) → Option (Option (List (Group K)))
  | g :: h :: rest =>
    if h.lower d < g.upper d then (g.combine h).map (fun c => some (c :: rest))
    else (merge d (h :: rest)).map (fun r => r.map (fun gs => g :: gs))
  | _ => some none

/-- The outer loop (plotting.py 1075-1088); each turn but the last removes a group, so the first argument, the number of groups, is not a restriction. -/
def loop (d : K) : Nat → List (Group K) → Option (List (Group K))
  | 0, gs => some gs
  | n + 1, gs =>
    match merge d gs with
    | none => none
    | some none => some gs
    | some (some gs') => loop d n gs'

/-- `new_positions[group.indices] = group.get_positions()` (plotting.py 1090-1091). -/
def assign (d : K) (new : List K) (g : Group K) : List K := (g.indices.zip (g.positions d)).foldl (fun l p => l.set p.1 p.2) new

/-- `compute_best_placements` (plotting.py 1049-1092); `none` if an assertion fails. -/
def placements (positions : List K) (d : K) : Option (List K) :=
  if sorted positions then
    ((positions.zipIdx.mapM (fun p => make [p.2] [p.1])).bind (fun gs => loop d gs.length gs)).map (fun gs => gs.foldl (assign d) positions)
  else none

/-- The distance of two natural numbers. Used in `closest` (plotting.py 881-890). -/
def dist (a b : Nat) : Nat := (a - b) + (b - a)

/-- `np.argmin` of the distances to the middle: the first index with the smallest distance. Used in `splitTitle` (plotting.py 881-890). -/
def closest (mid : Nat) : List Nat → Option Nat
  | [] => none
  | i :: l => some (l.foldl (fun best j => if dist j mid < dist best mid then j else best) i)

/-- `split_long_title` (plotting.py 881-890). -/
def splitTitle (title : List Char) : List Char :=
  if title.length ≤ 60 then title
  else
    match closest (title.length / 2) ((List.range title.length).filter (fun i => title[i]? = some ',')) with
    | none => title
    | some i => title.take (i + 1) ++ '\n' :: title.drop (i + 1)

/-- The `n`-th value of `_make_style_generator` (plotting.py 46-50), as indices of the line, the marker and the colour. -/
def style (n : Nat) : Nat × Nat × Nat := (n % 4, n % 13, n % 7)

/-- `NameStyle` (plotting.py 53-63): the dictionary; the generator has given as many values as there are names. -/
abbrev Styles (N : Type) := List (N × (Nat × Nat × Nat))

/-- `NameStyle.__getitem__` (plotting.py 60-63). -/
def getStyle {N : Type} [DecidableEq N] (s : Styles N) (name : N) : (Nat × Nat × Nat) × Styles N :=
  match s.find? (fun p => p.1 = name) with
  | some p => (p.2, s)
  | none => (style s.length, s ++ [(name, style s.length)])

/-- A sequence of look-ups. Built on `getStyle` (plotting.py 60-63). -/
def getAll {N : Type} [DecidableEq N] : Styles N → List N → List (Nat × Nat × Nat) × Styles N
  | s, [] => ([], s)
  | s, n :: ns => ((getStyle s n).1 :: (getAll (getStyle s n).2 ns).1, (getAll (getStyle s n).2 ns).2)

end Legend
end NG
