/-
The rules of recommendation of the one-shot optimizers (`nevergrad/optimization/oneshot.py` 20-92, 185-195, 345-348).

Simplifications. Real numbers. `ConvexHull` is exact: it raises an error in dimension one or when the points are all in one hyperplane, and otherwise its vertices are the points which are not in the
convex hull of the other ones; of equal points the first one counts. The archive is the list of the points with their pessimistic estimations (`Verif/Model/Oneshot.lean`).
-/
import Verif.Model.Oneshot
import Mathlib.Analysis.Convex.Hull
import Mathlib.Data.Real.Archimedean
import Mathlib.LinearAlgebra.AffineSpace.AffineSubspace.Basic

namespace NG.HullRule

variable {d : Nat}

open Classical in
/-- `ConvexHull(points).vertices`, which are indices (external library). Used in `count` (oneshot.py 30, 36, 43). -/
noncomputable def vertices (ps : List (Fin d → ℝ)) : Option (List Nat) :=
  if 2 ≤ d ∧ affineSpan ℝ {x | x ∈ ps} = ⊤ then
    some ((List.range ps.length).filter fun i => decide (ps.getD i 0 ∉ convexHull ℝ {x | x ∈ ps ∧ x ≠ ps.getD i 0} ∧ ps.getD i 0 ∉ ps.take i))
  else none

/-- The number of vertices of a hull that was made before (oneshot.py 30, 36, 43). -/
noncomputable def count (ps : List (Fin d → ℝ)) : Nat := ((vertices ps).map List.length).getD 0

open Classical in
/-- The loop of `convex_limit` (oneshot.py 32-44): `is` are the indices to come, `hull` has the points of the hull, `num` is `num_points`. -/
noncomputable def limitGo (points : List (Fin d → ℝ)) : List Nat → List (Fin d → ℝ) → Nat → Nat
  | [], _, _ => points.length - 1
  | i :: is, hull, num =>
    let hull := hull ++ [points.getD i 0]
    if count hull ≠ num + 1 then num
    else if ∃ j, i < j ∧ j < points.length ∧ count (hull ++ [points.getD j 0]) ≠ num + 2 then num
    else limitGo points is hull (num + 1)

/-- `convex_limit` (oneshot.py 20-45). The array that it gets has two entries for each point, the second one is not used; `ps` are the points. `none` for an error of the hull. -/
noncomputable def convexLimit (ps : List (Fin d → ℝ)) : Option Nat :=
  let len := 2 * ps.length
  if len < 2 * d + 2 then some (len / 2)
  else
    let points := ps.take ((min (2 * d + 2) len + 1) / 2)
    match vertices (points.take (d + 1)) with
    | none => none
    | some v => some (limitGo points ((List.range points.length).drop v.length) (points.take (d + 1)) v.length)

/-- `hull_center` (oneshot.py 48-56). -/
noncomputable def hullCenter (ps : List (Fin d → ℝ)) (k : Nat) : Option ℝ :=
  match vertices (ps.take k) with
  | none => none
  | some v => some (1 / 2 * ((v.foldl max (v.headD 0) : Nat) + (v.foldl min (v.headD 0) : Nat)))

/-- The number of points for the rule "hull" (oneshot.py 84, 89). -/
noncomputable def kHull (len dim limit : Nat) : Nat :=
  let k : Int := min ((len / 4 : Nat) : Int) (min (limit : Int) ⌊(len : ℝ) / (11 / 10) ^ dim⌋)
  if k < 1 then 1 else k.toNat

/-- The points of an archive, the best first (oneshot.py 81). -/
noncomputable def sorted (archive : List ((Fin d → ℝ) × ℝ)) : List (Fin d → ℝ) := (archive.mergeSort fun a b => decide (a.2 ≤ b.2)).map Prod.fst

/-- `recommendation_rule`. Used in `avg` (oneshot.py 71-92). -/
inductive Rule where
  | pessimistic
  | best
  | exp
  | hull
deriving DecidableEq

/-- What `_internal_provide_recommendation` does: it gives no point (the pessimistic best is then recommended), a point, or an error. Used in `avg` (oneshot.py 71-92). -/
inductive Res (d : Nat) where
  | default
  | point (x : Fin d → ℝ)
  | error

/-- From a result that may fail. Used in `avg` (oneshot.py 71-92). -/
def Res.of : Option (Fin d → ℝ) → Res d
  | some x => .point x
  | none => .error

/-- `avg_of_k_best` (oneshot.py 71-92). `ragged` says whether numpy makes arrays of tuples of an array and another object, as before its version 1.24. -/
noncomputable def avg (ragged : Bool) (rule : Rule) (archive : List ((Fin d → ℝ) × ℝ)) : Res d :=
  match rule with
  | .exp => .of (Oneshot.avgOfBest (Oneshot.kBest (α := ℝ) true archive.length d) archive)
  | .hull =>
    if ragged then
      match convexLimit (sorted archive) with
      | none => .error
      | some l => .of (Oneshot.avgOfBest (kHull archive.length d l) archive)
    else .error
  | _ => .of (Oneshot.avgOfBest (Oneshot.kBest (α := ℝ) false archive.length d) archive)

/-- `_RandomSearch._internal_provide_recommendation` (oneshot.py 185-195), `ask` is a new point of `_internal_ask`. -/
noncomputable def randomRec (ragged stupid : Bool) (ask : Fin d → ℝ) (rule : Rule) (archive : List ((Fin d → ℝ) × ℝ)) : Res d :=
  if stupid then .point ask
  else if archive = [] then .default
  else match rule with
    | .best => avg ragged .best archive
    | .exp => avg ragged .exp archive
    | .hull => avg ragged .hull archive
    | .pessimistic => .default

/-- `_SamplingSearch._internal_provide_recommendation` (oneshot.py 345-348). -/
noncomputable def samplingRec (rule : Rule) (archive : List ((Fin d → ℝ) × ℝ)) : Res d :=
  if archive ≠ [] ∧ rule = .best then avg true .best archive else .default

end NG.HullRule
