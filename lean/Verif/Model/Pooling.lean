/-
The points chosen by their pooled distances in `nevergrad/common/sphere.py`: `manual_avg_pool3d` (117-135), `max_pooling` (138-165), `max_without_pooling` (168-169)
and `max_small_pooling` (172-173).

Simplifications. Numbers are exact; the draws of the generator are arguments. The clock is an argument: the draws made for one point before the time is over.
-/
import Verif.Model.Sphere
import Mathlib.Algebra.BigOperators.Group.Finset.Basic

namespace NG.Pooling

open NG.Sphere

/-- The sum over a block of the array (128-133), and over the whole of the axes after the third one, that the slices leave out. -/
noncomputable def blockSum (k0 k1 k2 : Nat) (rest : List Nat) (arr : Pt) (z y x : Nat) : ℝ :=
  ∑ a ∈ Finset.range k0, ∑ b ∈ Finset.range k1, ∑ c ∈ Finset.range k2,
    ((indices rest).map fun r => arr ((z * k0 + a) :: (y * k1 + b) :: (x * k2 + c) :: r)).sum

/-- `manual_avg_pool3d` (117-135): the shape and the entries of the result. `none` is the `IndexError` with less than three axes, or less than three sizes, and the
`ZeroDivisionError` for a size that is zero. -/
noncomputable def pool : List Nat → List Nat → Pt → Option (List Nat × Pt)
  | s0 :: s1 :: s2 :: rest, k0 :: k1 :: k2 :: _, arr =>
    if k0 = 0 ∨ k1 = 0 ∨ k2 = 0 then none
    else some ([s0 / k0, s1 / k1, s2 / k2], fun i =>
      match i with
      | [z, y, x] => blockSum k0 k1 k2 rest arr z y x / (k0 * k1 * k2 * rest.prod : ℕ)
      | _ => 0)
  | _, _, _ => none

/-- `pooling` (140-143): the sizes of the blocks. -/
def kernelOf (shape : List Nat) : Option (List Nat) → List Nat
  | none => shape.map fun s => max 1 (s / 8)
  | some conv => 1 :: conv

/-- The pooled array, `none` if there is an error. -/
noncomputable def pooled (shape kernel : List Nat) (arr : Pt) : Option Pt := (pool shape kernel arr).map Prod.snd

/-- The shape of the pooled arrays (118-122). -/
def pooledShape (shape kernel : List Nat) : List Nat := (shape.zip kernel).take 3 |>.map fun p => p.1 / p.2

/-- `min([np.linalg.norm(latents_pooling - old) for old in old_latents])` (151, 157). -/
noncomputable def nearestOld (shape kernel : List Nat) (old : List Pt) (p : Pt) : Option ℝ :=
  minimum (old.map fun o => norm (pooledShape shape kernel) fun e => p e - o e)

/-- One draw more (154-161): it replaces the present one if its distance is larger. -/
noncomputable def retry (dist : Pt → ℝ) (state : Pt × ℝ) (new : Pt) : Pt × ℝ := if dist new > state.2 then (new, dist new) else state

/-- The latents of one point (148-161): the first draw, and, if there are points before it, the draws made until the time is over. -/
noncomputable def choose (dist : Pt → Option ℝ) (old : List Pt) (first : Pt) (others : List Pt) : Pt :=
  if old = [] then first
  else (others.foldl (retry fun p => (dist p).getD 0) (first, (dist first).getD 0)).1

/-- The loop of `max_pooling` (147-163): the draws of each point, the pooled points and the points. -/
noncomputable def loop (shape kernel : List Nat) : List (Pt × List Pt) → List Pt → List Pt → Option (List Pt)
  | [], _, x => some x
  | (first, others) :: r, old, x =>
    match pooled shape kernel first with
    | none => none
    | some _ =>
      let latents := choose (fun p => (pooled shape kernel p).bind (nearestOld shape kernel old)) old first others
      loop shape kernel r (old ++ (pooled shape kernel latents).toList) (x ++ [latents])

/-- `max_pooling` (138-165), `max_without_pooling` (168-169) with `conv = [1, 1]` and `max_small_pooling` (172-173) with `conv = [8, 8]`: `none` is also the
`ValueError` of `np.stack` without points. -/
noncomputable def maxPooling (shape : List Nat) (conv : Option (List Nat)) (draws : List (Pt × List Pt)) (again : Nat → Pt) : Option (List Pt) :=
  match loop shape (kernelOf shape conv) draws [] [] with
  | none => none
  | some x => if x = [] then none else some (normalize shape again x)

end NG.Pooling
