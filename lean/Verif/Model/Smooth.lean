import Mathlib.Algebra.Order.Field.Basic
import Mathlib.Algebra.BigOperators.Group.List.Basic

/-!
The smoothing steps of the one-plus-one optimizers of `nevergrad/optimization/optimizerlib.py`: the smoothed copy of an array (lines 67-87), when it is suggested (lines 277-284), and the place of the suggestions among the candidates (`nevergrad/optimization/base.py`, lines 273-297 and 507-556).

An array is a function of its multi-index together with its shape. The draws are parameters: those of the generator of the parametrization and those of the global generator of numpy are kept apart. The parent is not modelled: `spawn_child` copies the data (see the property on value arrays).
-/

namespace NG.Smooth

variable {α : Type*}

/-- The default mode of `ndimage.convolve` (optimizerlib.py 74): beyond the border the array is mirrored, `d c b a | a b c d | d c b a`. -/
def reflect (n : Nat) (i : Int) : Nat :=
  if (i % (2 * n : Int)).toNat < n then (i % (2 * n : Int)).toNat else 2 * n - 1 - (i % (2 * n : Int)).toNat

/-- The multi-indices read by `ndimage.convolve` for one coordinate (optimizerlib.py 74), for the lengths of the axes and the radii: for a radius `r` the offsets are `-(r-1)/2` to `r/2`. -/
def window : List Nat → List Nat → List Nat → List (List Nat)
  | n :: shape, r :: radii, i :: idx =>
    (List.range r).flatMap fun j : Nat =>
      (window shape radii idx).map fun w => reflect n ((i : Int) + j - ((r - 1) / 2 : Nat)) :: w
  | _, _, _ => [[]]

/-- `ndimage.convolve(value, np.ones(radii) / np.prod(radii))` (optimizerlib.py 74). -/
def convolve [Field α] (v : List Nat → α) (shape radii idx : List Nat) : α :=
  ((window shape radii idx).map fun w => v w * (1 / (radii.prod : α))).sum

/-- All the multi-indices of a shape. Used in `trial` (optimizerlib.py 78-84). -/
def indices : List Nat → List (List Nat)
  | [] => [[]]
  | n :: shape => (List.range n).flatMap fun i : Nat => (indices shape).map fun w => i :: w

/-- The number of times less frequent than one that a coordinate is changed, `invfreq` (optimizerlib.py 78 and 81-83): `g` is the draw of the global generator. -/
def invfreq (possible : List Nat) (g : Nat) : Nat := if possible.length = 1 then 4 else max 4 g

/-- The mask of changed coordinates at the `t`-th trial (optimizerlib.py 79 and 84): `own t k idx` is the `t`-th draw below `k` of the generator of the parametrization, `glob t` that of the global one. -/
def mask (possible : List Nat) (own : Nat → Nat → List Nat → Nat) (glob : Nat → Nat) (t : Nat)
    (idx : List Nat) : Bool := own t (invfreq possible (glob t)) idx == 0

/-- The loop over the trials (optimizerlib.py 78-84), with a bound on their number: `none` when it is reached. -/
def trial (possible shape : List Nat) (own : Nat → Nat → List Nat → Nat) (glob : Nat → Nat) :
    Nat → Nat → Option Nat
  | 0, _ => none
  | fuel + 1, t =>
    if ((indices shape).filter (mask possible own glob t)).length = 0 ∧ 1 < possible.length then
      trial possible shape own glob fuel (t + 1)
    else some t

/-- `value[indices] = value2[indices]` (optimizerlib.py 85). -/
def blend [Field α] (v : List Nat → α) (shape radii : List Nat) (m : List Nat → Bool) (idx : List Nat) : α :=
  if m idx then convolve v shape radii idx else v idx

/-- `smooth_copy` (optimizerlib.py 67-87): the data of the copy, when the loop ends within the number of trials. `radii` are the radii drawn for the axes (optimizerlib.py 72). -/
def smoothCopy [Field α] (v : List Nat → α) (possible shape radii : List Nat)
    (own : Nat → Nat → List Nat → Nat) (glob : Nat → Nat) (fuel : Nat) : Option (List Nat → α) :=
  (trial possible shape own glob fuel 0).map fun t => blend v shape radii (mask possible own glob t)

/-- Settings of the optimizer which matter here (optimizerlib.py 278-282 and 292): the options, the number of workers and whether the parametrization is an array. -/
structure Settings where
  smoother : Bool
  crossover : Bool
  antismooth : Nat
  workers : Nat
  isArray : Bool
  deriving DecidableEq, Repr

/-- How a candidate was made: the initial point (optimizerlib.py 261-264), a suggestion (base.py 513-515), a crossover (optimizerlib.py 292-299) or a mutation. -/
inductive Kind | initial | smoothed | user | crossed | mutated
  deriving DecidableEq, Repr

/-- The part of the state which matters: `_num_ask`, the waiting suggestions, the last at the head, and the size of the archive. Used in `internal` (optimizerlib.py 258-299). -/
structure State where
  numAsk : Nat
  queue : List Kind
  archive : Nat
  deriving DecidableEq, Repr

/-- The number of asks between two smoothing steps (optimizerlib.py 280). -/
def period (s : Settings) : Nat := max (s.workers + 1) s.antismooth

/-- Whether the internal ask adds a suggestion (optimizerlib.py 261 and 278-282). -/
def smooths (s : Settings) (n : Nat) : Bool :=
  n != 0 && s.smoother && n % period s == 0 && s.isArray

/-- `_internal_ask_candidate` (optimizerlib.py 258-299), without noise handling and with one objective. -/
def internal (s : Settings) (x : State) : Kind × State :=
  if x.numAsk = 0 then (.initial, x)
  else
    (if s.crossover && x.numAsk % 2 == 1 && decide (2 < x.archive) then .crossed else .mutated,
      if smooths s x.numAsk then ⟨x.numAsk, .smoothed :: x.queue, x.archive⟩ else x)

/-- `ask` (base.py 507-556) without constraints: the last suggestion is popped (optimizerlib.py 515), else the optimizer is asked; `_num_ask` is incremented (optimizerlib.py 549). -/
def ask (s : Settings) (x : State) : Kind × State :=
  match x.queue with
  | k :: rest => (k, ⟨x.numAsk + 1, rest, x.archive⟩)
  | [] => ((internal s x).1, ⟨x.numAsk + 1, (internal s x).2.queue, x.archive⟩)

/-- `suggest` (base.py 297). -/
def suggest (x : State) : State := ⟨x.numAsk, .user :: x.queue, x.archive⟩

/-- A run of asks; before the `n`-th one the archive has `size n` points. Built on `ask` (base.py 507-556). -/
def run (s : Settings) (size : Nat → Nat) : Nat → State → List Kind × State
  | 0, x => ([], x)
  | k + 1, x =>
    ((ask s ⟨x.numAsk, x.queue, size x.numAsk⟩).1 ::
        (run s size k (ask s ⟨x.numAsk, x.queue, size x.numAsk⟩).2).1,
      (run s size k (ask s ⟨x.numAsk, x.queue, size x.numAsk⟩).2).2)

end NG.Smooth
