import Mathlib.Data.Fin.VecNotation
import Mathlib.Data.ZMod.Defs
import Mathlib.Logic.Equiv.Basic
import Mathlib.Logic.Function.Basic

/-!
# Model of the array mutations and of the array crossover

nevergrad/parametrization/mutation.py 156-310. An array of shape `sh` is a function on multi-indices. `none` is an exception. The
draws of the random state are arguments, and a draw out of the range of its call (or from an empty range) is an exception.
Fourier transforms (162-167, 180-181) are not modelled: `fft` is False, the default.
-/

namespace NG
namespace ArrMut
variable {β : Type} {n : Nat}

/-- Multi-indices of an array of shape `sh`. Used in `translate` (mutation.py 236-241). -/
abbrev Idx {n : Nat} (sh : Fin n → Nat) := (a : Fin n) → Fin (sh a)

/-- An axis given as a Python integer: negative ones count from the end, others raise. Used in `translate` (mutation.py 236-241). -/
def axisOf (n : Nat) (a : Int) : Option (Fin n) :=
  if h : 0 ≤ a ∧ a < n then some ⟨a.toNat, by omega⟩
  else if h : a < 0 ∧ -(n : Int) ≤ a then some ⟨(a + n).toNat, by omega⟩
  else none

/-- `rng.randint(lo, hi)` with its outcome `d`. Used in `translate` (mutation.py 236-241). -/
def randint (lo hi : Nat) (d : Nat) : Option Nat := if lo ≤ d ∧ d < hi then some d else none

/-- One axis of `np.roll`: the entry at `i` comes from `i - k` modulo the size. Used in `translate` (mutation.py 236-241). -/
def roll1 {sh : Fin n → Nat} (a : Fin n) (k : Nat) (data : Idx sh → β) : Idx sh → β :=
  fun i => data (Function.update i a ⟨((i a).val + (sh a - k % sh a)) % sh a, Nat.mod_lt _ (Nat.lt_of_le_of_lt (Nat.zero_le _) (i a).2)⟩)

/-- `Translation._apply_array` (236-241): `shifts[j]` is the draw for the axis `axes[j]`. -/
def translate {sh : Fin n → Nat} : List Int → List Nat → (Idx sh → β) → Option (Idx sh → β)
  | [], _, data => some data
  | _ :: _, [], _ => none
  | a :: axes, k :: shifts, data =>
    match axisOf n a with
    | none => none
    | some a =>
      match randint 0 (sh a) k with
      | none => none
      | some k => translate axes shifts (roll1 a k data)

/-- `AxisSlicedArray.__getitem__` (249-252) on the list of slabs along the axis: with a negative axis no dimension is equal to the
axis, so that the whole array is returned. -/
def slabs (axis : Int) (f : List β → List β) (data : List β) : List β := if 0 ≤ axis then f data else data

/-- `Jumping._apply_array` (273-285) on the list of slabs along the axis. `maxSize` is the parameter `size`; `size`, `init` and
`newpos` are the draws. -/
def jump (axis : Int) (maxSize size init newpos : Nat) (data : List β) : Option (List β) :=
  match randint 1 maxSize size with
  | none => none
  | some size =>
    match randint 0 data.length init with
    | none => none
    | some init =>
      let chunk := slabs axis (fun d => (d.drop init).take size) data
      let remain := slabs axis (fun d => d.take init) data ++ slabs axis (fun d => d.drop (init + size)) data
      match randint 0 remain.length newpos with
      | none => none
      | some newpos => some (slabs axis (fun d => d.take newpos) remain ++ chunk ++ slabs axis (fun d => d.drop newpos) remain)

/-- `_make_slices` (207-219): the range of each dimension, whose start is the draw `starts a`. -/
def makeSlices (sh : Fin n → Nat) (axes : List Int) (size : Nat) (starts : Fin n → Nat) (a : Fin n) : Option (Nat × Nat) :=
  if (a.val : Int) ∈ axes then
    if sh a ≤ 1 then none
    else (randint 0 (sh a - size) (starts a)).map (fun s => (s, s + size))
  else some (0, sh a)

/-- The index is in the slices. Used in `crossover` (mutation.py 156-182). -/
def inBox {sh : Fin n → Nat} (sl : Fin n → Option (Nat × Nat)) (i : Idx sh) : Bool :=
  decide (∀ a, ∃ s ∈ sl a, s.1 ≤ (i a).val ∧ (i a).val < s.2)

/-- `min(max_size, *(shape[a] - 1 for a in axis))` (174), `none` when an axis does not exist. Integers since `max_size` is any. -/
def limit (sh : Fin n → Nat) : List Int → Int → Option Int
  | [], m => some m
  | a :: axes, m =>
    match axisOf n a with
    | none => none
    | some a => (limit sh axes m).map (fun l => min l ((sh a : Int) - 1))

/-- `Crossover._apply_array` (156-182), `axis` being the tuple of axes and `maxSize` the value before line 174 (given, or computed
from the size of the array). -/
def crossover {sh : Fin n → Nat} (axes : List Int) (maxSize : Int) (size : Nat) (starts : Fin n → Nat) (x y : Idx sh → β) :
    Option (Idx sh → β) :=
  match axes with
  | [] => none  -- `min` with a single integer raises
  | _ =>
    match limit sh axes maxSize with
    | none => none
    | some m =>
      match (if m = 1 then some 1 else randint 1 m.toNat size) with
      | none => none
      | some size =>
        let sl := makeSlices sh axes size starts
        if ∀ a, (sl a).isSome then some (fun i => if inBox sl i then y i else x i) else none

/-- `LocalGaussian._layered_mutate` (300-310): the data added (in standardized units); `noise` are the normal draws. -/
def localGaussian [Zero β] {sh : Fin n → Nat} (axes : List Int) (size : Nat) (starts : Fin n → Nat) (noise : Idx sh → β) :
    Option (Idx sh → β) :=
  let sl := makeSlices sh axes size starts
  if ∀ a, (sl a).isSome then some (fun i => if inBox sl i then noise i else 0) else none

end ArrMut
end NG
