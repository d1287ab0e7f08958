import Verif.Model.Archive
import Mathlib.Algebra.Order.Floor.Defs
import Mathlib.Algebra.Module.Pi

/-!
# Model of the one-shot optimizers

`_RandomSearch._internal_ask` (nevergrad/optimization/oneshot.py 148-183), `_SamplingSearch.sampler` and `_internal_ask` (285-343),
`avg_of_k_best` (59-92). Points are vectors indexed by `ι`. The in-place multiplication `data *= ...` also changes the array returned
by the previous call: candidates are built from a computed copy (`set_standardized_data`), so that this is not visible to users.
-/

namespace NG
namespace Oneshot
variable {α ι : Type} [Field α]

/-- `opposition_mode` (137). -/
inductive Mode | off | quasi | special | opposite
deriving DecidableEq

/-- `self._opposable_data`. Used in `randomAsk` (oneshot.py 148-183). -/
structure St (α ι : Type) where
  opposable : Option (ι → α)
  /-- number of calls to the sampler so far -/
  samples : Nat

/-- What a call gets from outside: whether `_num_ask` is 0, the fresh point (already scaled), `rng.uniform(0, 1)`, and
`np.exp(-rng.uniform(0, 5))`. Used in `factor` (oneshot.py 153-157, 318-322). -/
structure In (α ι : Type) where
  first : Bool
  point : ι → α
  u : α
  e : α

/-- The factor (153-157, 318-322). -/
def factor (mode : Mode) (i : In α ι) : α :=
  match mode with
  | .quasi => i.u
  | .special => i.e
  | _ => 1

/-- `_RandomSearch._internal_ask` (148-183). -/
def randomAsk (mode : Mode) (middle : Bool) (s : St α ι) (i : In α ι) : St α ι × (ι → α) :=
  match s.opposable, mode with
  | some d, .quasi | some d, .special | some d, .opposite => ({ s with opposable := none }, fun k => d k * -(factor mode i))
  | _, _ =>
    if middle && i.first then ({ s with opposable := some (fun _ => 0) }, fun _ => 0)
    else ({ opposable := some i.point, samples := s.samples + 1 }, i.point)

/-- `_SamplingSearch._internal_ask` (309-343): the middle point comes first, and is not followed by an opposite. -/
def samplingAsk (mode : Mode) (middle : Bool) (s : St α ι) (i : In α ι) : St α ι × (ι → α) :=
  if middle && i.first then (s, fun _ => 0)
  else
    match s.opposable, mode with
    | some d, .quasi | some d, .special | some d, .opposite => ({ s with opposable := none }, fun k => d k * -(factor mode i))
    | _, _ => ({ opposable := some i.point, samples := s.samples + 1 }, i.point)

/-- Outputs of successive calls. Built on `In` (oneshot.py 153-157, 318-322). -/
def outputs (step : St α ι → In α ι → St α ι × (ι → α)) : St α ι → List (In α ι) → List (ι → α)
  | _, [] => []
  | s, i :: is => (step s i).2 :: outputs step (step s i).1 is

/-- State after successive calls. Built on `In` (oneshot.py 153-157, 318-322). -/
def final (step : St α ι → In α ι → St α ι × (ι → α)) (s : St α ι) (is : List (In α ι)) : St α ι :=
  is.foldl (fun s i => (step s i).1) s

/-- Budget given to the sampler (288, 295-299). -/
def internalBudget (mode : Mode) (middle : Bool) (budget : Nat) : Nat :=
  let b := budget - (if middle then 1 else 0)
  if b ≠ 0 ∧ mode ≠ .off then (b + 1) / 2 else b

/-- Number of points averaged (73-76, 88): "dimfourth" and "exp". The power is exact here. -/
def kBest [LinearOrder α] [FloorRing α] (exp : Bool) (len dim : Nat) : Nat :=
  let k : Int := if exp then max 1 ⌊(len : α) / (11 / 10) ^ dim⌋ else (min (len / 4) dim : Nat)
  if k < 1 then 1 else k.toNat

/-- `avg_of_k_best` (71-92): the archive is the list of points with their pessimistic estimations; `sorted` is stable. `none` is the
failed assertion of line 91 (or the empty archive, line 72). -/
def avgOfBest [LinearOrder α] (k : Nat) (archive : List ((ι → α) × α)) : Option (ι → α) :=
  let best := (archive.mergeSort (fun a b => decide (a.2 ≤ b.2))).take k
  if best.length = k ∧ archive ≠ [] then some (fun i => (best.map (fun p => p.1 i)).sum / k) else none

end Oneshot
end NG
