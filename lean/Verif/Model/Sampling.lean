import Verif.Model.Sequences
import Mathlib.Analysis.Real.Sqrt

/-!
# The points of the sampling searches (nevergrad/optimization/oneshot.py 251-343, sequences.py 35-221)

`_SamplingSearch` without opposition (which is in `Model/Oneshot.lean`), for parametrizations without bounds, where the normalizer applies its transform to all
coordinates (parametrization/helpers.py 199-240). Numbers are exact; `none` in a point is a coordinate which is infinite or not a number.
-/

namespace NG
namespace Sampling
open Seq

/-- The samplers (oneshot.py 289-294). -/
inductive Kind | halton | hammersley | lhs | random
deriving DecidableEq

/-- `autorescale` (oneshot.py 329-334). -/
inductive Auto | off | auto | autotune
deriving DecidableEq

/-- The arguments of the constructor. Used in `ask` (oneshot.py 253-283). -/
structure Conf where
  kind : Kind
  scrambled : Bool
  middle : Bool
  auto : Auto
  scale : ℝ
  rescaled : Bool

/-- What comes from outside: the first primes (sequences.py 144), the draws of the permutations and the numbers of the generators; `uniform t k` is the `t`-th draw
of the generator of the optimizer for coordinate `k`. Used in `point` (sequences.py 109-112, 128-129, 182-185, 200-202). -/
structure Draws where
  primes : List Nat
  choice : Nat → List Nat
  perms : List (List Nat)
  seeded : Nat → Nat → ℝ
  uniform : Nat → Nat → ℝ

/-- A sampler: its budget, `index`, and the number of draws of its generator. Used in `call` (sequences.py 35-66). -/
structure Smp where
  budget : Option Nat
  index : Nat
  drawn : Nat
deriving DecidableEq

/-- `_internal_sampler` (sequences.py 109-112, 128-129, 182-185, 200-202). -/
noncomputable def point (c : Conf) (D : Draws) (dim : Nat) (s : Smp) : List ℝ :=
  match c.kind with
  | .halton => halton (permutations c.scrambled D.choice D.primes) s.index
  | .hammersley => hammersley (s.budget.getD 0) (permutations c.scrambled D.choice D.primes) s.index
  | .lhs => D.perms.mapIdx fun k perm => (((perm.getD s.index 0 : Nat) : ℝ) + D.seeded s.drawn k) / ((s.budget.getD 0 : Nat) : ℝ)
  | .random => (List.range dim).map fun k => D.uniform s.drawn k

/-- `__call__` (sequences.py 49-56); `none` is the `AssertionError`. -/
noncomputable def call (c : Conf) (D : Draws) (dim : Nat) (s : Smp) : Option (List ℝ × Smp) :=
  match s.budget with
  | none => some (point c D dim s, { s with index := s.index + 1, drawn := s.drawn + 1 })
  | some b => if s.index < b then some (point c D dim s, { s with index := s.index + 1, drawn := s.drawn + 1 }) else none

/-- `n` calls. Built on `call` (sequences.py 49-56, 58-63). -/
noncomputable def calls (c : Conf) (D : Draws) (dim : Nat) : Nat → Smp → Option (List (List ℝ) × Smp)
  | 0, s => some ([], s)
  | n + 1, s =>
    match call c D dim s with
    | none => none
    | some (x, s') =>
      match calls c D dim n s' with
      | none => none
      | some (xs, s'') => some (x :: xs, s'')

/-- `reinitialize` (sequences.py 65-66, 105-107): only the one of Latin hypercubes goes back to its seed. -/
def reinitialize (c : Conf) (s : Smp) : Smp :=
  match c.kind with
  | .lhs => { s with index := 0, drawn := 0 }
  | _ => { s with index := 0 }

/-- The property `sampler` (oneshot.py 285-307) with the constructors (sequences.py 89-103, 117-126, 161-169, 190-198); `none` is an error: no budget where one is needed, a scrambling which is not
supported, or an error of the rescaler. -/
noncomputable def sampler (c : Conf) (D : Draws) (dim : Nat) (budget : Option Nat) : Option (Smp × Option (Rescaler ℝ)) :=
  let inner := budget.map fun b => b - (if c.middle then 1 else 0)
  if (c.kind = .hammersley ∨ c.kind = .lhs) ∧ inner = none then none
  else if (c.kind = .lhs ∨ c.kind = .random) ∧ c.scrambled = true then none
  else
    let s : Smp := { budget := inner, index := 0, drawn := 0 }
    if c.rescaled then
      match inner with
      | none => none
      | some b =>
        match calls c D dim b s with
        | none => none
        | some (xs, s') =>
          match Rescaler.make xs with
          | none => none
          | some r => some (reinitialize c s', some r)
    else some (s, none)

/-- The scale (oneshot.py 329-334): the outer `none` is the `AssertionError` without a budget, the inner one is infinite, since `np.log(1)` is 0. -/
noncomputable def scaleOf (c : Conf) (dim : Nat) (budget : Option Nat) : Option (Option ℝ) :=
  match c.auto with
  | .off => some (some c.scale)
  | .auto => budget.map fun (b : Nat) => if dim = 1 then none else some ((1 + Real.log b) / (4 * Real.log dim))
  | .autotune => budget.map fun (b : Nat) => some (Real.sqrt (Real.log b / dim))

/-- `np.clip` with `eps = 1e-9` (transforms.py 273-306). -/
noncomputable def clip (y : ℝ) : ℝ := min (max y (1 / 10 ^ 9)) (1 - 1 / 10 ^ 9)

/-- Outside of the unit interval, which a number that is not one never is (transforms.py 300). -/
noncomputable def outside : Option ℝ → Bool
  | none => false
  | some v => decide (1 < v ∨ v < 0)

/-- One coordinate of `CumulativeDensity.backward` (transforms.py 304-305): an infinite scale gives no number. -/
noncomputable def coordinate (ppf : ℝ → ℝ) (scale : Option ℝ) : Option ℝ → Option ℝ
  | none => none
  | some v => scale.map fun s => s * ppf (clip v)

/-- `CumulativeDensity(0, 1, scale).backward` (transforms.py 299-305); `none` is the `ValueError`. -/
noncomputable def backward (ppf : ℝ → ℝ) (scale : Option ℝ) (y : List (Option ℝ)) : Option (List (Option ℝ)) :=
  if y.any outside then none else some (y.map (coordinate ppf scale))

/-- The state of the optimizer: the number of asks and the sampler, which is made when needed. Used in `ask` (oneshot.py 285-343). -/
structure St where
  numAsk : Nat
  smp : Option (Smp × Option (Rescaler ℝ))

/-- `_internal_ask` (oneshot.py 309-343) without opposition; `none` is an error. -/
noncomputable def ask (c : Conf) (D : Draws) (ppf : ℝ → ℝ) (dim : Nat) (budget : Option Nat) (st : St) : Option (List (Option ℝ) × St) :=
  if c.middle && st.numAsk == 0 then some (List.replicate dim (some 0), { st with numAsk := st.numAsk + 1 })
  else
    match (match st.smp with | some x => some x | none => sampler c D dim budget) with
    | none => none
    | some (s, r) =>
      match call c D dim s with
      | none => none
      | some (x, s') =>
        let y := match r with | none => x.map some | some r => r.apply x
        match scaleOf c dim budget with
        | none => none
        | some scale => (backward ppf scale y).map fun out => (out, { numAsk := st.numAsk + 1, smp := some (s', r) })

/-- `n` asks from the start. Built on `ask` (oneshot.py 309-343). -/
noncomputable def asks (c : Conf) (D : Draws) (ppf : ℝ → ℝ) (dim : Nat) (budget : Option Nat) : Nat → St → Option (List (List (Option ℝ)) × St)
  | 0, st => some ([], st)
  | n + 1, st =>
    match ask c D ppf dim budget st with
    | none => none
    | some (x, st') =>
      match asks c D ppf dim budget n st' with
      | none => none
      | some (xs, st'') => some (x :: xs, st'')

/-- The state of a new optimizer (oneshot.py 269-270). -/
def St.init : St := { numAsk := 0, smp := none }

end Sampling
end NG
