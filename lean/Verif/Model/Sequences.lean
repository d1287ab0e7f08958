import Mathlib.Algebra.Order.Field.Basic
import Mathlib.Data.Nat.Sqrt
import Mathlib.Analysis.SpecialFunctions.Log.Basic

/-!
# Samplers in the unit cube

Source: nevergrad/optimization/sequences.py.
-/

namespace NG
namespace Seq

/-- `is_prime[index + index :: index] = False` (sequences.py 28) on the boolean array. -/
def strike (a : List Bool) (i : Nat) : List Bool := a.mapIdx (fun m b => if i + i ≤ m ∧ (m - (i + i)) % i = 0 then false else b)

/-- One turn of the loop of the sieve (sequences.py 27-28). -/
def sieveStep (a : List Bool) (i : Nat) : List Bool := if a.getD i false then strike a i else a

/-- The array after the loop (sequences.py 24-28) for an array of the given size; `int(np.sqrt(size))` is the integer
square root. -/
def sieve (size : Nat) : List Bool :=
  let a := (List.replicate size true).mapIdx (fun m b => if m = 0 ∨ m = 1 then false else b)
  (List.range (1 + Nat.sqrt size)).foldl sieveStep a

/-- `np.where(is_prime)[0]` (sequences.py 29). -/
def whereTrue (a : List Bool) : List Nat := (List.range a.length).filter (fun m => a.getD m false)

/-- `_get_first_primes` (sequences.py 17-32), given the size of the array; `none` is the RuntimeError. -/
def firstPrimesOf (size num : Nat) : Option (List Nat) :=
  if num < 6 then some ([2, 3, 5, 7, 11].take num)
  else
    let primes := whereTrue (sieve size)
    if primes.length < num then none else some (primes.take num)

/-- The size of the array (sequences.py 24). -/
noncomputable def primeBound (num : Nat) : Nat := ⌊1 + (num : ℝ) * (Real.log (Real.log num) + Real.log num)⌋₊

/-- `_get_first_primes` (sequences.py 17-32). -/
noncomputable def firstPrimes (num : Nat) : Option (List Nat) := firstPrimesOf (primeBound num) num

section vdc
variable {α : Type} [Field α]

/-- The loop of `HaltonSampler.vdc` (sequences.py 175-179). The number of turns is bounded by `n` since the base is at
least 2; the loop does not end in base 1. -/
def vdcLoop (permut : List Nat) : Nat → Nat → Nat → α → α
  | 0, _, _, acc => acc
  | fuel + 1, n, denom, acc =>
    if n = 0 then acc
    else
      let denom := denom * permut.length
      vdcLoop permut fuel (n / permut.length) denom (acc + ((permut.getD (n % permut.length) 0 : Nat) : α) / (denom : α))

/-- `HaltonSampler.vdc` (sequences.py 171-180), in exact arithmetic. -/
def vdc (n : Nat) (permut : List Nat) : α := vdcLoop permut (n + 1) (n + 1) 1 0

/-- The permutations of `HaltonPermutationGenerator` (sequences.py 148-156); `choice p` is the outcome of
`randgen.choice(fulllist[1:p], p - 1, replace=False)`. The generator is created anew with the same seed at each sample,
so `choice` does not depend on the sample. -/
def permutations (scrambling : Bool) (choice : Nat → List Nat) (primes : List Nat) : List (List Nat) :=
  primes.map (fun p => if scrambling then 0 :: choice p else List.range p)

/-- `HaltonSampler._internal_sampler` (sequences.py 182-185). -/
def halton (perms : List (List Nat)) (index : Nat) : List α := perms.map (fun sigma => vdc index sigma)

/-- `HammersleySampler._internal_sampler` (sequences.py 200-202). -/
def hammersley (budget : Nat) (perms : List (List Nat)) (index : Nat) : List α :=
  ((index : α) + 1 / 2) / budget :: halton perms index

/-- The state of a `LHSSampler` (sequences.py 89-103): the permutations, the call index and the number of draws taken from
the generator. -/
structure LHS where
  budget : Nat
  perms : List (List Nat)
  index : Nat
  drawn : Nat

/-- `Sampler.__call__` with `LHSSampler._internal_sampler` (sequences.py 49-56, 109-112); `rand t k` is the number drawn by
the `t`-th call of the seeded generator for dimension `k`. `none` is the failed assertion. -/
def LHS.call (rand : Nat → Nat → α) (s : LHS) : Option (List α × LHS) :=
  if s.index < s.budget then
    some (s.perms.mapIdx (fun k perm => (((perm.getD s.index 0 : Nat) : α) + rand s.drawn k) / (s.budget : α)),
      { s with index := s.index + 1, drawn := s.drawn + 1 })
  else none

/-- `LHSSampler.reinitialize` (sequences.py 105-107): the generator restarts from the same seed. -/
def LHS.reinitialize (s : LHS) : LHS := { s with index := 0, drawn := 0 }

/-- Calling the sampler `n` times. Built on `LHS.call` (sequences.py 49-56, 109-112). -/
def LHS.calls (rand : Nat → Nat → α) : Nat → LHS → Option (List (List α) × LHS)
  | 0, s => some ([], s)
  | n + 1, s =>
    match s.call rand with
    | none => none
    | some (x, s') =>
      match LHS.calls rand n s' with
      | none => none
      | some (xs, s'') => some (x :: xs, s'')

end vdc

section rescale
variable {α : Type} [Field α] [LinearOrder α]

/-- A `Rescaler` (sequences.py 205-216). -/
structure Rescaler (α : Type) where
  mins : List α
  maxs : List α
  epsilon : α

/-- `Rescaler.__init__` (sequences.py 206-216); `none` when there is no point or when the assertion fails. -/
def Rescaler.make (points : List (List α)) : Option (Rescaler α) :=
  match points with
  | [] => none
  | p :: ps =>
    let mins := ps.foldl (fun m q => List.zipWith min m q) p
    let maxs := ps.foldl (fun m q => List.zipWith max m q) p
    let epsilon := (mins ++ maxs.map (fun s => 1 - s)).foldr min (1 / 1000000000000000)
    if 0 < epsilon then some { mins := mins, maxs := maxs, epsilon := epsilon } else none

/-- `Rescaler.apply` (sequences.py 218-221), for one coordinate; `none` when the range is empty, where numpy divides by
zero and gives nan or an infinity. -/
def rescale (epsilon mn mx x : α) : Option α :=
  if mx - mn = 0 then none else some (epsilon + (1 - 2 * epsilon) / (mx - mn) * (x - mn))

/-- `Rescaler.apply` (sequences.py 218-221). -/
def Rescaler.apply (r : Rescaler α) (point : List α) : List (Option α) :=
  List.zipWith (fun (b : α × α) x => rescale r.epsilon b.1 b.2 x) (r.mins.zip r.maxs) point

end rescale
end Seq
end NG
