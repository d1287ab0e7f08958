/-!
# Model of benchmark chunks

`Moduler` and `BenchmarkChunk` (benchmark/core.py 51-219).
-/

namespace NG
namespace Bench

/-- `Moduler` (51-71); indices are not negative here (all those made by chunks are not). -/
structure Moduler where
  modulo : Nat
  index : Nat
  total : Nat
deriving DecidableEq, Repr

/-- The assertions of the constructor (67-68). -/
def Moduler.mk? (modulo index total : Nat) : Option Moduler :=
  if 0 < modulo ∧ index < modulo then some ⟨modulo, index, total⟩ else none

/-- `split` (73-77). -/
def Moduler.split (m : Moduler) (number : Nat) : List Moduler :=
  (List.range number).map (fun k => ⟨m.modulo * number, m.index + k * m.modulo, m.total⟩)

/-- `__len__` (79-82). -/
def Moduler.len (m : Moduler) : Nat := m.total / m.modulo + (if m.index < m.total % m.modulo then 1 else 0)

/-- `__call__` (84-85). -/
def Moduler.call (m : Moduler) (index : Nat) : Bool := index % m.modulo == m.index

/-- A chunk (108-126): the plan maker of the registry, as a function of the seed, which is none when not provided. -/
structure Chunk (X : Type) where
  maker : Option Nat → List X
  repetitions : Nat
  seed : Option Nat
  cap : Option Nat

/-- `islice(g, 0, cap_index)`, with the capping of line 117. -/
def capped {X : Type} (cap : Option Nat) (l : List X) : List X :=
  match cap with
  | none => l
  | some c => l.take (max 1 c)

/-- The property `moduler` (128-135) of a chunk which was not split. -/
def Chunk.moduler {X : Type} (c : Chunk X) : Moduler := ⟨1, 0, (capped c.cap (c.maker none)).length * c.repetitions⟩

/-- All experiments, chained (143-151). -/
def Chunk.plan {X : Type} (c : Chunk X) : List X :=
  ((List.range c.repetitions).map (fun k => capped c.cap (c.maker (c.seed.map (· + k))))).flatten

/-- `__iter__` (153-156), for the moduler of the chunk: indices and experiments. -/
def iter {X : Type} (plan : List X) (m : Moduler) : List (Nat × X) :=
  (plan.zipIdx.map (fun e => (e.2, e.1))).filter (fun e => m.call e.1)

/-- What a chunk remembers (120-121). -/
structure Memory (X S : Type) where
  summaries : List S
  current : Option X

/-- `compute` (197-219), from local index `ind`. `fin` tells which experiments are not interrupted by an exception (in `run` or in
the process function). Returns whether the end was reached. -/
def compute {X S : Type} (eq : X → X → Bool) (describe : X → S) (fin : Nat → Bool) : Nat → List X → Memory X S → Bool × Memory X S
  | _, [], s => (true, s)
  | ind, x :: xs, s =>
    if ind < s.summaries.length then compute eq describe fin (ind + 1) xs s
    else
      let cur := match s.current with
        | none => x
        | some c => if !(eq x c) then x else c
      if fin ind then compute eq describe fin (ind + 1) xs ⟨s.summaries ++ [describe cur], none⟩
      else (false, { s with current := some cur })

end Bench
end NG
