import Mathlib.Algebra.BigOperators.Group.Finset.Basic
import Mathlib.Algebra.BigOperators.Fin
import Mathlib.Algebra.Field.Defs
import Mathlib.Algebra.Order.Ring.Defs

/-!
# Model of the compact genetic algorithm

`cGA` (optimization/optimizerlib.py 3573-3630). Candidates are given by the discretized value of each variable; the noisy inverse
discretization of `ask` and its inverse in `tell` are studied in C31.
-/

namespace NG
namespace Cga

variable {ι α : Type} [Field α] [LinearOrder α] {n : Nat}

/-- `llambda` (3601). -/
def llambda (workers : Nat) : Nat := max workers 40

/-- Lines 3624-3625: one row, before clipping. -/
def raw (l : Nat) (row : Fin n → α) (winner loser : Fin n) (j : Fin n) : α :=
  row j + (if j = winner then 1 / (l : α) else 0) - (if j = loser then 1 / (l : α) else 0)

/-- Lines 3626-3627. -/
def clipped (l : Nat) (row : Fin n → α) (winner loser : Fin n) (j : Fin n) : α := max (raw l row winner loser j) (1 / (l : α))

/-- Lines 3623-3628: one row. -/
def updateRow (l : Nat) (row : Fin n → α) (winner loser : Fin n) : Fin n → α :=
  if winner = loser then row
  else fun j => clipped l row winner loser j / (Finset.univ.sum (clipped l row winner loser))

/-- State (3596-3604): the probabilities and the previous loss with its candidate. -/
structure St (ι α : Type) (n : Nat) where
  p : ι → Fin n → α
  prev : Option (α × (ι → Fin n))

/-- Initial state (3596). -/
def start : St ι α n := ⟨fun _ _ => 1 / (n : α), none⟩

/-- `_internal_tell_candidate` (3613-3629). -/
def tell (l : Nat) (loss : α) (x : ι → Fin n) (s : St ι α n) : St ι α n :=
  match s.prev with
  | none => { s with prev := some (loss, x) }
  | some (loss0, x0) =>
    if loss < loss0 then ⟨fun i => updateRow l (s.p i) (x i) (x0 i), none⟩
    else ⟨fun i => updateRow l (s.p i) (x0 i) (x i), none⟩

/-- Cumulated probabilities `np.cumsum` (3609). -/
def cum (row : Fin n → α) (k : Nat) : α := (Finset.univ.filter (fun j : Fin n => j.val ≤ k)).sum row

/-- The value drawn for a variable (3608-3610), `u` being uniform in [0, 1). -/
def value (row : Fin n → α) (u : α) : Nat := ((List.range n).filter (fun k => decide (cum row k < u))).length

end Cga
end NG
