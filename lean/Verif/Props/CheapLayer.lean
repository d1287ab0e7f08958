import Verif.Model.CheapLayer
import Verif.Props.ConstraintOp
import Mathlib.Order.MinMax
import Mathlib.Data.Rat.Defs
import Mathlib.Algebra.Order.Ring.Rat

/-!
# C173: the two ways to register a constraint
-/

namespace NG
namespace CheapLayer

variable {V α : Type} [LinearOrder α] [Zero α]

/-- **C173**: in both ways the function is called with the value of the parameter, for instrumentations as well. -/
theorem same_value {β : Type} (f : Obj V → β) (p : Par V) : layerCall f p = some (f p.value) := by
  cases p <;> rfl

/-- The documented meaning: true, or a float which is not negative (core.py 335-336). -/
def Documented : Result α → Prop
  | .bool b => b = true
  | .float (some x) => 0 ≤ x
  | .float none => False
  | .int _ => False

/-- **C173**: registered as a function, Booleans and numbers have the documented meaning. -/
theorem checked_documented (r : Result α) (h : r ≠ .float none) (hi : ∀ z, r ≠ .int z) : ∃ b, checked r = some b ∧ (b = true ↔ Documented r) := by
  cases r with
  | bool b => exact ⟨b, rfl, Iff.rfl⟩
  | int z => exact absurd rfl (hi z)
  | float x =>
    cases x with
    | none => exact absurd rfl h
    | some x => exact ⟨_, rfl, by simp [Documented]⟩

/-- Registered as a layer, a number is accepted exactly if it is not positive. -/
theorem layered_num (x : α) : layered (.float (some x)) = some (decide (x ≤ 0)) := by
  simp only [layered, max_eq_left_iff]

/-- Disagreement: zero is the only number for which the two ways agree; for all others one of them accepts the value and the other one does not. -/
theorem opposite (x : α) : checked (.float (some x)) = layered (.float (some x)) ↔ x = 0 := by
  rw [layered_num]
  simp only [checked, min_eq_left_iff, Option.some.injEq, decide_eq_decide]
  constructor
  · intro h
    rcases le_total 0 x with h0 | h0
    · exact le_antisymm (h.1 h0) h0
    · exact le_antisymm h0 (h.2 h0)
  · rintro rfl
    exact Iff.rfl

/-- Disagreement: the two ways agree on nothing else: Booleans raise in the layer, integers in the check, and nan is accepted by the check only. -/
theorem agree_iff (r : Result α) : checked r = layered r ↔ r = .float (some 0) := by
  cases r with
  | bool b => simp [checked, layered]
  | int z => simp [checked, layered]
  | float x =>
    cases x with
    | none => simp [checked, layered]
    | some x => rw [opposite]; simp

/-- **C173**, partial: what holds of the claim that `as_layer` keeps the meaning: the function is called in the same way, and a result of zero is accepted in both. -/
theorem as_layer_partial (f : Obj V → Result α) (p : Par V) :
    (⟨f, true⟩ : Registered V α).accepts p = (⟨f, false⟩ : Registered V α).accepts p ↔ f p.value = .float (some 0) := by
  simp only [Registered.accepts, same_value, if_true, Bool.false_eq_true, if_false, Option.bind_some]
  rw [eq_comm]
  exact agree_iff _

/-- **C173**: the functions that have to be registered as a layer are the opposite ones: a function `g` as a layer accepts what `f` accepts as a check, if `g` is a number which is positive exactly if
`f` is violated. -/
theorem layer_translation (f g : Obj V → Result α) (p : Par V) (x : α) (hg : g p.value = .float (some x)) (b : Bool) (hf : checked (f p.value) = some b)
    (h : 0 < x ↔ b = false) : (⟨g, true⟩ : Registered V α).accepts p = (⟨f, false⟩ : Registered V α).accepts p := by
  simp only [Registered.accepts, same_value, if_true, Bool.false_eq_true, if_false, Option.bind_some, hg, hf, layered_num, Option.some.injEq]
  cases b with
  | true => have : ¬ 0 < x := fun hx => by simpa using h.1 hx
            simpa using not_lt.1 this
  | false => simpa using h.2 rfl

/-- Disagreement: a container under the layer keeps exactly a value that violates the constraint as documented, and searches another one for a value that satisfies it (strictly). -/
theorem layer_keeps_violations {X : Type} (f : X → α) (budget : Nat) (ask : Nat → X → List (X × List α) → X) (p : Cop.Par X) (hc : p.cache = none) :
    (f p.root < 0 → (p.readContainer (fun x => [f x]) budget ask).1 = p.root) ∧
      (0 < f p.root → (p.readContainer (fun x => [f x]) budget ask).1 = Cop.solve (fun x => [f x]) budget (ask p.solved) p.root) := by
  obtain ⟨-, -, h1, h2⟩ := Cop.container_read (fun x => [f x]) budget ask p hc
  constructor
  · intro h
    exact h1 (by intro a ha; rw [List.mem_singleton.1 ha]; exact h.le)
  · intro h
    exact h2 fun hh => absurd (hh (f p.root) (by simp)) (not_le.2 h)

example : (⟨fun _ => .float (some (-1)), true⟩ : Registered Nat ℚ).accepts (.instrumentation [1] [("x", 2)]) = some true := by decide +kernel
example : (⟨fun _ => .float (some (-1)), false⟩ : Registered Nat ℚ).accepts (.instrumentation [1] [("x", 2)]) = some false := by decide +kernel
example : (⟨fun o => match o with | .pair [1] [("x", 2)] => .float (some 0) | _ => .bool true, true⟩ : Registered Nat ℚ).accepts (.instrumentation [1] [("x", 2)]) = some true := by decide +kernel

end CheapLayer
end NG
