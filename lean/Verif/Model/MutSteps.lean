import Mathlib.Algebra.Field.Basic

/-!
# Steps of the default mutation (nevergrad/parametrization/core.py 123-130, container.py 79-103, choice.py 152-158, data.py 300-327)

The variables of a parameter are numbered as in its standardized data; `x c` is the content of `_value` for variable `c`. The generator provides the
standard normal draws `eps 0, eps 1, ...`, and a state is the values together with the number of draws already used. The draws of the sampling of
choices are not part of this stream: the options drawn are part of the shape.

Simplifications: sigma is a constant, and no layer modifies `_value` (bounds, integer casting do).
-/

namespace NG
namespace MutSteps

variable {K : Type} [Field K]

/-- The shape of a parameter. `data n sigma`: an `Array` of `n` entries. `group order kids own`: sub-parameters `kids` in the order of the
standardized data; `mutate` calls `mutate` of those listed in `order` (with repetitions), and then, if `own`, steps itself. Used in `const` (core.py 477-520). -/
inductive Shape (K : Type) where
  | data (n : Nat) (sigma : K)
  | group (order : List Nat) (kids : List (Shape K)) (own : Bool)

/-- A constant has no variable (core.py 477-520). -/
def const : Shape K := .data 0 1

/-- `Dict`, `Tuple`, `Instrumentation`: content is mutated in order of insertion (core.py 126, utils.py `Subobjects.apply`) while the standardized
data is sorted by keys (container.py 82-85); `Container` does not override `_layered_mutate`, so that of `Parameter` follows (core.py 127-130). -/
def dict (order : List Nat) (kids : List (Shape K)) : Shape K := .group order kids true

/-- `Choice` (choice.py 152-158): the weights (`w` of them, key `indices`, sorted after `choices`), then the options drawn. `super().mutate` is
not called. -/
def choice (opts : List (Shape K)) (w : Nat) (sigma : K) (drawn : List Nat) : Shape K :=
  .group (opts.length :: drawn) (opts ++ [.data w sigma]) false

mutual
/-- `dimension` (container.py 41-43, data.py 137-139). -/
def dim : Shape K → Nat
  | .data n _ => n
  | .group _ kids _ => dimL kids
/-- The sum of the dimensions. Used in `dim` (container.py 41-43). -/
def dimL : List (Shape K) → Nat
  | [] => 0
  | s :: l => dim s + dimL l
end

mutual
/-- `set_standardized_data(data, reference=self)` (container.py 91-103, data.py 300-306) of the parameter whose first variable is `off`: every entry
of `data` is multiplied by sigma and added. -/
def setData (data : Nat → K) (off : Nat) : Shape K → (Nat → K) → Nat → K
  | .data n sigma, x => fun c => if off ≤ c ∧ c < off + n then sigma * (data (c - off) + x c / sigma) else x c
  | .group _ kids _, x => setDataL data off kids x
/-- The slices of the sub-parameters, in order. Used in `setData` (container.py 91-103). -/
def setDataL (data : Nat → K) (off : Nat) : List (Shape K) → (Nat → K) → Nat → K
  | [], x => x
  | s :: l, x => setDataL (fun i => data (dim s + i)) (off + dim s) l (setData data off s x)
end

/-- `Parameter._layered_mutate` (core.py 129-130): one draw for each variable. -/
def ownStep (eps : Nat → K) (s : Shape K) (off : Nat) (st : (Nat → K) × Nat) : (Nat → K) × Nat :=
  (setData (fun i => eps (st.2 + i)) off s st.1, st.2 + dim s)

mutual
/-- `mutate` (core.py 123-127, choice.py 152-158) of the parameter whose first variable is `off`. -/
def mutate (eps : Nat → K) : Shape K → Nat → (Nat → K) × Nat → (Nat → K) × Nat
  | .data n sigma, off => ownStep eps (.data n sigma) off
  | .group order kids own, off => fun st =>
    let fs := mutators eps kids off
    let r := order.foldl (fun st i => match fs[i]? with | some f => f st | none => st) st
    if own then ownStep eps (.group order kids own) off r else r
/-- `mutate` of the sub-parameters. Used in `mutate` (core.py 123-127). -/
def mutators (eps : Nat → K) : List (Shape K) → Nat → List ((Nat → K) × Nat → (Nat → K) × Nat)
  | [], _ => []
  | s :: l, off => mutate eps s off :: mutators eps l (off + dim s)
end

end MutSteps
end NG
