import Verif.Model.Discrete

/-!
# Standardized data of a `TransitionChoice` (nevergrad/parametrization/choice.py 213-228, container.py 91-103)
-/

namespace NG
namespace Disc

variable {O V : Type}

/-- `super()._layered_set_value(super()._layered_get_value())`, "force to bin" (choice.py 217): the value is read with the indices `ks` given by the
data and written again. The options afterwards and the indices; `none` for the exception. -/
def forceBin (get : O → V) (trySet : O → V → O × Bool) (os : List O) (ks : List Nat) : List O × Option (List Nat) :=
  match readAll get os ks with
  | none => (os, none)
  | some vs => setAll trySet vs os

/-- `_internal_set_standardized_data` (choice.py 213-217) on the indices: `xs` are the numbers held by the array once the data was added to it (one
per repetition), `os` the options once their part of the data was set. -/
noncomputable def setStd (cdf : ℝ → ℝ) (get : O → V) (trySet : O → V → O × Bool) (os : List O) (xs : List ℝ) : List O × Option (List Nat) :=
  forceBin get trySet os (xs.map (fun x => (transGet cdf os.length 1 x).toNat))

/-- `mutate` with `ordered=False` (choice.py 228-231): as many normal draws as repetitions are sent to the whole parameter, whose data consists of
that of the options, of the indices and of the transitions (container.py 94-97 compares the sizes). `false` is the ValueError. -/
def unorderedMutates (optionsDim repetitions transitionsDim : Nat) : Bool := repetitions = optionsDim + repetitions + transitionsDim

end Disc
end NG
