import Mathlib.Algebra.Order.Field.Basic
import Mathlib.Algebra.Group.Pi.Basic

/-!
# Model of the functions from Olympus

`OlympusSurface` (functions/olympussurfaces/core.py 38-71) and `OlympusEmulator` (functions/olympussurfaces/core.py 88-118). The surfaces, noises, datasets and emulators of the package are parameters;
of vectors only the differences are needed, coordinate by coordinate.
-/

namespace NG
namespace Olympus

variable {n : Nat} {F : Type} [Field F] [LinearOrder F] [IsStrictOrderedRing F]

/-- What `import_surface` gives (core.py 61-65): the surface itself and the surface with one draw of noise, and the shift of the instance (52). -/
structure Surface (n : Nat) (F : Type) where
  exact : (Fin n → F) → F
  noisy : (Fin n → F) → F
  shift : Fin n → F

/-- `_simulate_surface` (core.py 54-66). -/
def Surface.simulate (s : Surface n F) (x : Fin n → F) (noise : Bool) : F :=
  if noise then s.noisy (x - s.shift) else s.exact (x - s.shift)

/-- The function which is optimized, `self.surface` (core.py 47, 51). -/
def Surface.loss (s : Surface n F) (x : Fin n → F) : F := s.simulate x true

/-- `surface_without_noise` (core.py 48). -/
def Surface.withoutNoise (s : Surface n F) (x : Fin n → F) : F := s.simulate x false

/-- `evaluation_function` (core.py 68-71): only the first recommendation counts; the shift is subtracted here and again in `_simulate_surface`. `none` is an `IndexError`. -/
def Surface.evaluation (s : Surface n F) : List (Fin n → F) → Option F
  | [] => none
  | x :: _ => some (s.withoutNoise (x - s.shift))

/-- `_simulate_emulator` (core.py 111-118): `run` is the emulator, `maximize` whether its goal is to maximize. -/
def emulate (run : (Fin n → F) → F) (maximize : Bool) (x : Fin n → F) : F := run x * (if maximize then -1 else 1)

/-- The bounds of the emulator (core.py 107-109), `list(zip(*param_bounds))` with a pair for each parameter; `none` is the `IndexError` for a dataset without parameters. -/
def bounds (pairs : List (F × F)) : Option (List F × List F) :=
  match pairs with
  | [] => none
  | _ => some (pairs.map Prod.fst, pairs.map Prod.snd)

end Olympus
end NG
