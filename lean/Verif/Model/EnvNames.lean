import Mathlib.Data.List.Defs

/-!
# Model of the list of environments

`GymMulti.get_env_names` (functions/gym/multigym.py 86-121). The environments of the registry are given by their names and by what trying them gives.
-/

namespace NG
namespace EnvNames

/-- An entry of the registry (multigym.py 92): its name, and the size of the sum of three sampled actions (105-108), `none` if making, resetting or stepping the environment or adding the actions raises. -/
structure Env where
  id : String
  actions : Option Nat
deriving DecidableEq, Repr

/-- `x in s` for texts (multigym.py 94-97, 101). -/
def contains (x s : List Char) : Bool := s.tails.any fun t => x.isPrefixOf t

/-- The parts of names that are refused (multigym.py 96). -/
def refused : List String := ["Kelly", "Copy", "llvm", "BulletEnv", "Minitaur", "Kuka", "InvertedPendulumSwingupBulletEnv"]

/-- Whether the environment can be tried and has small actions (multigym.py 102-113). -/
def small (actions : Option Nat) : Bool :=
  match actions with
  | none => false
  | some n => decide (n < 15000)

/-- Whether the body of the loop reaches `append` (multigym.py 93-114). An array has a size which is a number: if it is too large, `a1.size()` raises as well (113). -/
def kept (e : Env) : Bool :=
  !(refused.any fun x => contains x.toList e.id.toList) && (e.id != "RacecarZedBulletEnv-v0" && (!contains "CarRacing-v".toList e.id.toList && small e.actions))

/-- What is printed (multigym.py 117-120). -/
inductive Line where
  | because (id : String)
  | similar
deriving DecidableEq, Repr

/-- The loop (multigym.py 92-120), `d` is `max_displays`: the names and what is printed. -/
def loop : List Env → Int → List String × List Line
  | [], _ => ([], [])
  | e :: l, d =>
    if kept e then
      ((e.id :: (loop l d).1), (loop l d).2)
    else
      ((loop l (d - 1)).1, (if 0 < d - 1 then [Line.because e.id] else []) ++ ((if d - 1 = 0 then [Line.similar] else []) ++ (loop l (d - 1)).2))

/-- `get_env_names` (multigym.py 86-121). -/
def envNames (registry : List Env) : List String × List Line := loop registry 10

end EnvNames
end NG
