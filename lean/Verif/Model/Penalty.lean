import Mathlib.Analysis.SpecialFunctions.Pow.Real

/-!
# Model of the penalties of infeasible candidates

parametrization/utils.py 269-278 (`float_penalty`), parametrization/core.py 287-318 (`satisfies_constraints`, without tabu list: C43),
optimization/utils.py 354-399 (`ConstraintManager`), optimization/base.py 395-421 (the part of `tell` which changes the loss). Floats are reals; nan is
only kept where a constraint returns it.
-/

namespace NG
namespace Penalty

/-- The result of a constraint: a Boolean, a float (`none` for nan), or something else (an integer for instance). Used in `floatPenalty` (utils.py 269-278). -/
inductive Check where
  | bool (b : Bool)
  | num (x : Option ℝ)
  | other

/-- `float_penalty` (parametrization/utils.py 269-278); `none` is the TypeError. Python's `min(0, nan)` is 0. -/
noncomputable def floatPenalty : Check → Option ℝ
  | .bool b => some (if b then 0 else 1)
  | .num none => some (-0)
  | .num (some x) => some (-(if x < 0 then x else 0))
  | .other => none

/-- A parameter: the results of its constraints for its value, and its sub-parameters. Used in `satisfies` (core.py 287-318). -/
inductive Param where
  | mk (checks : List Check) (subs : List Param)

/-- The results of the constraints registered on the parameter itself. Used in `Manager.penalty` (base.py 394-399). -/
def Param.checks : Param → List Check
  | .mk c _ => c

/-- `all(float_penalty(func(val)) <= 0 for func in checkers)` (core.py 318): stops at the first violation; `none` is the TypeError. -/
noncomputable def allSatisfied : List Check → Option Bool
  | [] => some true
  | c :: cs =>
    match floatPenalty c with
    | none => none
    | some p => if p ≤ 0 then allSatisfied cs else some false

mutual
/-- `satisfies_constraints` (core.py 287-318). -/
noncomputable def satisfies : Param → Option Bool
  | .mk checks subs =>
    match satisfiesAll subs with
    | none => none
    | some false => some false
    | some true => allSatisfied checks

/-- `all(self._subobjects.apply("satisfies_constraints").values())` (287-289): all are computed first. -/
noncomputable def satisfiesAll : List Param → Option Bool
  | [] => some true
  | p :: ps =>
    match satisfies p, satisfiesAll ps with
    | some a, some b => some (a && b)
    | _, _ => none
end

/-- `ConstraintManager` (optimization/utils.py 363-366). -/
structure Manager where
  maxTrials : Int := 1000
  factor : ℝ := 1
  exponent : ℝ := 1.001

/-- `ConstraintManager.update` (372-392): whether it raises, and the manager afterwards. The attributes are set before the check. -/
noncomputable def Manager.update (m : Manager) (maxTrials : Option Int) (factor exponent : Option ℝ) : Bool × Manager :=
  let m : Manager := { maxTrials := maxTrials.getD m.maxTrials, factor := factor.getD m.factor, exponent := exponent.getD m.exponent }
  (if m.exponent < 1 then true else false, m)

/-- The sum of the penalties; `none` is the TypeError. Used in `Manager.penalty` (base.py 394-399). -/
noncomputable def penaltySum : List Check → Option ℝ
  | [] => some 0
  | c :: cs =>
    match floatPenalty c, penaltySum cs with
    | some p, some q => some (p + q)
    | _, _ => none

/-- `coeff` (396-397). The budget is positive: with 0, numpy divides by zero. -/
noncomputable def Manager.coeff (m : Manager) (numAsk : Nat) (budget : Option Nat) : ℝ :=
  m.factor * m.exponent ^ ((numAsk : ℝ) / Real.sqrt ((budget.getD 1 : Nat) : ℝ))

/-- `ConstraintManager.penalty` (394-399): only the constraints of the parameter itself count. -/
noncomputable def Manager.penalty (m : Manager) (p : Param) (numAsk : Nat) (budget : Option Nat) : Option ℝ :=
  (penaltySum p.checks).map (m.coeff numAsk budget * ·)

/-- `penalty_style`. Used in `Style.default` (base.py 406). -/
structure Style where
  a : ℝ
  b : ℝ
  c : ℝ
  d : ℝ
  e : ℝ
  f : ℝ

/-- The default style (base.py 406). -/
noncomputable def Style.default : Style := ⟨1e5, 1, 0.5, 1, 0.5, 1⟩

/-- `ratio` (base.py 407): whether more than half of the budget has been told. -/
noncomputable def ratio (budget : Option Nat) (numTell : Nat) : ℝ :=
  match budget with
  | some b => if (b : ℝ) / 2 < numTell then 1 else 0
  | none => 0

/-- `violation` (base.py 408-418), after `numTell` tells. -/
noncomputable def Style.violation (s : Style) (budget : Option Nat) (numTell : Nat) (loss : ℝ) (cv : List ℝ) : ℝ :=
  (s.a * ratio budget numTell + max loss 0) * (s.f + numTell) ^ s.e * (s.b * (cv.map (fun v => max v 0 ^ s.c)).sum ^ s.d)

/-- What `tell` reads. Used in `Tell.run` (base.py 395-421). -/
structure Tell where
  budget : Option Nat
  numAsk : Nat
  numTell : Nat
  manager : Manager
  loss : ℝ
  cand : Param
  /-- `constraint_violation`. -/
  cv : Option (List ℝ)
  /-- `penalty_style`. -/
  style : Option Style

/-- The loss given to the algorithm, and whether the archive is left as it was (`no_update`) (base.py 395-421); `none` is a TypeError. -/
noncomputable def Tell.run (t : Tell) : Option (ℝ × Bool) :=
  match satisfies t.cand with
  | none => none
  | some sat =>
    let first : Option (ℝ × Bool) :=
      if sat = false ∧ t.budget.isSome = true then (t.manager.penalty t.cand t.numAsk t.budget).map (fun p => (t.loss + p, true))
      else some (t.loss, false)
    match first with
    | none => none
    | some (loss, no) =>
      match t.cv with
      | none => some (loss, no)
      | some cv =>
        some (loss + (t.style.getD Style.default).violation t.budget t.numTell loss cv,
          no || (if 0 < (cv.map (fun v => max v 0)).sum then true else false))

end Penalty
end NG
