import Mathlib.Analysis.SpecialFunctions.Pow.Real

/-!
# Model of the population-size controller

`_PopulationSizeController` (optimization/optimizerlib.py 1039-1066), used by TBPSA, EDA (variants PCEDA, MPCEDA) and EMNA. `tell`
clips large losses and NaN (base.py 341-346), but minus infinity goes through: a loss which is not finite is `none`. Arithmetic is exact.
-/

namespace NG
namespace PopSize

/-- The constant parameters `min_mu` and `num_workers`. Used in `cfgOf` (optimizerlib.py 1042-1048). -/
structure Cfg where
  minMu : Nat
  workers : Nat

/-- Sizes `mu` and `llambda`, and `_loss_record`. Used in `start` (optimizerlib.py 1042-1048). -/
structure St where
  mu : Nat
  lam : Nat
  record : List (Option ℝ) := []

/-- The constructor (1042-1048). -/
def cfgOf (mu dim workers : Nat) : Cfg := { minMu := min mu dim, workers := workers }

/-- The constructor (1042-1048). -/
def start (lam mu workers : Nat) : St := { mu := mu, lam := max lam workers }

/-- `sum(fitnesses) / float(self.llambda)` (1055); `none` as soon as one value is not finite. -/
noncomputable def mean (lam : Nat) (l : List (Option ℝ)) : Option ℝ := (l.mapM id).map (fun xs => xs.sum / lam)

/-- The square of `np.std(fitnesses) / np.sqrt(self.llambda - 1)` (1056); `none` (NaN) when one value is not finite. For `llambda = 1` the code
divides 0 by 0, also NaN. -/
noncomputable def var (lam : Nat) (l : List (Option ℝ)) : Option ℝ :=
  if lam ≤ 1 then none
  else (l.mapM id).map (fun xs => (xs.map (fun x => (x - xs.sum / xs.length) ^ 2)).sum / xs.length / ((lam : ℝ) - 1))

/-- Line 1057, as a floating point division: NaN for 0/0, infinite for other divisions by 0. The result is only compared to 2 (1058). -/
noncomputable def divLtTwo (a b : ℝ) : Bool := if b = 0 then decide (a < 0) else decide (a / b < 2)

/-- The test `z < 2.0` (1053-1058): false for NaN. -/
noncomputable def grows (lam : Nat) (record : List (Option ℝ)) : Bool :=
  match mean lam (record.take lam), mean lam (record.drop (record.length - lam)),
      var lam (record.take lam), var lam (record.drop (record.length - lam)) with
  | some m1, some m2, some v1, some v2 => divLtTwo (m1 - m2) (Real.sqrt (v1 + v2))
  | _, _, _, _ => false

/-- `int(self.mu * 0.84)` (1061), exact. -/
def shrunk (mu : Nat) : Nat := mu * 21 / 25

/-- Lines 1058-1065. -/
def resize (cfg : Cfg) (grow : Bool) (s : St) : St :=
  if 1 < cfg.workers then
    { mu := max (4 * (if grow then s.mu * 2 else max cfg.minMu (shrunk s.mu))) cfg.workers / 4
      lam := max (4 * (if grow then s.mu * 2 else max cfg.minMu (shrunk s.mu))) cfg.workers }
  else
    { mu := if grow then s.mu * 2 else max cfg.minMu (shrunk s.mu)
      lam := 4 * (if grow then s.mu * 2 else max cfg.minMu (shrunk s.mu)) }

/-- `add_value` (1050-1066). -/
noncomputable def add (cfg : Cfg) (loss : Option ℝ) (s : St) : St :=
  if 5 * s.lam ≤ s.record.length + 1 then resize cfg (grows s.lam (s.record ++ [loss])) s
  else { s with record := s.record ++ [loss] }

/-- A sequence of values. Built on `add` (optimizerlib.py 1050-1066). -/
noncomputable def run (cfg : Cfg) (s : St) (losses : List (Option ℝ)) : St := losses.foldl (fun s l => add cfg l s) s

end PopSize
end NG
