import Mathlib.Analysis.SpecialFunctions.Pow.Real

/-!
# Model of SPSA

`SPSA` (optimization/optimizerlib.py 1546-1612) with the part of `ask` (base.py 511-533) which tells infinity for candidates rejected by
cheap constraints. Vectors are functions from the coordinates `ι`; a vector which is not finite (some infinity or NaN) is `none`.
-/

namespace NG
namespace Spsa

/-- `A` (1575). -/
def bigA (budget : Option Nat) : Nat :=
  match budget with
  | none => 10
  | some b => max 10 (b / 20)

/-- `_ck` (1586-1588). -/
noncomputable def ck (k : Nat) : ℝ := (1 / 10) / ((k / 2 + 1 : Nat) : ℝ) ^ (101 / 1000 : ℝ)

/-- `_ak` (1590-1592). -/
noncomputable def ak (bigA k : Nat) : ℝ := (1 / 100000) / ((k / 2 + 1 + bigA : Nat) : ℝ) ^ (602 / 1000 : ℝ)

/-- State (1565-1575). `delta` is NaN before the first draw; losses may be infinite. -/
structure St (ι : Type) where
  init : Bool
  idx : Nat
  delta : Option (ι → ℝ)
  ym : Option (WithTop ℝ)
  yp : Option (WithTop ℝ)
  t : Option (ι → ℝ)
  avg : Option (ι → ℝ)

/-- Initial state (1565-1575). -/
def start {ι : Type} : St ι := ⟨true, 0, none, none, none, some (fun _ => 0), some (fun _ => 0)⟩

variable {ι : Type}

/-- Line 1603: `t -= (a (yp - ym) / 2 / c) delta`. -/
noncomputable def moved (a c : ℝ) (ym yp : WithTop ℝ) (delta t : Option (ι → ℝ)) : Option (ι → ℝ) :=
  match ym, yp, delta, t with
  | some m, some p, some δ, some t => some (fun i => t i - (a * (p - m) / 2 / c) * δ i)
  | _, _, _, _ => none

/-- Line 1604: `avg += (t - avg) / n`. -/
noncomputable def averaged (n : Nat) (t avg : Option (ι → ℝ)) : Option (ι → ℝ) :=
  match t, avg with
  | some t, some avg => some (fun i => avg i + (t i - avg i) / n)
  | _, _ => none

/-- Lines 1600-1604: the state at an even ask, before the draw. -/
noncomputable def update (A : Nat) (s : St ι) : St ι :=
  if s.init then s
  else
    match s.ym, s.yp with
    | some m, some p =>
      { s with t := moved (ak A s.idx) (ck s.idx) m p s.delta s.t,
               avg := averaged (s.idx / 2 + 1) (moved (ak A s.idx) (ck s.idx) m p s.delta s.t) s.avg }
    | _, _ => s  -- failed assertion (1598), excluded by `init`

/-- `t ± c delta` (1602-1603). -/
noncomputable def shifted (c : ℝ) (delta t : Option (ι → ℝ)) : Option (ι → ℝ) :=
  match delta, t with
  | some δ, some t => some (fun i => t i + c * δ i)
  | _, _ => none

/-- `_internal_ask` (1594-1603); `draw` are the random bits. -/
noncomputable def ask (A : Nat) (draw : ι → Bool) (s : St ι) : Option (ι → ℝ) × St ι :=
  if s.idx % 2 = 0 then
    (shifted (-ck s.idx) (some (fun i => if draw i then 1 else -1)) (update A s).t,
      { update A s with delta := some (fun i => if draw i then 1 else -1) })
  else (shifted (ck s.idx) s.delta s.t, s)

/-- `_internal_tell` (1605-1609): also for candidates which were not asked (base.py 593-597). -/
def tell (loss : WithTop ℝ) (s : St ι) : St ι :=
  if s.idx % 2 = 0 then { s with ym := some loss, idx := s.idx + 1, init := s.init && s.yp.isNone }
  else { s with yp := some loss, idx := s.idx + 1, init := s.init && s.ym.isNone }

/-- A candidate rejected by the cheap constraints (base.py 517-531, SPSA has `no_parallelization`). -/
noncomputable def rejected (A : Nat) (draw : ι → Bool) (s : St ι) : St ι := tell ⊤ (ask A draw s).2

/-- Two asks each followed by the tell of its point: the points and the final state. `round` is the random draw and the two losses. Built on `tell` (optimizerlib.py 1605-1609). -/
noncomputable def pair (A : Nat) (s : St ι) (round : (ι → Bool) × ℝ × ℝ) : (Option (ι → ℝ) × Option (ι → ℝ)) × St ι :=
  (((ask A round.1 s).1, (ask A round.1 (tell (round.2.1 : WithTop ℝ) (ask A round.1 s).2)).1),
    tell (round.2.2 : WithTop ℝ) (ask A round.1 (tell (round.2.1 : WithTop ℝ) (ask A round.1 s).2)).2)

end Spsa
end NG
