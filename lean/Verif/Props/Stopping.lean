import Verif.Model.Tools
import Mathlib.Order.Defs.LinearOrder
import Mathlib.Order.Basic
import Mathlib.Algebra.Order.Monoid.Defs
import Mathlib.Data.Rat.Cast.Order
import Mathlib.Tactic.Common

/-! # C39, C40: early stopping and logging intervals -/

namespace NG
namespace Tools

variable {α : Type} [LinearOrder α]

/-! ## C39: no improvement -/

/-- The state after the observed values `vals`: `best` is their first minimum, reached `count` values before the last. -/
def TolOk (vals : List α) (c : Tol α) : Prop :=
  (vals = [] ∧ c.best = none ∧ c.count = 0) ∨
    ∃ (pre post : List α) (b : α), vals = pre ++ b :: post ∧ c.best = some b ∧ c.count = post.length ∧
      (∀ x ∈ pre, b < x) ∧ ∀ x ∈ post, b ≤ x

theorem tol_step (vals : List α) (c : Tol α) (o : Option α) (h : TolOk vals c) :
    TolOk (vals ++ o.toList) (c.step o).2 ∧ (c.step o).2.window = c.window ∧
      ((c.step o).1 = true ↔ o.isSome ∧ c.window < (c.step o).2.count) := by
  cases o with
  | none => simpa [Tol.step] using h
  | some v =>
    rcases h with ⟨rfl, hb, hc⟩ | ⟨pre, post, b, rfl, hb, hc, hpre, hpost⟩
    · refine ⟨Or.inr ⟨[], [], v, by simp, by simp [Tol.step, hb], by simp [Tol.step, hb, hc], by simp, by simp⟩, ?_, ?_⟩
      · simp [Tol.step, hb]
      · simp [Tol.step, hb, hc]
    · by_cases hle : b ≤ v
      · refine ⟨Or.inr ⟨pre, post ++ [v], b, by simp, by simp [Tol.step, hb, hle], by simp [Tol.step, hb, hle, hc], hpre, ?_⟩, ?_, ?_⟩
        · intro x hx
          rcases List.mem_append.mp hx with hx | hx
          · exact hpost x hx
          · simp only [List.mem_singleton] at hx
            rw [hx]; exact hle
        · simp [Tol.step, hb, hle]
        · simp [Tol.step, hb, hle]
      · have hlt : v < b := lt_of_not_ge hle
        refine ⟨Or.inr ⟨pre ++ b :: post, [], v, by simp, by simp [Tol.step, hb, hle], by simp [Tol.step, hb, hle], ?_, by simp⟩, ?_, ?_⟩
        · intro x hx
          rcases List.mem_append.mp hx with hx | hx
          · exact hlt.trans (hpre x hx)
          · rcases List.mem_cons.mp hx with rfl | hx
            · exact hlt
            · exact lt_of_lt_of_le hlt (hpost x hx)
        · simp [Tol.step, hb, hle]
        · simp [Tol.step, hb, hle]

theorem tol_run (obs : List (Option α)) : ∀ (vals : List α) (c : Tol α), TolOk vals c →
    TolOk (vals ++ obs.filterMap id) (Tol.run obs c).2 ∧ (Tol.run obs c).2.window = c.window := by
  induction obs with
  | nil => intro vals c h; simpa [Tol.run] using h
  | cons o os ih =>
    intro vals c h
    obtain ⟨h1, h2, _⟩ := tol_step vals c o h
    obtain ⟨g1, g2⟩ := ih _ _ h1
    refine ⟨?_, by simp only [Tol.run]; rw [g2, h2]⟩
    simp only [Tol.run]
    cases o with
    | none => simpa using g1
    | some v => simpa using g1

/-- C39: for every sequence of observed losses: the criterion asks for stopping at a call exactly when the loss is known and
none of the last `window + 1` losses improved on the ones before them. -/
theorem noImprovement_spec_partial (window : Nat) (obs : List (Option α)) (o : Option α) :
    let vals := (obs ++ [o]).filterMap id
    ((Tol.run obs (Tol.init window)).2.step o).1 = true ↔
      o.isSome ∧ ∀ x ∈ vals.drop (vals.length - (window + 1)), ∃ y ∈ vals.take (vals.length - (window + 1)), y ≤ x := by
  intro vals
  obtain ⟨h1, h2⟩ := tol_run obs [] (Tol.init window : Tol α) (Or.inl ⟨rfl, rfl, rfl⟩)
  obtain ⟨g1, g2, g3⟩ := tol_step _ _ o h1
  rw [g3, h2]
  have hvals : vals = [] ++ obs.filterMap id ++ o.toList := by
    simp only [vals, List.filterMap_append, List.nil_append]
    cases o <;> simp
  rw [← hvals] at g1
  have hwin : (Tol.init window : Tol α).window = window := rfl
  rw [hwin]
  refine and_congr_right fun hs => ?_
  rcases g1 with ⟨hv, _⟩ | ⟨pre, post, b, hv, _, hcount, hpre, hpost⟩
  · rw [hvals] at hv
    obtain ⟨v, hv'⟩ := Option.isSome_iff_exists.mp hs
    rw [hv'] at hv
    simp at hv
  · rw [hcount, hv]
    have hlen : (pre ++ b :: post).length = pre.length + (post.length + 1) := by simp
    constructor
    · intro hw x hx
      refine ⟨b, ?_, ?_⟩
      · rw [List.mem_take_iff_getElem]
        exact ⟨pre.length, by rw [hlen]; omega, by simp⟩
      · obtain ⟨i, hi, rfl⟩ := List.mem_iff_getElem.mp hx
        rw [List.getElem_drop]
        have hge : pre.length + 1 ≤ (pre ++ b :: post).length - (window + 1) + i := by rw [hlen]; omega
        apply hpost
        rw [List.getElem_append_right (by omega)]
        rw [List.getElem_cons]
        split
        · omega
        · exact List.getElem_mem _
    · intro hall
      by_contra hw
      have hb : b ∈ (pre ++ b :: post).drop ((pre ++ b :: post).length - (window + 1)) := by
        rw [List.mem_iff_getElem]
        refine ⟨pre.length - ((pre ++ b :: post).length - (window + 1)), by rw [List.length_drop, hlen]; omega, ?_⟩
        rw [List.getElem_drop]
        rw [List.getElem_append_right (by rw [hlen]; omega)]
        have : (pre ++ b :: post).length - (window + 1) + (pre.length - ((pre ++ b :: post).length - (window + 1))) - pre.length = 0 := by
          rw [hlen]; omega
        simp only [this, List.getElem_cons_zero]
      obtain ⟨y, hy, hle⟩ := hall b hb
      rw [List.take_append_of_le_length (by rw [hlen]; omega)] at hy
      exact absurd hle (not_le.mpr (hpre y (List.mem_of_mem_take hy)))

/-- With a window of 2, stopping comes at the third ask without improvement. -/
example : (Tol.run [none, some 5, some 3, some 4, some 3, some 3] (Tol.init 2 : Tol ℚ)).1 =
    [false, false, false, false, false, true] := by decide +kernel

/-- C39, as documented ("didn't reduce during tolerance_window asks"), is off by one: with a window of 1, one ask without
improvement does not stop. -/
theorem noImprovement_late : (Tol.run [some 3, some 3] (Tol.init 1 : Tol ℚ)).1 = [false, false] ∧
    (Tol.run [some 3, some 3, some 3] (Tol.init 1 : Tol ℚ)).1 = [false, false, true] := by decide +kernel

/-! ## C39: duration -/

/-- C39: the `n`-th call asks for stopping exactly when the clock is later than the first reading plus the limit. -/
theorem duration_spec [Add α] (limit : α) (c : α × α) (calls : List (α × α)) (n : Nat) (d : α × α)
    (hn : (c :: calls)[n]? = some d) :
    (durationRun limit (c :: calls) none)[n]? = some (decide (c.1 + limit < d.2)) := by
  have gen : ∀ (calls : List (α × α)) (s : α) (n : Nat) (d : α × α), calls[n]? = some d →
      (durationRun limit calls (some s))[n]? = some (decide (s + limit < d.2)) := by
    intro calls
    induction calls with
    | nil => intro s n d h; simp at h
    | cons e es ih =>
      intro s n d h
      cases n with
      | zero =>
        simp only [List.getElem?_cons_zero, Option.some.injEq] at h
        subst h
        simp [durationRun, durationStep]
      | succ n =>
        simp only [List.getElem?_cons_succ] at h
        simp only [durationRun, durationStep, List.getElem?_cons_succ, Option.getD_some]
        exact ih s n d h
  cases n with
  | zero =>
    simp only [List.getElem?_cons_zero, Option.some.injEq] at hn
    subst hn
    simp [durationRun, durationStep]
  | succ n =>
    simp only [List.getElem?_cons_succ] at hn
    simp only [durationRun, durationStep, List.getElem?_cons_succ, Option.getD_none]
    exact gen calls c.1 n d hn

example : durationRun (10 : ℚ) [(100, 101), (105, 110), (110, 111), (120, 120)] none = [false, false, true, true] := by
  decide +kernel

/-! ## C40: printers -/

/-- The values of `num_tell` never jump by more than the interval. -/
def Close (k : Nat) : List Nat → Prop
  | [] => True
  | [_] => True
  | n :: m :: r => m ≤ n + k ∧ Close k (m :: r)

/-- C40: whatever the clock and the intervals, a printer called at every tell (or at least once per `interval` tells) emits at
every call. So the first half of the property holds: there are never more than `interval` tells between emissions. -/
theorem printer_emits_partial {β : Type} [LE β] [DecidableLE β] [Add β] [LT β] [DecidableLT β] [Zero β] (tells : Nat)
    (seconds now : β) (p : Printer β) (hp : Printer.make tells seconds now = some p) (calls : List (β × β × Nat))
    (hfirst : ∀ c, calls.head? = some c → c.2.2 ≤ tells) (hclose : Close tells (calls.map (·.2.2))) :
    Printer.run calls p = calls.map (fun _ => true) := by
  have gen : ∀ (calls : List (β × β × Nat)) (p : Printer β), p.intervalTells = tells →
      (∀ c, calls.head? = some c → c.2.2 ≤ p.nextTell) → Close tells (calls.map (·.2.2)) →
      Printer.run calls p = calls.map (fun _ => true) := by
    intro calls
    induction calls with
    | nil => intro p _ _ _; rfl
    | cons c cs ih =>
      intro p hi hh hc
      have hcall : p.call c.1 c.2.1 c.2.2 =
          (true, { p with nextTime := c.2.1 + p.intervalSeconds, nextTell := c.2.2 + p.intervalTells }) := by
        unfold Printer.call
        rw [if_pos (Or.inr (hh c rfl))]
      simp only [Printer.run, hcall, List.map_cons, List.cons.injEq, true_and]
      refine ih { p with nextTime := c.2.1 + p.intervalSeconds, nextTell := c.2.2 + p.intervalTells } hi ?_ ?_
      · intro d hd
        cases cs with
        | nil => simp at hd
        | cons e es =>
          simp only [List.head?_cons, Option.some.injEq] at hd
          subst hd
          simp only [List.map_cons, Close] at hc
          simp only [hi]
          exact hc.1
      · cases cs with
        | nil => trivial
        | cons e es =>
          simp only [List.map_cons, Close] at hc
          exact hc.2
  have hp' : p.intervalTells = tells ∧ p.nextTell = tells := by
    unfold Printer.make at hp
    split at hp
    · simp only [Option.some.injEq] at hp
      subst hp
      exact ⟨rfl, rfl⟩
    · cases hp
  exact gen calls p hp'.1 (by rw [hp'.2]; exact hfirst) hclose

/-- C40 fails: with an interval of 100 tells and 60 seconds, a printer registered on `tell` emits at each of the first calls,
all made within the same second. -/
theorem printer_every_tell :
    (Printer.make 100 60 0 : Option (Printer ℚ)).map (Printer.run [(0, 0, 0), (0, 0, 1), (1, 1, 2), (1, 1, 3)]) =
      some [true, true, true, true] := by decide +kernel

/-- And once `num_tell` jumped beyond the interval, tells never trigger it again: only the time does. -/
theorem printer_silent :
    (Printer.make 10 60 0 : Option (Printer ℚ)).map (Printer.run [(0, 0, 11), (0, 0, 30), (0, 0, 100), (60, 60, 101)]) =
      some [false, false, false, true] := by decide +kernel

end Tools
end NG
