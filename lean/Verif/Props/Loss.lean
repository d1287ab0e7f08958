import Verif.Model.Loss
import Mathlib.Tactic.Linarith
import Mathlib.Tactic.Ring
import Mathlib.Data.List.Induction
import Mathlib.Algebra.Order.Ring.Rat

/-!
# C06 / C55 / C56: losses accepted by tell, number of objectives, optimization curve
-/

set_option linter.unusedSectionVars false

namespace NG
namespace Loss
variable {α : Type} [Field α] [LinearOrder α]

/-- Specification: a nonsensical scalar: NaN, plus infinity or a number at least 5e20. -/
def Nonsense : Flt α → Prop
  | .nan => True
  | .posInf => True
  | .negInf => False
  | .fin x => 5 * 10 ^ 20 ≤ x

/-- **C06.** For every scalar told, the recorded loss is exactly 5e20 when the scalar is nonsensical and the scalar
itself otherwise. -/
theorem scalar_loss_recorded_partial (s : St α) (x : Flt α) (l : Loss α) (h : (tell s (.scalar x)).1 = .ok l) :
    (Nonsense x → l = .scalar (.fin (5 * 10 ^ 20))) ∧ (¬ Nonsense x → l = .scalar x) := by
  have hl : l = .scalar (clip x) := by
    unfold tell at h
    simp only [parse] at h
    split at h
    · simp at h
    · split at h
      · simp at h; exact h.symm
      · split at h
        · simp at h
        · simp at h; exact h.symm
  subst hl
  cases x with
  | nan => exact ⟨fun _ => rfl, fun h => absurd trivial h⟩
  | posInf => exact ⟨fun _ => rfl, fun h => absurd trivial h⟩
  | negInf => exact ⟨fun h => h.elim, fun _ => rfl⟩
  | fin y =>
    simp only [Nonsense, clip, Flt.lt, cap]
    constructor
    · intro h; simp [not_lt.2 h]
    · intro h; simp [not_le.1 h]

/-- **C06.** No recorded scalar loss is NaN or above 5e20. -/
theorem scalar_loss_sane (s : St α) (x y : Flt α) (h : (tell s (.scalar x)).1 = .ok (.scalar y)) :
    y ≠ .nan ∧ y ≠ .posInf ∧ ∀ z, y = .fin z → z ≤ 5 * 10 ^ 20 := by
  obtain ⟨h1, h2⟩ := scalar_loss_recorded_partial s x _ h
  by_cases hx : Nonsense x
  · have := h1 hx
    simp only [Loss.scalar.injEq] at this
    subst this
    refine ⟨by simp, by simp, ?_⟩
    intro z hz; simp only [Flt.fin.injEq] at hz; rw [hz]
  · have := h2 hx
    simp only [Loss.scalar.injEq] at this
    subst this
    cases y with
    | nan => exact absurd trivial hx
    | posInf => exact absurd trivial hx
    | negInf => simp
    | fin w =>
      refine ⟨by simp, by simp, ?_⟩
      intro z hz; simp only [Flt.fin.injEq] at hz; subst hz
      exact le_of_lt (not_le.1 hx)

/-- **C06.** A scalar is accepted exactly when the optimizer is not already multi-objective. -/
theorem scalar_accepted_iff (s : St α) (x : Flt α) :
    (∃ l, (tell s (.scalar x)).1 = .ok l) ↔ s.numObjectives ≤ 1 := by
  unfold tell
  simp only [parse, size]
  by_cases h0 : s.numObjectives = 0
  · simp [h0]
  · by_cases h1 : s.numObjectives = 1
    · simp [h1]
    · have : ¬ s.numObjectives ≤ 1 := by omega
      simp [h0, this, Ne.symm h1]

/-- **C06, disagreement.** The one-element list form bypasses the clipping: NaN is recorded as NaN. -/
theorem singleton_list_not_clipped (s : St α) (x : Flt α) (h : s.numObjectives ≤ 1) :
    (tell s (.seq [.flt x])).1 = .ok (.scalar x) := by
  unfold tell
  simp only [parse, size]
  by_cases h0 : s.numObjectives = 0
  · simp [h0]
  · have h1 : s.numObjectives = 1 := by omega
    simp [h1]

/-- **C06, disagreement.** A one-element list holding a Python int is refused with an attribute error. -/
theorem singleton_int_list_raises (s : St α) (n : Int) :
    (tell s (.seq [.int n])).1 = .error .attributeError := rfl

/-- Specification: number of objectives of a told loss. -/
def objectives : Loss α → Nat
  | .scalar _ => 1
  | .vector xs => xs.length

/-- Successful results. -/
def okCount (rs : List (Except LossErr (Loss α))) : Nat :=
  (rs.filter (fun r => match r with | .ok _ => true | .error _ => false)).length

theorem tells_snoc (args : List (LossArg α)) (a : LossArg α) :
    tells (args ++ [a]) = ((tell (tells args).1 a).2, (tell (tells args).1 a).1 :: (tells args).2) := by
  simp [tells, List.foldl_append]

/-- **C55.** In every history of tells, all accepted losses have the same positive number of objectives (the one
of the first accepted loss), and `num_tell` counts the accepted ones: refused losses change neither. -/
theorem objectives_consistent (args : List (LossArg α)) :
    let r := tells args
    (∀ l, .ok l ∈ r.2 → objectives l = r.1.numObjectives ∧ 0 < objectives l) ∧ r.1.numTell = okCount r.2 ∧
    (r.1.numObjectives = 0 ↔ okCount r.2 = 0) := by
  induction args using List.reverseRecOn with
  | nil => simp [tells, St.init, okCount]
  | append_singleton args a ih =>
    rw [tells_snoc]
    simp only at ih
    generalize (tells args).1 = s at *
    generalize (tells args).2 = rs at *
    obtain ⟨i1, i2, i3⟩ := ih
    simp only
    have hsz : ∀ l : Loss α, l.size = objectives l := fun l => by cases l <;> rfl
    have herr : ∀ e (s' : St α), s'.numObjectives = s.numObjectives → s'.numTell = s.numTell →
        (∀ l, (.ok l : Except LossErr (Loss α)) ∈ (.error e :: rs) → objectives l = s'.numObjectives ∧ 0 < objectives l) ∧
        s'.numTell = okCount (.error e :: rs) ∧ (s'.numObjectives = 0 ↔ okCount (.error e :: rs) = 0) := by
      intro e s' h1 h2
      rw [h1, h2]
      refine ⟨?_, by simpa [okCount] using i2, by simpa [okCount] using i3⟩
      intro l hl
      simp only [List.mem_cons, reduceCtorEq, false_or] at hl
      exact i1 l hl
    unfold tell
    cases hp : parse a with
    | error e => exact herr e s rfl rfl
    | ok o =>
      cases o with
      | none => exact herr _ s rfl rfl
      | some l =>
        simp only
        by_cases h0 : l.size = 0
        · rw [if_pos h0]; exact herr _ _ rfl rfl
        · rw [if_neg h0]
          by_cases h1 : s.numObjectives = 0
          · rw [if_pos h1]
            have hnone : ∀ l, (.ok l : Except LossErr (Loss α)) ∉ rs := by
              intro l hl
              have := i1 l hl
              rw [h1] at this; omega
            refine ⟨?_, ?_, ?_⟩
            · intro l' hl'
              simp only [List.mem_cons, Except.ok.injEq] at hl'
              rcases hl' with rfl | hl'
              · simp only; rw [← hsz]; omega
              · exact absurd hl' (hnone l')
            · simp [okCount, i2]
            · simp [okCount, h0]
          · rw [if_neg h1]
            by_cases h2 : l.size ≠ s.numObjectives
            · rw [if_pos h2]; exact herr _ _ rfl rfl
            · rw [if_neg h2]
              rw [not_not] at h2
              refine ⟨?_, ?_, ?_⟩
              · intro l' hl'
                simp only [List.mem_cons, Except.ok.injEq] at hl'
                rcases hl' with rfl | hl'
                · simp only; rw [← hsz]; omega
                · exact i1 l' hl'
              · simp [okCount, i2]
              · simp [okCount, h1]

/-- **C55.** A loss whose number of objectives differs from the previous ones is refused. -/
theorem objectives_mismatch_refused (s : St α) (xs : List (LossElem α)) (h2 : xs.length ≠ 1)
    (h0 : s.numObjectives ≠ 0) (h : xs.length ≠ s.numObjectives) :
    (tell s (.seq xs)).1 = .error .valueError := by
  have hp : parse (.seq xs) = .ok (some (.vector (xs.map LossElem.toFlt))) := by
    match xs, h2 with
    | [], _ => rfl
    | _ :: _ :: _, _ => simp [parse]
  unfold tell
  rw [hp]
  simp only [size, List.length_map]
  split
  · rfl
  · simp [h0, h]

/-- Consecutive entries of the curve (most recent first) are separated by a factor above 1.1. -/
def Spaced : List (Nat × Flt α) → Prop
  | [] => True
  | [_] => True
  | a :: b :: rest => 11 * b.1 < 10 * a.1 ∧ Spaced (b :: rest)

theorem curveUpdate_spaced (s : St α) (l : Loss α) (h : Spaced s.curve) : Spaced (curveUpdate s l) := by
  unfold curveUpdate
  cases l with
  | vector _ => exact h
  | scalar x =>
    simp only
    split
    · trivial
    · rename_i n y rest hc
      split
      · rename_i hgt
        rw [hc] at h
        exact ⟨hgt, h⟩
      · exact h

theorem curveUpdate_le (s : St α) (l : Loss α) (h : ∀ e ∈ s.curve, e.1 ≤ s.numTell) :
    ∀ e ∈ curveUpdate s l, e.1 ≤ s.numTell := by
  unfold curveUpdate
  cases l with
  | vector _ => exact h
  | scalar x =>
    simp only
    split
    · intro e he; simp at he; rw [he]
    · rename_i n y rest hc
      split
      · intro e he
        rw [List.mem_cons] at he
        rcases he with rfl | he
        · exact le_refl _
        · exact h e (by rw [hc]; exact he)
      · exact h

/-- **C56.** In every history the optimization curve is spaced by a factor above 1.1 and never refers to the
future. -/
theorem curve_spaced (args : List (LossArg α)) :
    Spaced (tells args).1.curve ∧ ∀ e ∈ (tells args).1.curve, e.1 ≤ (tells args).1.numTell := by
  induction args using List.reverseRecOn with
  | nil => simp [tells, St.init, Spaced]
  | append_singleton args a ih =>
    rw [tells_snoc]
    generalize (tells args).1 = s at *
    obtain ⟨i1, i2⟩ := ih
    simp only
    unfold tell
    cases hp : parse a with
    | error e => exact ⟨i1, i2⟩
    | ok o =>
      cases o with
      | none => exact ⟨i1, i2⟩
      | some l =>
        have h1 := curveUpdate_spaced s l i1
        have h2 := curveUpdate_le s l i2
        simp only
        split
        · exact ⟨h1, h2⟩
        · split
          · exact ⟨h1, fun e he => Nat.le_succ_of_le (h2 e he)⟩
          · split
            · exact ⟨h1, h2⟩
            · exact ⟨h1, fun e he => Nat.le_succ_of_le (h2 e he)⟩

theorem spaced_growth (c : List (Nat × Flt α)) (k : Nat) (h : Spaced c) (hl : c.length = k + 2) :
    ∀ a ∈ c.head?, 11 ^ k ≤ 10 ^ k * a.1 := by
  induction k generalizing c with
  | zero =>
    match c, hl, h with
    | [a, b], _, h =>
      intro a' ha'
      simp only [List.head?_cons, Option.mem_def, Option.some.injEq] at ha'
      subst ha'
      simp only [Spaced] at h
      have := h.1
      simp only [pow_zero, one_mul]; omega
  | succ k ih =>
    match c, hl, h with
    | a :: b :: rest, hl, h =>
      intro a' ha'
      simp only [List.head?_cons, Option.mem_def, Option.some.injEq] at ha'
      subst ha'
      have hb := ih (b :: rest) h.2 (by simpa using hl) b (by simp)
      have h1 := h.1
      calc 11 ^ (k + 1) = 11 * 11 ^ k := by rw [pow_succ]; ring
        _ ≤ 11 * (10 ^ k * b.1) := Nat.mul_le_mul_left _ hb
        _ = 10 ^ k * (11 * b.1) := by ring
        _ ≤ 10 ^ k * (10 * a.1) := Nat.mul_le_mul_left _ (le_of_lt h1)
        _ = 10 ^ (k + 1) * a.1 := by rw [pow_succ]; ring

/-- **C56.** The curve only grows logarithmically: with `k + 2` points, at least `1.1 ^ k` tells were made. -/
theorem curve_logarithmic (args : List (LossArg α)) (k : Nat) (h : (tells args).1.curve.length = k + 2) :
    11 ^ k ≤ 10 ^ k * (tells args).1.numTell := by
  obtain ⟨h1, h2⟩ := curve_spaced args
  match hc : (tells args).1.curve, h with
  | a :: rest, h =>
    rw [hc] at h1 h2
    have := spaced_growth _ k h1 h a (by simp)
    exact this.trans (Nat.mul_le_mul_left _ (h2 a (by simp)))

/-- Concrete history: NaN scalar, huge scalar, list form, mismatching vector. -/
example : let r := tells (α := ℚ) [.scalar .nan, .scalar (.fin 3), .seq [.flt .nan], .seq [.flt (.fin 1), .int 2]]
    r.2 = [.error .valueError, .ok (.scalar .nan), .ok (.scalar (.fin 3)), .ok (.scalar (.fin (5 * 10 ^ 20)))] ∧
    r.1.numTell = 3 ∧ r.1.curve.map (·.1) = [2, 1, 0] := by decide +kernel

end Loss
end NG
