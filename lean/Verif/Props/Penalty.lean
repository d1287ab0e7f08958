import Verif.Model.Penalty

/-! # C44, C108: penalties of infeasible candidates -/

namespace NG
namespace Penalty

/-! ## Specification -/

/-- The constraint is satisfied: true, at least 0, or nan. -/
def Check.Good : Check → Prop
  | .bool b => b = true
  | .num none => True
  | .num (some x) => 0 ≤ x
  | .other => False

/-- By how much a constraint is violated: 1 for false. -/
noncomputable def Check.amount : Check → ℝ
  | .bool b => if b then 0 else 1
  | .num none => 0
  | .num (some x) => max (-x) 0
  | .other => 0

/-- The constraint returns a Boolean or a float. -/
def Check.Typed : Check → Prop
  | .other => False
  | _ => True

theorem floatPenalty_amount {c : Check} (h : c.Typed) : floatPenalty c = some c.amount := by
  cases c with
  | bool b => cases b <;> simp [floatPenalty, Check.amount]
  | num x =>
    cases x with
    | none => simp [floatPenalty, Check.amount]
    | some x =>
      simp only [floatPenalty, Check.amount]
      split
      · rw [max_eq_left (by linarith)]
      · rw [max_eq_right (by linarith), neg_zero]
  | other => exact absurd h (by simp [Check.Typed])

theorem amount_nonneg (c : Check) : 0 ≤ c.amount := by
  cases c with
  | bool b => cases b <;> simp [Check.amount]
  | num x => cases x <;> simp [Check.amount]
  | other => simp [Check.amount]

/-- C108: a constraint adds nothing exactly when it is satisfied. -/
theorem amount_zero {c : Check} (h : c.Typed) : c.amount = 0 ↔ c.Good := by
  cases c with
  | bool b => cases b <;> simp [Check.amount, Check.Good]
  | num x => cases x <;> simp [Check.amount, Check.Good]
  | other => exact absurd h (by simp [Check.Typed])

theorem penaltySum_eq : ∀ {cs : List Check}, (∀ c ∈ cs, c.Typed) → penaltySum cs = some (cs.map Check.amount).sum
  | [], _ => by simp [penaltySum]
  | c :: cs, h => by
    simp only [penaltySum, floatPenalty_amount (h c (by simp)), penaltySum_eq (cs := cs) (fun x hx => h x (by simp [hx])), List.map_cons, List.sum_cons]

theorem sum_nonneg (cs : List Check) : 0 ≤ (cs.map Check.amount).sum :=
  List.sum_nonneg (fun x hx => by obtain ⟨c, -, rfl⟩ := List.mem_map.1 hx; exact amount_nonneg c)

theorem sum_zero : ∀ {cs : List Check}, (∀ c ∈ cs, c.Typed) → ((cs.map Check.amount).sum = 0 ↔ ∀ c ∈ cs, c.Good)
  | [], _ => by simp
  | c :: cs, h => by
    have h1 := amount_nonneg c
    have h2 := sum_nonneg cs
    rw [List.map_cons, List.sum_cons, List.forall_mem_cons, ← amount_zero (h c (by simp)), ← sum_zero (fun x hx => h x (by simp [hx]))]
    constructor
    · intro h3; constructor <;> linarith
    · rintro ⟨h3, h4⟩; linarith

/-- `satisfies_constraints` without sub-parameters is what one expects. -/
theorem allSatisfied_iff : ∀ {cs : List Check}, (∀ c ∈ cs, c.Typed) → ∃ b, allSatisfied cs = some b ∧ (b = true ↔ ∀ c ∈ cs, c.Good)
  | [], _ => ⟨true, rfl, by simp⟩
  | c :: cs, h => by
    obtain ⟨b, hb1, hb2⟩ := allSatisfied_iff (cs := cs) (fun x hx => h x (by simp [hx]))
    have hz := amount_zero (h c (by simp))
    simp only [allSatisfied, floatPenalty_amount (h c (by simp))]
    have hn := amount_nonneg c
    by_cases hc : c.amount ≤ 0
    · rw [if_pos hc]
      refine ⟨b, hb1, ?_⟩
      rw [List.forall_mem_cons, hb2]
      exact ⟨fun h1 => ⟨hz.1 (le_antisymm hc hn), h1⟩, fun h1 => h1.2⟩
    · rw [if_neg hc]
      refine ⟨false, rfl, ?_⟩
      simp only [Bool.false_eq_true, List.forall_mem_cons, false_iff]
      rintro ⟨h1, -⟩
      exact hc (le_of_eq (hz.2 h1))

/-- Typed constraints everywhere. -/
inductive AllTyped : Param → Prop
  | mk {checks : List Check} {subs : List Param} (h : ∀ c ∈ checks, c.Typed) (hs : ∀ p ∈ subs, AllTyped p) : AllTyped (.mk checks subs)

/-- All the constraints of the parameter and of its sub-parameters are satisfied. -/
inductive Feasible : Param → Prop
  | mk {checks : List Check} {subs : List Param} (h : ∀ c ∈ checks, c.Good) (hs : ∀ p ∈ subs, Feasible p) : Feasible (.mk checks subs)

theorem feasible_iff {checks : List Check} {subs : List Param} : Feasible (.mk checks subs) ↔ (∀ c ∈ checks, c.Good) ∧ ∀ p ∈ subs, Feasible p :=
  ⟨fun h => by cases h with | mk h hs => exact ⟨h, hs⟩, fun h => .mk h.1 h.2⟩

mutual
/-- C108: a candidate satisfies its constraints exactly if all constraints of all its parts are satisfied. -/
theorem satisfies_iff : ∀ {p : Param}, AllTyped p → ∃ b, satisfies p = some b ∧ (b = true ↔ Feasible p)
  | .mk checks subs, h => by
    cases h with
    | mk h hs =>
      obtain ⟨b, hb1, hb2⟩ := satisfiesAll_iff (ps := subs) hs
      simp only [satisfies, hb1, feasible_iff]
      cases b with
      | false =>
        refine ⟨false, rfl, ?_⟩
        simp only [Bool.false_eq_true, false_iff] at hb2 ⊢
        exact fun hc => hb2 hc.2
      | true =>
        obtain ⟨b', h1, h2⟩ := allSatisfied_iff h
        refine ⟨b', h1, ?_⟩
        simp only [true_iff] at hb2
        rw [h2]
        exact ⟨fun h3 => ⟨h3, hb2⟩, fun h3 => h3.1⟩

theorem satisfiesAll_iff : ∀ {ps : List Param}, (∀ p ∈ ps, AllTyped p) → ∃ b, satisfiesAll ps = some b ∧ (b = true ↔ ∀ p ∈ ps, Feasible p)
  | [], _ => ⟨true, rfl, by simp⟩
  | p :: ps, h => by
    obtain ⟨b, hb1, hb2⟩ := satisfies_iff (p := p) (h p (by simp))
    obtain ⟨b', hc1, hc2⟩ := satisfiesAll_iff (ps := ps) (fun x hx => h x (by simp [hx]))
    refine ⟨b && b', by simp only [satisfiesAll, hb1, hc1], ?_⟩
    rw [Bool.and_eq_true, hb2, hc2, List.forall_mem_cons]
end

/-! ## The penalty -/

/-- A manager as `update` is meant to leave it. -/
structure Manager.Sound (m : Manager) : Prop where
  factor : 0 < m.factor
  exponent : 1 ≤ m.exponent

theorem coeff_pos {m : Manager} (h : m.Sound) (n : Nat) (b : Option Nat) : 0 < m.coeff n b :=
  mul_pos h.factor (Real.rpow_pos_of_pos (by have := h.exponent; linarith) _)

theorem penalty_eq (m : Manager) {p : Param} (h : AllTyped p) (n : Nat) (b : Option Nat) :
    m.penalty p n b = some (m.coeff n b * (p.checks.map Check.amount).sum) := by
  cases h with
  | mk h hs => simp [Manager.penalty, Param.checks, penaltySum_eq h]

/-- C44, C108: the penalty is never negative, and is zero exactly when the constraints of the candidate itself are satisfied. -/
theorem penalty_nonneg {m : Manager} (hm : m.Sound) {p : Param} (h : AllTyped p) (n : Nat) (b : Option Nat) :
    ∃ x, m.penalty p n b = some x ∧ 0 ≤ x ∧ (x = 0 ↔ ∀ c ∈ p.checks, c.Good) := by
  refine ⟨_, penalty_eq m h n b, mul_nonneg (coeff_pos hm n b).le (sum_nonneg _), ?_⟩
  rw [mul_eq_zero, or_iff_right (coeff_pos hm n b).ne']
  cases h with
  | mk h hs => exact sum_zero h

/-- C44, C108: larger violations have larger penalties. -/
theorem penalty_mono {m : Manager} (hm : m.Sound) {p q : Param} (hp : AllTyped p) (hq : AllTyped q) (n : Nat) (b : Option Nat)
    (h : List.Forall₂ (fun c d => c.amount ≤ d.amount) p.checks q.checks) : ∃ x y, m.penalty p n b = some x ∧ m.penalty q n b = some y ∧ x ≤ y ∧
      ((∃ cd ∈ p.checks.zip q.checks, cd.1.amount < cd.2.amount) → x < y) := by
  refine ⟨_, _, penalty_eq m hp n b, penalty_eq m hq n b, ?_, ?_⟩
  · refine mul_le_mul_of_nonneg_left ?_ (coeff_pos hm n b).le
    generalize p.checks = l1 at h ⊢
    generalize q.checks = l2 at h ⊢
    induction h with
    | nil => simp
    | cons h1 _ ih => simp only [List.map_cons, List.sum_cons]; exact add_le_add h1 ih
  · intro hex
    refine mul_lt_mul_of_pos_left ?_ (coeff_pos hm n b)
    generalize p.checks = l1 at h hex ⊢
    generalize q.checks = l2 at h hex ⊢
    induction h with
    | nil => simp at hex
    | @cons c d l1 l2 h1 h2 ih =>
      simp only [List.map_cons, List.sum_cons]
      have hle : (l1.map Check.amount).sum ≤ (l2.map Check.amount).sum := by
        clear ih hex
        induction h2 with
        | nil => simp
        | cons h1 _ ih => simp only [List.map_cons, List.sum_cons]; exact add_le_add h1 ih
      obtain ⟨cd, hcd, hlt⟩ := hex
      rw [List.zip_cons_cons, List.mem_cons] at hcd
      rcases hcd with rfl | hcd
      · exact add_lt_add_of_lt_of_le hlt hle
      · exact add_lt_add_of_le_of_lt h1 (ih ⟨cd, hcd, hlt⟩)

/-- C108: penalties get larger as the run goes on. -/
theorem penalty_grows {m : Manager} (hm : m.Sound) {p : Param} (hp : AllTyped p) {n n' : Nat} (hn : n ≤ n') (b : Option Nat) :
    ∃ x y, m.penalty p n b = some x ∧ m.penalty p n' b = some y ∧ x ≤ y ∧
      (n < n' → 1 < m.exponent → 0 < b.getD 1 → (∃ c ∈ p.checks, ¬ c.Good) → x < y) := by
  refine ⟨_, _, penalty_eq m hp n b, penalty_eq m hp n' b, ?_, ?_⟩
  · refine mul_le_mul_of_nonneg_right ?_ (sum_nonneg _)
    unfold Manager.coeff
    refine mul_le_mul_of_nonneg_left (Real.rpow_le_rpow_of_exponent_le hm.exponent ?_) hm.factor.le
    exact div_le_div_of_nonneg_right (by exact_mod_cast hn) (Real.sqrt_nonneg _)
  · rintro hlt he hb ⟨c, hc, hbad⟩
    have hpos : 0 < (p.checks.map Check.amount).sum := by
      refine lt_of_le_of_ne (sum_nonneg _) (Ne.symm ?_)
      cases hp with
      | mk h hs => exact fun h0 => hbad ((sum_zero h).1 h0 c hc)
    refine mul_lt_mul_of_pos_right ?_ hpos
    unfold Manager.coeff
    refine mul_lt_mul_of_pos_left (Real.rpow_lt_rpow_of_exponent_lt he ?_) hm.factor
    exact div_lt_div_of_pos_right (by exact_mod_cast hlt) (Real.sqrt_pos.2 (by exact_mod_cast hb))

/-- C108: `update` changes what is given and nothing else, and raises on exponents below 1. -/
theorem update_spec (m : Manager) (t : Option Int) (f e : Option ℝ) :
    (m.update t f e).2.maxTrials = t.getD m.maxTrials ∧ (m.update t f e).2.factor = f.getD m.factor ∧
    (m.update t f e).2.exponent = e.getD m.exponent ∧ ((m.update t f e).1 = true ↔ e.getD m.exponent < 1) := by
  refine ⟨rfl, rfl, rfl, ?_⟩
  simp [Manager.update]

/-- C108 fails: after a rejected `update`, the manager keeps the rejected exponent, and penalties decrease along the run. -/
theorem update_rejected_kept : ∃ (m : Manager) (p : Param) (x y : ℝ), ({} : Manager).update none none (some (1 / 2)) = (true, m) ∧
    m.penalty p 0 (some 1) = some x ∧ m.penalty p 1 (some 1) = some y ∧ y < x := by
  refine ⟨⟨1000, 1, 1 / 2⟩, .mk [.bool false] [], 1, 1 / 2, ?_, ?_, ?_, by norm_num⟩
  · have : ((1 : ℝ) / 2) < 1 := by norm_num
    simp only [Manager.update, Option.getD_none, Option.getD_some, if_pos this]
  · rw [penalty_eq _ (.mk (by simp [Check.Typed]) (by simp))]
    simp [Manager.coeff, Param.checks, Check.amount]
  · rw [penalty_eq _ (.mk (by simp [Check.Typed]) (by simp))]
    simp [Manager.coeff, Param.checks, Check.amount]

/-! ## The loss given to the algorithm -/

/-- Styles with non-negative coefficients, `c` positive. -/
structure Style.Sound (s : Style) : Prop where
  a : 0 ≤ s.a
  b : 0 ≤ s.b
  c : 0 < s.c
  d : 0 < s.d
  f : 0 ≤ s.f

theorem default_sound : Style.default.Sound := by constructor <;> norm_num [Style.default]

theorem cvSum_nonneg (cv : List ℝ) (c : ℝ) : 0 ≤ (cv.map (fun v => max v 0 ^ c)).sum :=
  List.sum_nonneg (fun x hx => by obtain ⟨v, -, rfl⟩ := List.mem_map.1 hx; exact Real.rpow_nonneg (le_max_right _ _) _)

theorem cvSum_zero {c : ℝ} (hc : 0 < c) : ∀ {cv : List ℝ}, (cv.map (fun v => max v 0 ^ c)).sum = 0 ↔ ∀ v ∈ cv, v ≤ 0
  | [] => by simp
  | v :: cv => by
    have h1 : 0 ≤ max v 0 ^ c := Real.rpow_nonneg (le_max_right _ _) _
    have h2 := cvSum_nonneg cv c
    have h3 : max v 0 ^ c = 0 ↔ v ≤ 0 := by
      rw [Real.rpow_eq_zero (le_max_right _ _) hc.ne']
      simp
    rw [List.map_cons, List.sum_cons, List.forall_mem_cons, ← cvSum_zero hc, ← h3]
    constructor
    · intro h; constructor <;> linarith
    · rintro ⟨h4, h5⟩; linarith

/-- C108: the penalty of announced violations is never negative; there is none without violation. -/
theorem violation_nonneg {s : Style} (hs : s.Sound) (b : Option Nat) (n : Nat) (loss : ℝ) (cv : List ℝ) :
    0 ≤ s.violation b n loss cv ∧ ((∀ v ∈ cv, v ≤ 0) → s.violation b n loss cv = 0) := by
  have hr : 0 ≤ ratio b n := by
    unfold ratio
    split
    · split <;> norm_num
    · norm_num
  constructor
  · refine mul_nonneg (mul_nonneg (add_nonneg (mul_nonneg hs.a hr) (le_max_right _ _)) (Real.rpow_nonneg ?_ _))
      (mul_nonneg hs.b (Real.rpow_nonneg (cvSum_nonneg _ _) _))
    have := hs.f
    positivity
  · intro h
    simp only [Style.violation]
    rw [(cvSum_zero hs.c).2 h, Real.zero_rpow hs.d.ne']
    simp

/-- C108: in the second half of the budget, a violation always adds to the loss. -/
theorem violation_late {s : Style} (hs : s.Sound) (ha : 0 < s.a) (hb : 0 < s.b) {b n : Nat} (hn : b < 2 * n) (loss : ℝ) {cv : List ℝ}
    (hv : ∃ v ∈ cv, 0 < v) : 0 < s.violation (some b) n loss cv := by
  have hr : (b : ℝ) / 2 < n := by
    rw [div_lt_iff₀ (by norm_num)]
    have : ((b : ℕ) : ℝ) < ((2 * n : ℕ) : ℝ) := by exact_mod_cast hn
    push_cast at this
    linarith
  have hn0 : 0 < n := by omega
  have hcv : 0 < (cv.map (fun v => max v 0 ^ s.c)).sum := by
    refine lt_of_le_of_ne (cvSum_nonneg _ _) (Ne.symm (fun h0 => ?_))
    obtain ⟨v, hv1, hv2⟩ := hv
    have := (cvSum_zero hs.c).1 h0 v hv1
    linarith
  simp only [Style.violation, ratio, if_pos hr, mul_one]
  refine mul_pos (mul_pos (add_pos_of_pos_of_nonneg ha (le_max_right _ _)) (Real.rpow_pos_of_pos ?_ _)) (mul_pos hb (Real.rpow_pos_of_pos hcv _))
  have := hs.f
  have h1 : (0 : ℝ) < n := by exact_mod_cast hn0
  linarith

/-- C108: before that, it only does for positive losses. -/
theorem violation_early {s : Style} (hs : s.Sound) (hb : 0 < s.b) {b : Option Nat} {n : Nat} (hn : ∀ x, b = some x → 2 * n ≤ x)
    (hf : 0 < s.f + n) {loss : ℝ} {cv : List ℝ} (hv : ∃ v ∈ cv, 0 < v) : 0 < s.violation b n loss cv ↔ 0 < loss := by
  have hr : ratio b n = 0 := by
    unfold ratio
    cases b with
    | none => rfl
    | some x =>
      have h1 : ((2 * n : ℕ) : ℝ) ≤ x := by exact_mod_cast hn x rfl
      push_cast at h1
      dsimp only
      rw [if_neg (by linarith)]
  have hcv : 0 < (cv.map (fun v => max v 0 ^ s.c)).sum := by
    refine lt_of_le_of_ne (cvSum_nonneg _ _) (Ne.symm (fun h0 => ?_))
    obtain ⟨v, hv1, hv2⟩ := hv
    have := (cvSum_zero hs.c).1 h0 v hv1
    linarith
  simp only [Style.violation, hr, mul_zero, zero_add]
  have h1 : 0 < (s.f + n) ^ s.e := Real.rpow_pos_of_pos hf _
  have h2 : 0 < s.b * (cv.map (fun v => max v 0 ^ s.c)).sum ^ s.d := mul_pos hb (Real.rpow_pos_of_pos hcv _)
  constructor
  · intro h
    by_contra hc
    rw [max_eq_right (by linarith)] at h
    simp at h
  · intro h
    rw [max_eq_left h.le]
    exact mul_pos (mul_pos h h1) h2

/-- The documented formula: `(a + sum(|loss|)) * (f+num_tell)**e * (b * sum(cv**c)) ** d`. -/
noncomputable def documented (s : Style) (numTell : Nat) (loss : ℝ) (cv : List ℝ) : ℝ :=
  (s.a + |loss|) * (s.f + numTell) ^ s.e * (s.b * (cv.map (fun v => v ^ s.c)).sum) ^ s.d

/-- C108, where it holds: the documented formula is used for non-negative losses and violations in the second half of the budget if `b` or `d` is 1. -/
theorem violation_documented_partial {s : Style} (h : s.b = 1 ∨ s.d = 1) {b n : Nat} (hn : b < 2 * n) {loss : ℝ} (hl : 0 ≤ loss) {cv : List ℝ}
    (hv : ∀ v ∈ cv, 0 ≤ v) : s.violation (some b) n loss cv = documented s n loss cv := by
  have hr : (b : ℝ) / 2 < n := by
    rw [div_lt_iff₀ (by norm_num)]
    have : ((b : ℕ) : ℝ) < ((2 * n : ℕ) : ℝ) := by exact_mod_cast hn
    push_cast at this
    linarith
  have hcv : cv.map (fun v => max v 0 ^ s.c) = cv.map (fun v => v ^ s.c) :=
    List.map_congr_left (fun v hv' => by rw [max_eq_left (hv v hv')])
  simp only [Style.violation, ratio, documented, if_pos hr, mul_one, max_eq_left hl, abs_of_nonneg hl, hcv]
  rcases h with h | h <;> simp [h]

/-- C108 fails in the other cases: with the default style, a first half of the budget and a loss of -1, nothing is added, though the documented penalty is
at least 100000. -/
theorem negative_loss_free : ∃ (b n : Nat), Style.default.violation (some b) n (-1) [1] = 0 ∧ 100000 ≤ documented Style.default n (-1) [1] := by
  refine ⟨10, 0, ?_, ?_⟩
  · have h : ratio (some 10) 0 = 0 := by simp only [ratio]; rw [if_neg (by norm_num)]
    simp [Style.violation, h]
  · simp [documented, Style.default]
    norm_num

/-- C108: feasible candidates without announced violation are told with their loss, and enter the archive. -/
theorem run_feasible {t : Tell} (ht : AllTyped t.cand) (hf : Feasible t.cand) (hs : ∀ s, t.style = some s → s.Sound)
    (hv : ∀ cv, t.cv = some cv → ∀ v ∈ cv, v ≤ 0) : t.run = some (t.loss, false) := by
  obtain ⟨b, hb1, hb2⟩ := satisfies_iff ht
  have hb : b = true := hb2.2 hf
  subst hb
  unfold Tell.run
  simp only [hb1, Bool.true_eq_false, false_and, if_false]
  cases hcv : t.cv with
  | none => rfl
  | some cv =>
    dsimp only
    have hss : (t.style.getD Style.default).Sound := by
      cases hst : t.style with
      | none => exact default_sound
      | some s => exact hs s hst
    rw [(violation_nonneg hss _ _ _ _).2 (hv cv hcv)]
    have h0 : (cv.map (fun v => max v 0)).sum = 0 := by
      refine List.sum_eq_zero (fun x hx => ?_)
      obtain ⟨v, hv', rfl⟩ := List.mem_map.1 hx
      exact max_eq_right (hv cv hcv v hv')
    simp [h0]

/-- C108: the loss told to the algorithm is never below the loss, and with a budget an infeasible candidate does not enter the archive. -/
theorem run_infeasible {t : Tell} (hm : t.manager.Sound) (ht : AllTyped t.cand) (hs : ∀ s, t.style = some s → s.Sound) :
    ∃ l no, t.run = some (l, no) ∧ t.loss ≤ l ∧ (t.budget.isSome = true → ¬ Feasible t.cand → no = true) ∧
      ((∃ cv, t.cv = some cv ∧ ∃ v ∈ cv, 0 < v) → no = true) := by
  obtain ⟨b, hb1, hb2⟩ := satisfies_iff ht
  obtain ⟨x, hx1, hx2, -⟩ := penalty_nonneg hm ht t.numAsk t.budget
  have hss : (t.style.getD Style.default).Sound := by
    cases hst : t.style with
    | none => exact default_sound
    | some s => exact hs s hst
  obtain ⟨l1, no1, h1, h2, h3⟩ : ∃ l1 no1, (if b = false ∧ t.budget.isSome = true then
      (t.manager.penalty t.cand t.numAsk t.budget).map (fun p => (t.loss + p, true)) else some (t.loss, false)) = some (l1, no1) ∧ t.loss ≤ l1 ∧
      (t.budget.isSome = true → ¬ Feasible t.cand → no1 = true) := by
    by_cases hc : b = false ∧ t.budget.isSome = true
    · rw [if_pos hc, hx1]
      exact ⟨_, _, rfl, by linarith, fun _ _ => rfl⟩
    · rw [if_neg hc]
      refine ⟨_, _, rfl, le_refl _, fun h4 h5 => ?_⟩
      exact absurd ⟨Bool.eq_false_iff.2 (fun h6 => h5 (hb2.1 h6)), h4⟩ hc
  unfold Tell.run
  simp only [hb1, h1]
  cases hcv : t.cv with
  | none => exact ⟨l1, no1, rfl, h2, h3, by simp⟩
  | some cv =>
    have hv := (violation_nonneg hss t.budget t.numTell l1 cv).1
    refine ⟨_, _, rfl, by linarith, fun h4 h5 => by rw [h3 h4 h5, Bool.true_or], ?_⟩
    rintro ⟨cv', h6, v, h7, h8⟩
    obtain rfl := Option.some.inj h6
    have hpos : 0 < (cv.map (fun v => max v 0)).sum := by
      refine lt_of_lt_of_le (lt_of_lt_of_le h8 (le_max_left v 0)) (List.single_le_sum (fun x hx => ?_) _ (List.mem_map.2 ⟨v, h7, rfl⟩))
      obtain ⟨w, -, rfl⟩ := List.mem_map.1 hx
      exact le_max_right _ _
    simp [hpos]

/-- C108, where it holds: with a budget, a candidate which violates one of its own constraints is told with a larger loss. -/
theorem run_penalized_partial {t : Tell} (hm : t.manager.Sound) (ht : AllTyped t.cand) (hb : t.budget.isSome = true) (hcv : t.cv = none)
    (hbad : ∃ c ∈ t.cand.checks, ¬ c.Good) : ∃ l, t.run = some (l, true) ∧ t.loss < l := by
  obtain ⟨b, hb1, hb2⟩ := satisfies_iff ht
  obtain ⟨x, hx1, hx2, hx3⟩ := penalty_nonneg hm ht t.numAsk t.budget
  obtain ⟨c, hc1, hc2⟩ := hbad
  have hf : b = false := by
    rw [Bool.eq_false_iff]
    intro h
    have hfe := hb2.1 h
    generalize t.cand = p at hfe hc1
    cases hfe with
    | mk h hs => exact hc2 (h c hc1)
  have hx : 0 < x := lt_of_le_of_ne hx2 (Ne.symm (fun h => hc2 (hx3.1 h c hc1)))
  refine ⟨t.loss + x, ?_, by linarith⟩
  unfold Tell.run
  simp only [hb1, hf, hb, and_self, if_true, hx1, Option.map_some, hcv]

/-- C108 fails for constraints of sub-parameters: the candidate is infeasible, and its penalty is zero at any time. -/
theorem sub_constraint_free : ∃ p : Param, AllTyped p ∧ ¬ Feasible p ∧ ∀ n b, ({} : Manager).penalty p n b = some 0 := by
  refine ⟨.mk [] [.mk [.bool false] []], .mk (by simp) (by simpa using .mk (by simp [Check.Typed]) (by simp)), ?_, ?_⟩
  · simp [feasible_iff, Check.Good]
  · intro n b
    rw [penalty_eq _ (.mk (by simp) (by simpa using .mk (by simp [Check.Typed]) (by simp)))]
    simp [Param.checks]

/-- C108 fails without a budget: infeasible candidates are told with their loss and enter the archive. -/
theorem no_budget_free {t : Tell} (ht : AllTyped t.cand) (hb : t.budget = none) (hcv : t.cv = none) : t.run = some (t.loss, false) := by
  obtain ⟨b, hb1, -⟩ := satisfies_iff ht
  simp [Tell.run, hb1, hb, hcv]

/-- C108: a constraint which returns nan counts as satisfied. -/
theorem nan_satisfied : satisfies (.mk [.num none] []) = some true := by simp [satisfies, satisfiesAll, allSatisfied, floatPenalty]

/-- C108: a constraint which returns an integer raises. -/
theorem integer_raises (cs : List Check) : satisfies (.mk (.other :: cs) []) = none := by simp [satisfies, satisfiesAll, allSatisfied, floatPenalty]

/-! ## Examples -/

example : (⟨1000, 2, 1⟩ : Manager).penalty (.mk [.bool false, .num (some (-3)), .num (some 4)] []) 7 (some 100) = some 8 := by
  rw [penalty_eq _ (.mk (by simp [Check.Typed]) (by simp))]
  simp [Manager.coeff, Param.checks, Check.amount]
  norm_num

example : (⟨10, 2, 1, 1, 1, 1⟩ : Style).violation (some 4) 3 5 [2, -1] = 240 := by
  simp [Style.violation, ratio]
  norm_num

example : (⟨10, 2, 1, 1, 1, 1⟩ : Style).violation (some 4) 2 5 [2, -1] = 60 := by
  simp [Style.violation, ratio]
  norm_num

end Penalty
end NG
