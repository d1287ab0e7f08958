import Verif.Props.Discrete
import Mathlib.Algebra.BigOperators.Group.List.Basic
import Mathlib.Algebra.Order.BigOperators.Group.List

/-!
# C31: categorical sampling by `Encoder`
-/

namespace NG
namespace Disc

variable {α : Type} [Field α] [LinearOrder α] [IsStrictOrderedRing α]

omit [Field α] [IsStrictOrderedRing α] in
theorem wle_refl (a : W α) : W.le a a = true := by cases a <;> simp [W.le]

omit [Field α] [IsStrictOrderedRing α] in
theorem wle_trans {a b c : W α} (h : W.le a b = true) (h' : W.le b c = true) : W.le a c = true := by
  cases a <;> cases b <;> cases c <;> simp_all [W.le]
  exact le_trans h h'

omit [Field α] [IsStrictOrderedRing α] in
theorem wle_total (a b : W α) : W.le a b = true ∨ W.le b a = true := by
  cases a <;> cases b <;> simp [W.le]
  exact le_total _ _

omit [Field α] [IsStrictOrderedRing α] in
theorem le_maxW (ws : List (W α)) : ∀ w ∈ ws, W.le w (maxW ws) = true := by
  induction ws with
  | nil => simp
  | cons a l ih =>
    intro w hw
    unfold maxW
    split
    · rename_i h
      rcases List.mem_cons.mp hw with rfl | hw
      · exact wle_refl _
      · exact wle_trans (ih w hw) h
    · rename_i h
      rcases List.mem_cons.mp hw with rfl | hw
      · exact (wle_total _ _).resolve_right h
      · exact ih w hw

omit [Field α] [IsStrictOrderedRing α] in
theorem maxW_mem (ws : List (W α)) (h : ws ≠ []) : maxW ws ∈ ws := by
  induction ws with
  | nil => exact absurd rfl h
  | cons a l ih =>
    unfold maxW
    split
    · exact List.mem_cons_self
    · rename_i hn
      by_cases hl : l = []
      · subst hl; simp [maxW, W.le] at hn
      · exact List.mem_cons_of_mem _ (ih hl)

/-- The first index of the maximal weight, stated on the list: nothing is above it, everything before is below. -/
def FirstMax (ws : List (W α)) (k : ℕ) : Prop :=
  ∃ w, ws[k]? = some w ∧ (∀ v ∈ ws, W.le v w = true) ∧ ∀ j < k, ∀ v, ws[j]? = some v → W.le w v = false

omit [Field α] [IsStrictOrderedRing α] in
theorem argmaxW_first (ws : List (W α)) (h : ws ≠ []) : FirstMax ws (argmaxW ws) := by
  have hlt : argmaxW ws < ws.length := by
    apply List.findIdx_lt_length_of_exists
    exact ⟨_, maxW_mem ws h, wle_refl _⟩
  have hp : W.le (maxW ws) ws[argmaxW ws] = true := List.findIdx_getElem (w := hlt)
  refine ⟨ws[argmaxW ws], List.getElem?_eq_getElem hlt, fun v hv => wle_trans (le_maxW ws v hv) hp, ?_⟩
  intro j hj v hv
  have hjl : j < ws.length := by omega
  rw [List.getElem?_eq_getElem hjl] at hv
  have hv' : ws[j] = v := by simpa using hv
  have hn := List.not_of_lt_findIdx hj
  simp only [Bool.not_eq_true, hv'] at hn
  by_contra hc
  rw [Bool.not_eq_false] at hc
  have hm : W.le ws[argmaxW ws] (maxW ws) = true := le_maxW ws _ (List.getElem_mem hlt)
  have := wle_trans hp hc
  rw [hn] at this; exact absurd this (by simp)

/-! ### The probabilities -/

/-- The number given to a weight before normalisation, once the maximum of the row is known. -/
def unnorm (ex : α → α) (m w : W α) : α :=
  match m, w with
  | .pos, .pos => 1
  | .pos, _ => 0
  | .fin x, .fin y => ex (y - x)
  | _, .fin y => ex y
  | _, _ => 0

theorem expRow_eq (ex : α → α) (ws : List (W α)) : expRow ex ws = ws.map (unnorm ex (maxW ws)) := by
  unfold expRow
  cases h : maxW ws <;> simp only [] <;> apply List.map_congr_left <;> intro w _ <;> cases w <;> simp [unnorm]

/-- What is assumed of the exponential. -/
structure Expo (ex : α → α) : Prop where
  pos : ∀ x, 0 < ex x
  mono : StrictMono ex
  sub : ∀ x y, ex (x - y) = ex x / ex y

omit [Field α] [IsStrictOrderedRing α] in
theorem W.clean_ne (w : W α) : w.clean ≠ .nan := by cases w <;> simp [W.clean]

theorem unnorm_nonneg {ex : α → α} (he : Expo ex) (m w : W α) : 0 ≤ unnorm ex m w := by
  unfold unnorm
  cases m <;> cases w <;> simp [(he.pos _).le]

theorem unnorm_mono {ex : α → α} (he : Expo ex) (m v w : W α) (hm : W.le w m = true) (h : W.le v w = true) :
    unnorm ex m v ≤ unnorm ex m w := by
  unfold unnorm
  cases m <;> cases v <;> cases w <;> simp_all [W.le, (he.pos _).le, he.mono.le_iff_le]

theorem unnorm_strict {ex : α → α} (he : Expo ex) (v w : W α) (h : W.le w v = false) : unnorm ex w v < unnorm ex w w := by
  unfold unnorm
  cases v <;> cases w <;> simp_all [W.le, he.pos, he.mono.lt_iff_lt]

theorem probRow_length (ex : α → α) (ws : List (W α)) : (probRow ex ws).length = ws.length := by
  unfold probRow
  simp only [expRow_eq]
  split <;> simp

theorem list_sum_nonneg (l : List α) (h : ∀ x ∈ l, 0 ≤ x) : 0 ≤ l.sum := List.sum_nonneg h

theorem map_div_sum (l : List α) (s : α) : (l.map (fun x => x / s)).sum = l.sum / s := by
  induction l with
  | nil => simp
  | cons a l ih => simp [ih, add_div]

theorem map_one_sum {β : Type} (l : List β) : (l.map (fun _ => (1 : α))).sum = l.length := by
  induction l with
  | nil => simp
  | cons a l ih => simp [ih]; ring

/-- Sum of the row before normalisation: zero only when no option has a proper weight. -/
theorem unnorm_sum_pos {ex : α → α} (he : Expo ex) (ws : List (W α)) (h : maxW ws ≠ .neg) (h' : maxW ws ≠ .nan) (h0 : ws ≠ []) :
    0 < (ws.map (unnorm ex (maxW ws))).sum := by
  have hm := maxW_mem ws h0
  have h1 : unnorm ex (maxW ws) (maxW ws) ≤ (ws.map (unnorm ex (maxW ws))).sum := by
    apply List.single_le_sum
    · intro x hx
      obtain ⟨w, _, rfl⟩ := List.mem_map.mp hx
      exact unnorm_nonneg he _ _
    · exact List.mem_map_of_mem hm
  refine lt_of_lt_of_le ?_ h1
  cases hmx : maxW ws with
  | nan => exact absurd hmx h'
  | neg => exact absurd hmx h
  | pos => simp [unnorm]
  | fin x => simp [unnorm, he.pos]

/-- **Specification of the probabilities of a row** of weights without nan. Only options of infinite weight count if there
is one; otherwise options of finite weight, proportionally to the exponential of the weight; otherwise all are equal. -/
theorem prob_spec {ex : α → α} (he : Expo ex) (ws : List (W α)) (hn : .nan ∉ ws) (h0 : ws ≠ []) :
    (.pos ∈ ws → probRow ex ws = ws.map (fun w => if w = .pos then 1 / ((ws.count .pos : ℕ) : α) else 0)) ∧
    (.pos ∉ ws → (∃ x, .fin x ∈ ws) → ∃ Z : α, 0 < Z ∧ probRow ex ws = ws.map (fun w => match w with
      | .fin x => ex x / Z
      | _ => 0)) ∧
    ((∀ w ∈ ws, w = .neg) → probRow ex ws = ws.map (fun _ => 1 / (ws.length : α))) := by
  have hmem := maxW_mem ws h0
  have hmn : maxW ws ≠ .nan := fun h => hn (h ▸ hmem)
  refine ⟨?_, ?_, ?_⟩
  · intro hp
    have hmx : maxW ws = .pos := by
      have := le_maxW ws _ hp
      cases h : maxW ws <;> rw [h] at this <;> simp [W.le] at this ⊢
    have hs := unnorm_sum_pos he ws (by rw [hmx]; simp) hmn h0
    have hsum : (ws.map (unnorm ex (maxW ws))).sum = (ws.count .pos : ℕ) := by
      rw [hmx]
      clear hs hmx hmn hmem hp hn h0
      induction ws with
      | nil => simp
      | cons a l ih =>
        cases a <;> simp [unnorm, ih]
        ring
    unfold probRow
    simp only [expRow_eq]
    rw [if_neg hs.ne', hsum, hmx, List.map_map]
    apply List.map_congr_left
    intro w _
    cases w <;> simp [unnorm]
  · intro hp ⟨x, hx⟩
    obtain ⟨m, hmx⟩ : ∃ m, maxW ws = .fin m := by
      have h1 := le_maxW ws _ hx
      cases h : maxW ws with
      | fin m => exact ⟨m, rfl⟩
      | pos => exact absurd (h ▸ hmem) hp
      | nan => exact absurd h hmn
      | neg => rw [h] at h1; simp [W.le] at h1
    have hs := unnorm_sum_pos he ws (by rw [hmx]; simp) hmn h0
    refine ⟨ex m * (ws.map (unnorm ex (maxW ws))).sum, mul_pos (he.pos m) hs, ?_⟩
    unfold probRow
    simp only [expRow_eq]
    rw [if_neg hs.ne', List.map_map]
    apply List.map_congr_left
    intro w _
    rw [hmx]
    cases w <;> simp [unnorm]
    rw [he.sub, div_div]
  · intro hall
    have hmx : maxW ws = .neg := hall _ hmem
    have hz : ws.map (unnorm ex (maxW ws)) = ws.map (fun _ => (0 : α)) := by
      apply List.map_congr_left
      intro w hw
      rw [hmx, hall w hw]; simp [unnorm]
    unfold probRow
    simp only [expRow_eq, hz]
    have h1 : (ws.map (fun _ => (0 : α))).sum = 0 := by simp
    rw [if_pos h1, List.map_map, List.map_map]
    have h2 : (List.map (fun _ => (1 : α)) (List.map (fun _ => (0 : α)) ws)).sum = ws.length := by
      rw [map_one_sum, List.length_map]
    rw [h2]
    rfl

theorem prob_shape {ex : α → α} (he : Expo ex) (ws : List (W α)) (hn : .nan ∉ ws) (h0 : ws ≠ []) :
    (∃ Z : α, 0 < Z ∧ maxW ws ≠ .neg ∧ Z = (ws.map (unnorm ex (maxW ws))).sum ∧
      probRow ex ws = ws.map (fun w => unnorm ex (maxW ws) w / Z)) ∨
    (maxW ws = .neg ∧ probRow ex ws = ws.map (fun _ => 1 / (ws.length : α))) := by
  have hmem := maxW_mem ws h0
  have hmn : maxW ws ≠ .nan := fun h => hn (h ▸ hmem)
  by_cases hneg : maxW ws = .neg
  · right
    refine ⟨hneg, (prob_spec he ws hn h0).2.2 ?_⟩
    intro w hw
    have := le_maxW ws w hw
    rw [hneg] at this
    cases w with
    | nan => exact absurd hw hn
    | neg => rfl
    | fin x => simp [W.le] at this
    | pos => simp [W.le] at this
  · left
    have hs := unnorm_sum_pos he ws hneg hmn h0
    refine ⟨_, hs, hneg, rfl, ?_⟩
    unfold probRow
    simp only [expRow_eq]
    rw [if_neg hs.ne', List.map_map]
    rfl

/-- The probabilities of a row are non-negative and sum to one. -/
theorem prob_distribution {ex : α → α} (he : Expo ex) (ws : List (W α)) (hn : .nan ∉ ws) (h0 : ws ≠ []) :
    (∀ p ∈ probRow ex ws, 0 ≤ p) ∧ (probRow ex ws).sum = 1 := by
  have hl : (0 : α) < ws.length := by
    have := List.length_pos_iff.mpr h0
    exact_mod_cast this
  rcases prob_shape he ws hn h0 with ⟨Z, hZ, _, hZs, hp⟩ | ⟨_, hp⟩
  · rw [hp]
    refine ⟨?_, ?_⟩
    · intro p hp
      obtain ⟨w, _, rfl⟩ := List.mem_map.mp hp
      exact div_nonneg (unnorm_nonneg he _ _) hZ.le
    · have : ws.map (fun w => unnorm ex (maxW ws) w / Z) = (ws.map (unnorm ex (maxW ws))).map (fun x => x / Z) := by
        rw [List.map_map]; rfl
      rw [this, map_div_sum, ← hZs, div_self hZ.ne']
  · rw [hp]
    refine ⟨?_, ?_⟩
    · intro p hp
      obtain ⟨w, _, rfl⟩ := List.mem_map.mp hp
      positivity
    · have : ws.map (fun _ => 1 / (ws.length : α)) = (ws.map (fun _ => (1 : α))).map (fun x => x / (ws.length : α)) := by
        rw [List.map_map]; rfl
      rw [this, map_div_sum, map_one_sum, div_self hl.ne']

/-! ### Sampling -/

omit [IsStrictOrderedRing α] in
theorem pick_lt (p : List α) (r : α) (h : p ≠ []) : pick p r < p.length := by
  unfold pick
  cases hf : (List.range p.length).find? (fun k => decide (¬ cum p k < r)) with
  | none => simpa using List.length_pos_iff.mpr h
  | some k =>
    have := List.mem_of_find?_eq_some hf
    simpa using this

/-- **C31**: the index is always valid, in both modes, for any weights and any draw. -/
theorem encode_lt (ex : α → α) (det : Bool) (ws : List (W α)) (r : α) (h : ws ≠ []) : encode ex det ws r < ws.length := by
  have h' : ws.map W.clean ≠ [] := by simpa using h
  unfold encode
  cases det
  · simp only [Bool.false_eq_true, if_false]
    have := pick_lt (probRow ex (ws.map W.clean)) r (by
      intro hc; have := probRow_length ex (ws.map W.clean); rw [hc] at this; simp at this; exact h (List.eq_nil_of_length_eq_zero this.symm))
    rw [probRow_length] at this
    simpa using this
  · simp only [if_true]
    obtain ⟨w, hw, _⟩ := argmaxW_first (ws.map W.clean) h'
    have := (List.getElem?_eq_some_iff.mp hw).1
    simpa using this

theorem cum_last (p : List α) (h : p ≠ []) : cum p (p.length - 1) = p.sum := by
  unfold cum
  have := List.length_pos_iff.mpr h
  rw [show p.length - 1 + 1 = p.length by omega, List.take_length]

theorem cum_zero (p : List α) (k : ℕ) (hk : k < p.length) : cum p k = (p.take k).sum + p[k] := by
  unfold cum
  rw [List.take_add_one, List.getElem?_eq_getElem hk, List.sum_append]
  simp

/-- The interval of draws for index `k`: from the sum of the probabilities before `k`, excluded, to that sum plus the
probability of `k`, included. -/
def InSlot (p : List α) (k : ℕ) (r : α) : Prop :=
  ∃ hk : k < p.length, (p.take k).sum < r ∧ r ≤ (p.take k).sum + p[k]

theorem take_sum_mono (p : List α) (hp : ∀ x ∈ p, 0 ≤ x) {i j : ℕ} (hij : i ≤ j) : (p.take i).sum ≤ (p.take j).sum := by
  obtain ⟨d, rfl⟩ := Nat.exists_eq_add_of_le hij
  rw [List.take_add, List.sum_append]
  have : 0 ≤ ((p.drop i).take d).sum := List.sum_nonneg (fun x hx => hp x (List.mem_of_mem_drop (List.mem_of_mem_take hx)))
  linarith

theorem pick_slot (p : List α) (hp : ∀ x ∈ p, 0 ≤ x) (hs : p.sum = 1) (r : α) (h0 : 0 < r) (h1 : r ≤ 1) (k : ℕ) :
    pick p r = k ↔ InSlot p k r := by
  have hne : p ≠ [] := by rintro rfl; simp at hs
  have hlen := List.length_pos_iff.mpr hne
  have hlt := pick_lt p r hne
  obtain ⟨q, hq⟩ : ∃ q, (List.range p.length).find? (fun k => decide (¬ cum p k < r)) = some q := by
    rw [← Option.isSome_iff_exists, List.find?_isSome]
    refine ⟨p.length - 1, by simp; omega, ?_⟩
    rw [cum_last p hne, hs]; simpa using h1
  have hpk : pick p r = q := by unfold pick; rw [hq]; rfl
  have hql : q < p.length := by omega
  have hqs : InSlot p q r := by
    refine ⟨hql, ?_, ?_⟩
    · rw [List.find?_range_eq_some] at hq
      rcases Nat.eq_zero_or_pos q with rfl | hq0
      · simpa using h0
      · have := hq.2.2 (q - 1) (by omega)
        simp only [Bool.not_eq_true', decide_eq_false_iff_not, not_not] at this
        unfold cum at this
        rwa [show q - 1 + 1 = q by omega] at this
    · have := List.find?_some hq
      simp only [decide_eq_true_eq, not_lt] at this
      rwa [cum_zero p q hql] at this
  rw [hpk]
  constructor
  · rintro rfl; exact hqs
  · rintro ⟨hk, a, b⟩
    obtain ⟨_, a', b'⟩ := hqs
    rw [← cum_zero] at b b'
    unfold cum at b b'
    rcases lt_trichotomy q k with h | h | h
    · have := take_sum_mono p hp (show q + 1 ≤ k from h); linarith
    · exact h
    · have := take_sum_mono p hp (show k + 1 ≤ q from h); linarith

theorem clean_no_nan (ws : List (W α)) : W.nan ∉ ws.map W.clean := by
  intro h
  obtain ⟨w, _, hw⟩ := List.mem_map.mp h
  exact W.clean_ne w hw

/-- **C31**: for a positive draw the index returned is the one whose interval of cumulated probabilities contains the
draw. -/
theorem encode_slot_partial {ex : α → α} (he : Expo ex) (ws : List (W α)) (h : ws ≠ []) (r : α) (h0 : 0 < r) (h1 : r ≤ 1) (k : ℕ) :
    encode ex false ws r = k ↔ InSlot (probRow ex (ws.map W.clean)) k r := by
  have hd := prob_distribution he (ws.map W.clean) (clean_no_nan ws) (by simpa using h)
  unfold encode
  simp only [Bool.false_eq_true, if_false]
  exact pick_slot _ hd.1 hd.2 r h0 h1 k

/-- **C31**: an index is never drawn with probability zero, for a positive draw. -/
theorem encode_positive {ex : α → α} (he : Expo ex) (ws : List (W α)) (h : ws ≠ []) (r : α) (h0 : 0 < r) (h1 : r ≤ 1) :
    ∃ p, (probRow ex (ws.map W.clean))[encode ex false ws r]? = some p ∧ 0 < p := by
  obtain ⟨hk, a, b⟩ := (encode_slot_partial he ws h r h0 h1 _).mp rfl
  exact ⟨_, List.getElem?_eq_getElem hk, by linarith⟩

/-- **C31**, deterministic mode: the first index of maximal probability. -/
theorem encode_deterministic {ex : α → α} (he : Expo ex) (ws : List (W α)) (h : ws ≠ []) (r : α) :
    ∃ p, (probRow ex (ws.map W.clean))[encode ex true ws r]? = some p ∧ (∀ q ∈ probRow ex (ws.map W.clean), q ≤ p) ∧
      ∀ j < encode ex true ws r, ∀ q, (probRow ex (ws.map W.clean))[j]? = some q → q < p := by
  have h' : ws.map W.clean ≠ [] := by simpa using h
  have hk : encode ex true ws r = argmaxW (ws.map W.clean) := by unfold encode; simp
  rw [hk]
  have hn := clean_no_nan ws
  generalize ws.map W.clean = us at h' hn
  obtain ⟨w, hw, hmax, hfirst⟩ := argmaxW_first us h'
  have hwm : w ∈ us := List.mem_of_getElem? hw
  have hmw : W.le (maxW us) w = true := hmax _ (maxW_mem us h')
  rcases prob_shape he us hn h' with ⟨Z, hZ, hneg, _, hp⟩ | ⟨hneg, hp⟩
  · have heq : w = maxW us := by
      have h2 := le_maxW us w hwm
      have hwn : w ≠ .nan := fun hc => hn (hc ▸ hwm)
      have hmn : maxW us ≠ .nan := fun hc => hn (hc ▸ maxW_mem us h')
      cases hm : maxW us <;> cases w <;> simp_all [W.le]
      exact le_antisymm h2 hmw
    refine ⟨unnorm ex (maxW us) w / Z, by rw [hp, List.getElem?_map, hw]; rfl, ?_, ?_⟩
    · rw [hp]
      intro q hq
      obtain ⟨v, hv, rfl⟩ := List.mem_map.mp hq
      exact (div_le_div_iff_of_pos_right hZ).mpr (unnorm_mono he _ _ _ (le_maxW us w hwm) (hmax v hv))
    · intro j hj q hq
      rw [hp, List.getElem?_map] at hq
      obtain ⟨v, hv, rfl⟩ := Option.map_eq_some_iff.mp hq
      have := hfirst j hj v hv
      apply (div_lt_div_iff_of_pos_right hZ).mpr
      rw [← heq]
      exact unnorm_strict he v w this
  · have hz : argmaxW us = 0 := by
      by_contra hc
      obtain ⟨v, hv⟩ : ∃ v, us[0]? = some v := ⟨_, List.getElem?_eq_getElem (List.length_pos_iff.mpr h')⟩
      have h1 := hfirst 0 (by omega) v hv
      have h2 := le_maxW us w hwm
      rw [hneg] at h2
      cases w <;> simp_all [W.le]
    rw [hz]
    refine ⟨1 / (us.length : α), ?_, ?_, fun j hj => absurd hj (by omega)⟩
    · rw [hp, List.getElem?_map, List.getElem?_eq_getElem (List.length_pos_iff.mpr h')]; rfl
    · rw [hp]
      intro q hq
      obtain ⟨v, _, rfl⟩ := List.mem_map.mp hq
      exact le_refl _

/-- **Against the code**: `rand` may return exactly 0, and then index 0 is drawn even when it has probability zero. -/
theorem encode_zero_draw {ex : α → α} (he : Expo ex) :
    encode ex false [.neg, .fin 0] 0 = 0 ∧ (probRow ex [.neg, .fin 0])[0]? = some 0 := by
  have hp : probRow ex [.neg, .fin 0] = [0, 1] := by
    have h0 : ex 0 ≠ 0 := (he.pos 0).ne'
    simp [probRow, expRow, maxW, W.le, h0]
  refine ⟨?_, by rw [hp]; rfl⟩
  unfold encode
  simp only [Bool.false_eq_true, if_false, List.map_cons, List.map_nil, W.clean]
  rw [hp]
  simp [pick, cum, List.range_succ]

section measure
open MeasureTheory Set

/-- **C31**: drawing uniformly in `[0, 1)`, each index comes with its probability. -/
theorem encode_law {ex : ℝ → ℝ} (he : Expo ex) (ws : List (W ℝ)) (h : ws ≠ []) (k : ℕ) (p : ℝ)
    (hk : (probRow ex (ws.map W.clean))[k]? = some p) :
    volume {r : ℝ | 0 ≤ r ∧ r < 1 ∧ encode ex false ws r = k} = ENNReal.ofReal p := by
  have hd := prob_distribution he (ws.map W.clean) (clean_no_nan ws) (by simpa using h)
  obtain ⟨hkl, hkp⟩ := List.getElem?_eq_some_iff.mp hk
  have hslot := fun r h0 h1 => encode_slot_partial he ws h r h0 h1 k
  generalize probRow ex (ws.map W.clean) = P at *
  have ha : 0 ≤ (P.take k).sum := List.sum_nonneg (fun x hx => hd.1 x (List.mem_of_mem_take hx))
  have hb : (P.take k).sum + p ≤ 1 := by
    have := take_sum_mono P hd.1 (show k + 1 ≤ P.length from hkl)
    rw [List.take_length, hd.2] at this
    have e := cum_zero P k hkl
    unfold cum at e
    rw [e, hkp] at this; exact this
  apply le_antisymm
  · calc volume {r : ℝ | 0 ≤ r ∧ r < 1 ∧ encode ex false ws r = k}
        ≤ volume ({0} ∪ Ioc (P.take k).sum ((P.take k).sum + p)) := by
          apply measure_mono
          rintro r ⟨h0, h1, hr⟩
          rcases h0.eq_or_lt with rfl | h0
          · left; rfl
          · right
            obtain ⟨_, a, b⟩ := (hslot r h0 h1.le).mp hr
            rw [hkp] at b
            exact ⟨a, b⟩
      _ ≤ volume {(0 : ℝ)} + volume (Ioc (P.take k).sum ((P.take k).sum + p)) := measure_union_le _ _
      _ = ENNReal.ofReal p := by rw [Real.volume_singleton, Real.volume_Ioc]; simp
  · calc ENNReal.ofReal p = volume (Ioo (P.take k).sum ((P.take k).sum + p)) := by rw [Real.volume_Ioo]; simp
      _ ≤ _ := by
          apply measure_mono
          rintro r ⟨a, b⟩
          have h0 : 0 < r := by linarith
          have h1 : r < 1 := by linarith
          exact ⟨h0.le, h1, (hslot r h0 h1.le).mpr ⟨hkl, a, by rw [hkp]; exact b.le⟩⟩

theorem real_expo : Expo Real.exp := ⟨Real.exp_pos, Real.exp_strictMono, Real.exp_sub⟩

/-- Two options of infinite weight share the draws. -/
example : volume {r : ℝ | 0 ≤ r ∧ r < 1 ∧ encode Real.exp false [.pos, .fin 3, .nan, .pos] r = 3} = ENNReal.ofReal (1 / 2) := by
  apply encode_law real_expo _ (by simp)
  rw [(prob_spec real_expo _ (clean_no_nan _) (by simp)).1 (by simp [W.clean])]
  simp [W.clean]

end measure
end Disc
end NG
