import Verif.Model.OnePlusOne
import Mathlib.Algebra.Order.Field.Basic
import Mathlib.Algebra.BigOperators.Group.List.Basic
import Mathlib.Analysis.Complex.ExponentialBounds
import Mathlib.Data.Rat.Floor
import Mathlib.Tactic.Linarith
import Mathlib.Tactic.FieldSimp
import Mathlib.Tactic.Ring
import Mathlib.Tactic.Positivity

/-! # C68: adaptation rules of one-plus-one optimizers -/

namespace NG
namespace OnePlusOne

section
variable {α : Type} [Field α] [LinearOrder α]

/-! ## Step-size -/

/-- Number of tells strictly better than the best before them. -/
def better (l : List (WithTop α × α)) : Nat := (l.filter (fun e => decide ((e.2 : WithTop α) < e.1))).length

/-- Number of tells strictly worse than the best before them. -/
def worse (l : List (WithTop α × α)) : Nat := (l.filter (fun e => decide (e.1 < (e.2 : WithTop α)))).length

/-- **C68.** The step-size after any tells is `2^a * 0.84^b` for `a` improvements and `b` deteriorations: ties do not count, and the order does
not matter. -/
theorem sigma_spec (l : List (WithTop α × α)) :
    l.foldl (fun s e => sigmaStep s e.1 e.2) 1 = 2 ^ better l * (84 / 100) ^ worse l := by
  have key : ∀ (l : List (WithTop α × α)) (s : α), l.foldl (fun s e => sigmaStep s e.1 e.2) s = s * (2 ^ better l * (84 / 100) ^ worse l) := by
    intro l
    induction l with
    | nil => intro s; simp [better, worse]
    | cons e l ih =>
      intro s
      rw [List.foldl_cons, ih]
      rcases lt_trichotomy (e.2 : WithTop α) e.1 with h | h | h
      · have h1 : better (e :: l) = better l + 1 := by simp [better, h]
        have h2 : worse (e :: l) = worse l := by simp [worse, not_lt_of_gt h]
        rw [h1, h2, sigmaStep, if_neg (ne_of_gt h), if_pos h]
        ring
      · have h1 : better (e :: l) = better l := by simp [better, h]
        have h2 : worse (e :: l) = worse l := by simp [worse, h]
        rw [h1, h2, sigmaStep, if_pos h.symm]
      · have h1 : better (e :: l) = better l := by simp [better, not_lt_of_gt h]
        have h2 : worse (e :: l) = worse l + 1 := by simp [worse, h]
        rw [h1, h2, sigmaStep, if_neg (ne_of_lt h), if_neg (not_lt_of_gt h)]
        ring
  rw [key, one_mul]

variable [IsStrictOrderedRing α]

/-- **C68.** Hence the step-size never vanishes nor changes sign. -/
theorem sigma_pos (l : List (WithTop α × α)) : 0 < l.foldl (fun s e => sigmaStep s e.1 e.2) (1 : α) := by
  rw [sigma_spec]
  positivity

/-! ## Adaptive rate -/

/-- **C68.** The adaptive mutation rate stays in (0, 1], whatever is told. -/
theorem adaptive_range (l : List (WithTop α × α)) :
    0 < l.foldl (fun s e => adaptiveStep s e.1 e.2) (1 / 2 : α) ∧ l.foldl (fun s e => adaptiveStep s e.1 e.2) (1 / 2 : α) ≤ 1 := by
  have key : ∀ (l : List (WithTop α × α)) (s : α), 0 < s → s ≤ 1 →
      0 < l.foldl (fun s e => adaptiveStep s e.1 e.2) s ∧ l.foldl (fun s e => adaptiveStep s e.1 e.2) s ≤ 1 := by
    intro l
    induction l with
    | nil => intro s h1 h2; exact ⟨h1, h2⟩
    | cons e l ih =>
      intro s h1 _
      refine ih _ ?_ (min_le_left _ _)
      unfold adaptiveStep
      refine lt_min one_pos (mul_pos ?_ h1)
      split <;> positivity
  exact key l _ (by positivity) (by rw [div_le_one (by positivity)]; exact one_le_two)

/-- **C68.** and the number of mutated variables asked for is between 1 and the dimension. -/
theorem adaptive_intensity [FloorRing α] (mr : α) (h : 0 < mr ∧ mr ≤ 1) (dim : Nat) (hd : 0 < dim) :
    1 ≤ adaptiveIntensity mr dim ∧ adaptiveIntensity mr dim ≤ dim := by
  unfold adaptiveIntensity
  refine ⟨le_max_left _ _, max_le (by exact_mod_cast hd) ?_⟩
  have h1 : mr * dim ≤ dim := by
    have : (0 : α) ≤ dim := Nat.cast_nonneg _
    nlinarith [h.2]
  have h2 : ⌊mr * dim⌋ ≤ ⌊(dim : α)⌋ := Int.floor_le_floor h1
  simpa using h2

/-- **C68.** An improvement never lowers the rate, a deterioration always does. -/
theorem adaptive_direction (mr : α) (h : 0 < mr ∧ mr ≤ 1) (prev : WithTop α) (loss : α) :
    ((loss : WithTop α) ≤ prev → mr ≤ adaptiveStep mr prev loss) ∧ (prev < (loss : WithTop α) → adaptiveStep mr prev loss < mr) := by
  unfold adaptiveStep
  constructor
  · intro hl
    rw [if_pos hl]
    refine le_min h.2 ?_
    have : (12 / 10 : α) * mr = mr + 2 / 10 * mr := by ring
    rw [this]
    have : 0 < (2 / 10 : α) * mr := mul_pos (by positivity) h.1
    linarith
  · intro hl
    rw [if_neg (not_le_of_gt hl)]
    refine lt_of_le_of_lt (min_le_right _ _) ?_
    have : (731 / 1000 : α) * mr = mr - 269 / 1000 * mr := by ring
    rw [this]
    have : 0 < (269 / 1000 : α) * mr := mul_pos (by positivity) h.1
    linarith

/-- **C68.** `discreteBSO`: between 1 and the dimension, decreasing with the asks, down to 1 at the end of the budget. -/
theorem bso_range [FloorRing α] (dim numAsk budget : Nat) (hd : 0 < dim) (hb : 0 < budget) :
    1 ≤ bsoIntensity (α := α) dim numAsk budget ∧ bsoIntensity (α := α) dim numAsk budget ≤ dim ∧
    (∀ n', numAsk ≤ n' → bsoIntensity (α := α) dim n' budget ≤ bsoIntensity (α := α) dim numAsk budget) ∧
    (budget ≤ numAsk → bsoIntensity (α := α) dim numAsk budget = 1) := by
  have hb' : (0 : α) < budget := by exact_mod_cast hb
  have hmono : ∀ n n' : Nat, n ≤ n' → ⌊(dim : α) - n' * dim / budget⌋ ≤ ⌊(dim : α) - n * dim / budget⌋ := by
    intro n n' h
    apply Int.floor_le_floor
    have h1 : (n : α) ≤ n' := by exact_mod_cast h
    have h2 : (n : α) * dim / budget ≤ n' * dim / budget :=
      div_le_div_of_nonneg_right (mul_le_mul_of_nonneg_right h1 (Nat.cast_nonneg _)) hb'.le
    linarith
  have hle : ⌊(dim : α) - numAsk * dim / budget⌋ ≤ dim := by
    have := hmono 0 numAsk (Nat.zero_le _)
    simpa using this
  refine ⟨?_, ?_, ?_, ?_⟩
  · unfold bsoIntensity; split <;> omega
  · unfold bsoIntensity; split
    · exact_mod_cast hd
    · exact hle
  · intro n' hn
    have := hmono numAsk n' hn
    unfold bsoIntensity
    split <;> split <;> omega
  · intro hn
    have h1 : ⌊(dim : α) - numAsk * dim / budget⌋ ≤ 0 := by
      have := hmono budget numAsk hn
      have e : (budget : α) * dim / budget = dim := mul_div_cancel_left₀ _ hb'.ne'
      rw [e, sub_self, Int.floor_zero] at this
      exact this
    unfold bsoIntensity
    rw [if_pos (by omega)]

/-! ## Velocities -/

/-- **C68.** For choices of at least 4 values the velocities are kept in [1, arity / 4], all of them and at each tell. -/
theorem velocity_range_partial (arity : Nat) (ha : 4 ≤ arity) (velocity : List α) (prev : WithTop α) (loss : α) :
    (velocityStep arity velocity prev loss).length = velocity.length ∧
    ∀ v ∈ velocityStep arity velocity prev loss, 1 ≤ v ∧ v ≤ (arity : α) / 4 := by
  refine ⟨by simp [velocityStep], ?_⟩
  intro v hv
  simp only [velocityStep, List.mem_map] at hv
  obtain ⟨x, -, rfl⟩ := hv
  have h4 : (1 : α) ≤ (arity : α) / 4 := by
    rw [le_div_iff₀ (by positivity), one_mul]
    exact_mod_cast ha
  exact ⟨le_min (le_max_right _ _) h4, min_le_right _ _⟩

/-- **C68 (disagreement).** With fewer than 4 values the lower bound is above the upper one and every velocity becomes `arity / 4 < 1`, whatever
the losses: there is no adaptation at all. -/
theorem velocity_stuck (arity : Nat) (ha : arity < 4) (velocity : List α) (prev : WithTop α) (loss : α) :
    ∀ v ∈ velocityStep arity velocity prev loss, v = (arity : α) / 4 ∧ v < 1 := by
  intro v hv
  simp only [velocityStep, List.mem_map] at hv
  obtain ⟨x, -, rfl⟩ := hv
  have h4 : (arity : α) / 4 < 1 := by
    rw [div_lt_one (by positivity)]
    exact_mod_cast ha
  have : clip (x * if (loss : WithTop α) < prev then 12 / 10 else 731 / 1000) 1 ((arity : α) / 4) = (arity : α) / 4 :=
    min_eq_right (le_trans h4.le (le_max_right _ _))
  rw [this]
  exact ⟨rfl, h4⟩

/-! ## Log-normal rates -/

/-- **C68.** Individual rates are in (0, 1) when the global rate is. -/
theorem individual_range (dim : Nat) (hd : 0 < dim) (mr e : α) (hm : 0 < mr ∧ mr < 1) (he : 0 < e) :
    0 < individualRate dim mr e ∧ individualRate dim mr e < 1 := by
  have hd' : (1 : α) ≤ dim := by exact_mod_cast hd
  have h1 : 0 < max ((1 / 10 : α) / dim) mr := lt_max_of_lt_right hm.1
  have h2 : max ((1 / 10 : α) / dim) mr < 1 := by
    refine max_lt ?_ hm.2
    rw [div_lt_one (by positivity)]
    have : (1 / 10 : α) < 1 := by norm_num
    linarith
  have h3 : 0 < (1 - max ((1 / 10 : α) / dim) mr) / max ((1 / 10 : α) / dim) mr * e := mul_pos (div_pos (sub_pos.mpr h2) h1) he
  unfold individualRate
  refine ⟨by positivity, ?_⟩
  rw [div_lt_one (by linarith)]
  linarith

omit [Field α] [IsStrictOrderedRing α] in
theorem tell_rates (imr loss : α) (size : Nat) (s : LogN α) (P : α → Prop) (hi : P imr) (hs : P s.globalMr ∧ P s.bestMr) :
    P (s.tell imr loss size).globalMr ∧ P (s.tell imr loss size).bestMr := by
  have hr : P (s.record imr loss size).globalMr ∧ P (s.record imr loss size).bestMr := by
    unfold LogN.record
    split
    · exact ⟨hs.1, hi⟩
    · exact hs
  unfold LogN.tell
  split
  · exact ⟨hr.2, hr.2⟩
  · exact hr

omit [IsStrictOrderedRing α] in
/-- **C68.** The global rate stays in (0, 1) as long as the told rates are (by `individual_range` they are, and 0.2 is used for points without
rate): the mutation loop, which needs a positive rate to end, always gets one. -/
theorem lognormal_range (size : Nat) (l : List (α × α)) (hl : ∀ e ∈ l, 0 < e.1 ∧ e.1 < 1) (s : LogN α)
    (hs : (0 < s.globalMr ∧ s.globalMr < 1) ∧ (0 < s.bestMr ∧ s.bestMr < 1)) :
    0 < (l.foldl (fun s e => s.tell e.1 e.2 size) s).globalMr ∧ (l.foldl (fun s e => s.tell e.1 e.2 size) s).globalMr < 1 := by
  induction l generalizing s with
  | nil => exact hs.1
  | cons e l ih =>
    refine ih (fun e he => hl e (by simp [he])) _ ?_
    exact tell_rates e.1 e.2 size s (fun x => 0 < x ∧ x < 1) (hl e (by simp)) hs

/-- `x` is the least loss of `l` and `r` the rate of the first point attaining it. -/
def FirstLeast (l : List (α × α)) (r x : α) : Prop :=
  ∃ i : Nat, l[i]? = some (r, x) ∧ ∀ (j : Nat) (r' x' : α), l[j]? = some (r', x') → x ≤ x' ∧ (j < i → x < x')

omit [Field α] [IsStrictOrderedRing α] in
theorem FirstLeast.record (l : List (α × α)) (e : α × α) (size : Nat) (s : LogN α)
    (h0 : l = [] → s.bestLoss = ⊤) (h1 : l ≠ [] → ∃ x : α, s.bestLoss = (x : WithTop α) ∧ FirstLeast l s.bestMr x) :
    ∃ x : α, (s.record e.1 e.2 size).bestLoss = (x : WithTop α) ∧ FirstLeast (l ++ [e]) (s.record e.1 e.2 size).bestMr x := by
  by_cases hlt : (e.2 : WithTop α) < s.bestLoss
  · have hrec : s.record e.1 e.2 size = { s with index := (s.index + 1) % size, bestLoss := e.2, bestMr := e.1 } := by
      unfold LogN.record; rw [if_pos hlt]
    rw [hrec]
    refine ⟨e.2, rfl, l.length, by simp, ?_⟩
    intro j r' x' hj
    rw [List.getElem?_append] at hj
    split at hj
    · have hne : l ≠ [] := by rintro rfl; simp at hj
      obtain ⟨x, hb, i, hi, hall⟩ := h1 hne
      rw [hb, WithTop.coe_lt_coe] at hlt
      have := (hall j r' x' hj).1
      exact ⟨(lt_of_lt_of_le hlt this).le, fun _ => lt_of_lt_of_le hlt this⟩
    · next hjl =>
      have hj0 : j - l.length = 0 := by
        rcases Nat.eq_zero_or_pos (j - l.length) with h | h
        · exact h
        · rw [List.getElem?_eq_none (by simp; omega)] at hj; simp at hj
      rw [hj0] at hj
      simp at hj
      have hx : e.2 = x' := by rw [hj]
      rw [← hx]
      exact ⟨le_refl _, fun h => by omega⟩
  · have hne : l ≠ [] := by
      rintro rfl
      rw [h0 rfl] at hlt
      exact hlt (WithTop.coe_lt_top _)
    have hrec : s.record e.1 e.2 size = { s with index := (s.index + 1) % size } := by
      unfold LogN.record; rw [if_neg hlt]
    rw [hrec]
    obtain ⟨x, hb, i, hi, hall⟩ := h1 hne
    have hil := (List.getElem?_eq_some_iff.mp hi).1
    refine ⟨x, hb, i, by rw [List.getElem?_append_left hil, hi], ?_⟩
    intro j r' x' hj
    rw [List.getElem?_append] at hj
    split at hj
    · exact hall j r' x' hj
    · next hjl =>
      have hj0 : j - l.length = 0 := by
        rcases Nat.eq_zero_or_pos (j - l.length) with h | h
        · exact h
        · rw [List.getElem?_eq_none (by simp; omega)] at hj; simp at hj
      rw [hj0] at hj
      simp at hj
      rw [hb] at hlt
      have : x ≤ e.2 := by
        rw [not_lt] at hlt
        exact_mod_cast hlt
      have hx : e.2 = x' := by rw [hj]
      rw [← hx]
      exact ⟨this, fun h => by omega⟩

omit [Field α] [IsStrictOrderedRing α] in
theorem record_other (imr loss : α) (size : Nat) (s : LogN α) :
    (s.record imr loss size).globalMr = s.globalMr ∧ (s.record imr loss size).index = (s.index + 1) % size := by
  unfold LogN.record
  split <;> exact ⟨rfl, rfl⟩

omit [Field α] [IsStrictOrderedRing α] in
/-- **C68.** Inside a block of `memory_size` tells the global rate does not change. -/
theorem lognormal_prefix (size : Nat) (l : List (α × α)) (hl : l.length < size) (s : LogN α) (h0 : s.index = 0) (ht : s.bestLoss = ⊤) :
    (l.foldl (fun s e => s.tell e.1 e.2 size) s).globalMr = s.globalMr ∧
    (l.foldl (fun s e => s.tell e.1 e.2 size) s).index = l.length ∧
    (l = [] → (l.foldl (fun s e => s.tell e.1 e.2 size) s).bestLoss = ⊤) ∧
    (l ≠ [] → ∃ x : α, (l.foldl (fun s e => s.tell e.1 e.2 size) s).bestLoss = (x : WithTop α) ∧
      FirstLeast l (l.foldl (fun s e => s.tell e.1 e.2 size) s).bestMr x) := by
  induction l using List.reverseRecOn with
  | nil => exact ⟨rfl, h0, fun _ => ht, fun h => (h rfl).elim⟩
  | append_singleton l e ih =>
    rw [List.length_append, List.length_singleton] at hl
    obtain ⟨h1, h2, h3, h4⟩ := ih (by omega)
    rw [List.foldl_append, List.foldl_cons, List.foldl_nil]
    generalize l.foldl (fun s e => s.tell e.1 e.2 size) s = s' at h1 h2 h3 h4
    have hidx : (s'.record e.1 e.2 size).index = l.length + 1 := by
      rw [(record_other ..).2, h2]
      exact Nat.mod_eq_of_lt (by omega)
    have htell : s'.tell e.1 e.2 size = s'.record e.1 e.2 size := by
      unfold LogN.tell
      rw [if_neg (by omega)]
    rw [htell]
    exact ⟨(record_other ..).1.trans h1, by simpa using hidx, fun h => by simp at h, fun _ => FirstLeast.record l e size s' h3 h4⟩

omit [Field α] [IsStrictOrderedRing α] in
/-- **C68.** At the end of each block the global rate is the rate of the first point of the block with the least loss (of this block only),
and a new block begins. -/
theorem lognormal_block (size : Nat) (l : List (α × α)) (hl : l.length = size) (hp : 0 < size) (s : LogN α) (h0 : s.index = 0)
    (ht : s.bestLoss = ⊤) :
    (∃ x : α, FirstLeast l (l.foldl (fun s e => s.tell e.1 e.2 size) s).globalMr x) ∧
    (l.foldl (fun s e => s.tell e.1 e.2 size) s).index = 0 ∧ (l.foldl (fun s e => s.tell e.1 e.2 size) s).bestLoss = ⊤ := by
  rcases List.eq_nil_or_concat l with rfl | ⟨l', e, rfl⟩
  · simp at hl; omega
  · rw [List.concat_eq_append] at *
    rw [List.length_append, List.length_singleton] at hl
    obtain ⟨h1, h2, h3, h4⟩ := lognormal_prefix size l' (by omega) s h0 ht
    rw [List.foldl_append, List.foldl_cons, List.foldl_nil]
    generalize l'.foldl (fun s e => s.tell e.1 e.2 size) s = s' at h1 h2 h3 h4
    have hidx : (s'.record e.1 e.2 size).index = 0 := by
      rw [(record_other ..).2, h2, hl, Nat.mod_self]
    have htell : s'.tell e.1 e.2 size = { s'.record e.1 e.2 size with globalMr := (s'.record e.1 e.2 size).bestMr, bestLoss := ⊤ } := by
      unfold LogN.tell
      rw [if_pos hidx]
    rw [htell]
    obtain ⟨x, -, hx⟩ := FirstLeast.record l' e size s' h3 h4
    exact ⟨⟨x, hx⟩, hidx, rfl⟩

/-! ## Doerr's rates -/

omit [Field α] [LinearOrder α] [IsStrictOrderedRing α] in
theorem mem_ratesLoop (dim : Nat) : ∀ (fuel m : Nat), dim ≤ fuel + (3 + m * (m + 1)) → ∀ x,
    x ∈ ratesLoop dim fuel (3 + m * (m + 1)) (2 * m + 2) ↔ ∃ k, m ≤ k ∧ x = 3 + k * (k + 1) ∧ x < dim := by
  intro fuel
  induction fuel with
  | zero =>
    intro m h x
    simp only [ratesLoop, List.not_mem_nil, false_iff]
    rintro ⟨k, hk, rfl, hx⟩
    have : m * (m + 1) ≤ k * (k + 1) := Nat.mul_le_mul hk (by omega)
    omega
  | succ f ih =>
    intro m h x
    unfold ratesLoop
    have e1 : 3 + m * (m + 1) + (2 * m + 2) = 3 + (m + 1) * (m + 1 + 1) := by ring
    have e2 : 2 * m + 2 + 2 = 2 * (m + 1) + 2 := by ring
    split
    · next hlt =>
      rw [e1, e2, List.mem_cons, ih (m + 1) (by rw [← e1]; omega)]
      constructor
      · rintro (rfl | ⟨k, hk, rfl, hx⟩)
        · exact ⟨m, Nat.le_refl _, rfl, hlt⟩
        · exact ⟨k, by omega, rfl, hx⟩
      · rintro ⟨k, hk, rfl, hx⟩
        rcases Nat.eq_or_lt_of_le hk with rfl | hk
        · exact Or.inl rfl
        · exact Or.inr ⟨k, hk, rfl, hx⟩
    · next hlt =>
      simp only [List.not_mem_nil, false_iff]
      rintro ⟨k, hk, rfl, hx⟩
      have : m * (m + 1) ≤ k * (k + 1) := Nat.mul_le_mul hk (by omega)
      omega

omit [Field α] [LinearOrder α] [IsStrictOrderedRing α] in
/-- **C68.** The rates of `doerr` are 1, 2 and the numbers 3 + k (k + 1) below the dimension. -/
theorem mem_rates (dim x : Nat) : x ∈ rates dim ↔ x = 1 ∨ x = 2 ∨ ∃ k, x = 3 + k * (k + 1) ∧ x < dim := by
  have := mem_ratesLoop dim dim 0 (by omega) x
  simp only [rates, List.mem_cons]
  have e : ratesLoop dim dim (3 + 0 * (0 + 1)) (2 * 0 + 2) = ratesLoop dim dim 3 2 := rfl
  rw [e] at this
  rw [this]
  constructor
  · rintro (h | h | ⟨k, -, h⟩)
    · exact Or.inl h
    · exact Or.inr (Or.inl h)
    · exact Or.inr (Or.inr ⟨k, h⟩)
  · rintro (h | h | ⟨k, h⟩)
    · exact Or.inl h
    · exact Or.inr (Or.inl h)
    · exact Or.inr (Or.inr ⟨k, Nat.zero_le _, h⟩)

omit [Field α] [IsStrictOrderedRing α] in
/-- **C68.** Greedy picks have the largest reward, the first one in case of ties. -/
theorem greedy_spec (rewards : Nat → α) (n : Nat) (hn : 0 < n) :
    greedy rewards n < n ∧ (∀ j < n, rewards j ≤ rewards (greedy rewards n)) ∧
    ∀ j < greedy rewards n, rewards j < rewards (greedy rewards n) := by
  have hex : ∃ i ∈ List.range n, ∀ j ∈ List.range n, rewards j ≤ rewards i := by
    have := Finset.exists_max_image (Finset.range n) rewards ⟨0, by simpa using hn⟩
    simpa using this
  unfold greedy
  cases hf : (List.range n).find? (fun i => (List.range n).all (fun j => decide (rewards j ≤ rewards i))) with
  | none =>
    exfalso
    rw [List.find?_eq_none] at hf
    obtain ⟨i, hi, h⟩ := hex
    exact hf i hi (by simpa using h)
  | some i =>
    rw [Option.getD_some]
    have h1 := List.find?_some hf
    have h2 := List.mem_of_find?_eq_some hf
    simp only [List.all_eq_true, decide_eq_true_eq, List.mem_range] at h1 h2
    refine ⟨h2, h1, fun j hj => ?_⟩
    rw [List.find?_range_eq_some] at hf
    have := hf.2.2 j hj
    simp only [Bool.not_eq_true', List.all_eq_false, decide_eq_true_eq, not_le] at this
    obtain ⟨k, hk, hlt⟩ := this
    rw [List.mem_range] at hk
    exact lt_of_lt_of_le hlt (h1 k hk)

/-- Weight of rate `k`: `g ^ age` for each time it was learnt (newest first). -/
def weight (g : α) (k : Nat) (hist : List (Nat × α)) : α :=
  ((hist.zipIdx.filter (fun e => decide (e.1.1 = k))).map (fun e => g ^ e.2)).sum

/-- Weighted improvements of rate `k`. -/
def gain (g : α) (k : Nat) (hist : List (Nat × α)) : α :=
  ((hist.zipIdx.filter (fun e => decide (e.1.1 = k))).map (fun e => g ^ e.2 * e.1.2)).sum

omit [LinearOrder α] [IsStrictOrderedRing α] in
theorem zipIdx_shift (f : Nat → α → α) (g : α) (hf : ∀ n x, f (n + 1) x = g * f n x) (k : Nat) (hist : List (Nat × α)) :
    (((hist.zipIdx 1).filter (fun e => decide (e.1.1 = k))).map (fun e => f e.2 e.1.2)).sum
      = g * ((hist.zipIdx.filter (fun e => decide (e.1.1 = k))).map (fun e => f e.2 e.1.2)).sum := by
  have : ∀ s, (((hist.zipIdx (s + 1)).filter (fun e => decide (e.1.1 = k))).map (fun e => f e.2 e.1.2)).sum
      = g * (((hist.zipIdx s).filter (fun e => decide (e.1.1 = k))).map (fun e => f e.2 e.1.2)).sum := by
    induction hist with
    | nil => intro s; simp
    | cons e hist ih =>
      intro s
      rw [List.zipIdx_cons, List.zipIdx_cons, List.filter_cons, List.filter_cons]
      by_cases h : e.1 = k
      · simp only [h, decide_true, if_true, List.map_cons, List.sum_cons, ih, hf, mul_add]
      · simp only [h, decide_false, Bool.false_eq_true, if_false, ih]
  exact this 0

omit [LinearOrder α] [IsStrictOrderedRing α] in
theorem weight_cons (g : α) (k : Nat) (e : Nat × α) (hist : List (Nat × α)) :
    weight g k (e :: hist) = (if k = e.1 then 1 else 0) + g * weight g k hist := by
  have h := zipIdx_shift (fun n _ => g ^ n) g (fun n _ => by ring) k hist
  unfold weight
  rw [List.zipIdx_cons, List.filter_cons]
  by_cases hk : k = e.1
  · simp only [hk, decide_true, if_true, List.map_cons, List.sum_cons, pow_zero, zero_add]
    rw [hk] at h; rw [h]
  · have hk' : ¬ e.1 = k := fun h => hk h.symm
    simp only [hk, hk', decide_false, Bool.false_eq_true, if_false, zero_add]
    exact h

omit [LinearOrder α] [IsStrictOrderedRing α] in
theorem gain_cons (g : α) (k : Nat) (e : Nat × α) (hist : List (Nat × α)) :
    gain g k (e :: hist) = (if k = e.1 then e.2 else 0) + g * gain g k hist := by
  have h := zipIdx_shift (fun n x => g ^ n * x) g (fun n x => by ring) k hist
  unfold gain
  rw [List.zipIdx_cons, List.filter_cons]
  by_cases hk : k = e.1
  · simp only [hk, decide_true, if_true, List.map_cons, List.sum_cons, pow_zero, zero_add, one_mul]
    rw [hk] at h; rw [h]
  · have hk' : ¬ e.1 = k := fun h => hk h.symm
    simp only [hk, hk', decide_false, Bool.false_eq_true, if_false, zero_add]
    exact h

/-- What was learnt in a session of asks and tells, one at a time: when the rate was drawn at random, its index and by how much the loss is under
all the losses before it. -/
def learnt : α → List (Option Nat × α) → List (Nat × α)
  | _, [] => []
  | b, (pick, loss) :: l =>
    learnt (min b loss) l ++ (match pick with | some i => [(i, max 0 (b - loss))] | none => [])

/-- One ask and the tell of its point. -/
def Doerr.round (g : α) (n : Nat) (s : Doerr α) (e : Option Nat × α) : Option (Doerr α) :=
  (s.ask n e.1).bind (fun r => r.2.tell g e.2)

/-- Correct rewards and counters for what was learnt. -/
def Fits (g : α) (hist : List (Nat × α)) (s : Doerr α) : Prop :=
  ∀ k, s.counters k = weight g k hist ∧ s.counters k * s.rewards k = gain g k hist ∧ 0 ≤ s.counters k ∧ 0 ≤ s.rewards k

omit [IsStrictOrderedRing α] in
theorem round_learn (g : α) (n : Nat) (s : Doerr α) (b : α) (hb : s.best = (b : WithTop α)) (hi : s.index = none) (i : Nat) (loss : α)
    (hden : g * s.counters i + 1 ≠ 0) :
    s.round g n (some i, loss) = some
      ⟨fun k => if k = i then (g * s.counters i * s.rewards i + max 0 (b - loss)) / (g * s.counters i + 1) else s.rewards k,
        fun k => if k = i then g * s.counters k + 1 else g * s.counters k, min s.best loss, none⟩ := by
  simp only [Doerr.round, Doerr.ask, hi, Option.bind_some, Doerr.tell]
  rw [hb]
  simp only [Doerr.learn]
  rw [if_neg hden]
  rfl

theorem round_spec (g : α) (hg : 0 ≤ g) (n : Nat) (hist : List (Nat × α)) (s : Doerr α) (b : α) (hb : s.best = (b : WithTop α))
    (hi : s.index = none) (hf : Fits g hist s) (pick : Option Nat) (loss : α) :
    ∃ s', s.round g n (pick, loss) = some s' ∧ s'.best = ((min b loss : α) : WithTop α) ∧ s'.index = none ∧
      Fits g ((match pick with | some i => [(i, max 0 (b - loss))] | none => []) ++ hist) s' ∧
      (pick = none → s'.rewards = s.rewards) := by
  cases pick with
  | none =>
    refine ⟨{ s with best := min s.best loss }, ?_, ?_, hi, ?_, fun _ => rfl⟩
    · simp only [Doerr.round, Doerr.ask, hi, Option.bind_some, Doerr.tell]
      rw [hb]
    · show min s.best _ = _
      rw [hb, WithTop.coe_min]
    · exact hf
  | some i =>
    have hc := (hf i).2.2.1
    have hr := (hf i).2.2.2
    have hden : 0 < g * s.counters i + 1 := by have := mul_nonneg hg hc; linarith
    refine ⟨⟨fun k => if k = i then (g * s.counters i * s.rewards i + max 0 (b - loss)) / (g * s.counters i + 1) else s.rewards k,
      fun k => if k = i then g * s.counters k + 1 else g * s.counters k, min s.best loss, none⟩, ?_, ?_, rfl, ?_, fun h => by simp at h⟩
    · exact round_learn g n s b hb hi i loss hden.ne'
    · show min s.best _ = _
      rw [hb, WithTop.coe_min]
    · intro k
      obtain ⟨h1, h2, h3, h4⟩ := hf k
      show (if k = i then _ else _) = _ ∧ (if k = i then _ else _) * (if k = i then _ else _) = _ ∧ _ ≤ (if k = i then _ else _) ∧ _ ≤ (if k = i then _ else _)
      rw [List.singleton_append, weight_cons, gain_cons]
      by_cases hk : k = i
      · subst hk
        simp only [if_true]
        refine ⟨by rw [h1]; ring, ?_, hden.le, ?_⟩
        · rw [mul_div_cancel₀ _ hden.ne', ← h2]; ring
        · exact div_nonneg (add_nonneg (mul_nonneg (mul_nonneg hg h3) h4) (le_max_left _ _)) hden.le
      · simp only [hk, if_false, zero_add]
        refine ⟨by rw [h1], by rw [mul_assoc, h2], mul_nonneg hg h3, h4⟩

theorem gamma_nonneg (dim : Nat) (h : 2 ≤ dim) : 0 ≤ (gamma dim : α) ∧ (gamma dim : α) < 1 := by
  have h2 : (2 : α) ≤ dim := by exact_mod_cast h
  have hp : (0 : α) < dim := by linarith
  unfold gamma
  constructor
  · rw [sub_nonneg, div_le_one hp]; exact h2
  · have : (0 : α) < 2 / dim := by positivity
    linarith

/-- **C68.** Asking and telling one point at a time never fails in dimension 2 or more, and each reward is the mean of the improvements obtained with
its rate, with weights decreasing geometrically with the age: improvements obtained with greedy picks are not counted. -/
theorem doerr_session (dim : Nat) (hd : 2 ≤ dim) (n : Nat) (first : α) (l : List (Option Nat × α)) :
    ∃ s0 s : Doerr α, Doerr.init.tell (gamma dim) first = some s0 ∧
      l.foldlM (fun s e => s.round (gamma dim) n e) s0 = some s ∧ s.index = none ∧
      s.best = ((l.foldl (fun b e => min b e.2) first : α) : WithTop α) ∧
      ∀ k, 0 ≤ s.rewards k ∧ s.counters k = weight (gamma dim) k (learnt first l) ∧
        s.counters k * s.rewards k = gain (gamma dim) k (learnt first l) := by
  have key : ∀ (l : List (Option Nat × α)) (b : α) (hist : List (Nat × α)) (s0 : Doerr α), s0.best = (b : WithTop α) → s0.index = none →
      Fits (gamma dim) hist s0 → ∃ s, l.foldlM (fun s e => s.round (gamma dim) n e) s0 = some s ∧ s.index = none ∧
        s.best = ((l.foldl (fun b e => min b e.2) b : α) : WithTop α) ∧ Fits (gamma dim) (learnt b l ++ hist) s := by
    intro l
    induction l with
    | nil => intro b hist s0 hb hi hf; exact ⟨s0, rfl, hi, hb, by simpa [learnt] using hf⟩
    | cons e l ih =>
      intro b hist s0 hb hi hf
      obtain ⟨pick, loss⟩ := e
      obtain ⟨s1, h1, h2, h3, h4, -⟩ := round_spec (gamma dim) (gamma_nonneg dim hd).1 n hist s0 b hb hi hf pick loss
      obtain ⟨s, h5, h6, h7, h8⟩ := ih (min b loss) _ s1 h2 h3 h4
      refine ⟨s, ?_, h6, h7, ?_⟩
      · rw [List.foldlM_cons, h1]; exact h5
      · clear h1 h5
        cases pick <;> (rw [learnt, List.append_assoc]; exact h8)
  have h0 : Doerr.init.tell (gamma dim) first = some (⟨fun _ => 0, fun _ => 0, (first : WithTop α), none⟩ : Doerr α) := by
    simp only [Doerr.init, Doerr.tell]
    exact congrArg (fun b => some (⟨fun _ => 0, fun _ => 0, b, none⟩ : Doerr α)) (min_eq_right le_top)
  obtain ⟨s, h1, h2, h3, h4⟩ := key l first [] ⟨fun _ => 0, fun _ => 0, (first : WithTop α), none⟩ rfl rfl
    (fun k => by simp [weight, gain])
  rw [List.append_nil] at h4
  exact ⟨_, s, h0, h1, h2, h3, fun k => ⟨(h4 k).2.2.2, (h4 k).1, (h4 k).2.1⟩⟩

omit [Field α] [IsStrictOrderedRing α] in
/-- **C68 (disagreement).** Two asks in a row, the first with a rate drawn at random: the second fails on an assertion. -/
theorem doerr_two_asks (n i : Nat) (pick : Option Nat) (s : Doerr α) (h : s.index = none) :
    ∃ s', s.ask n (some i) = some (i, s') ∧ s'.ask n pick = none := by
  refine ⟨{ s with index := some i }, ?_, rfl⟩
  simp only [Doerr.ask, h]

/-- **C68 (disagreement).** In dimension 1 the decay is -1: learning twice in a row with the same rate divides by zero. -/
theorem doerr_dim_one (n i : Nat) (first l1 l2 : α) :
    ∃ s0 s1 : Doerr α, Doerr.init.tell (gamma 1) first = some s0 ∧ s0.round (gamma 1) n (some i, l1) = some s1 ∧
      s1.round (gamma 1) n (some i, l2) = none := by
  have h0 : Doerr.init.tell (gamma 1) first = some (⟨fun _ => 0, fun _ => 0, (first : WithTop α), none⟩ : Doerr α) := by
    simp only [Doerr.init, Doerr.tell]
    exact congrArg (fun b => some (⟨fun _ => 0, fun _ => 0, b, none⟩ : Doerr α)) (min_eq_right le_top)
  have hg : (gamma 1 : α) = -1 := by unfold gamma; norm_num
  refine ⟨_, _, h0, round_learn (gamma 1) n _ first rfl rfl i l1 (by simp), ?_⟩
  have hmin : min (first : WithTop α) (l1 : WithTop α) = ((min first l1 : α) : WithTop α) := (WithTop.coe_min _ _).symm
  simp only [Doerr.round, Doerr.ask, Option.bind_some, Doerr.tell, hmin]
  simp [Doerr.learn, hg]

end

/-! ## Lengler's schedule -/

/-- **C68.** For the constants below `e` (`lengler`, `lenglerhalf`, `lenglerfourth`) the number of mutated variables asked for is between 1 and the
dimension. -/
theorem lengler_range_partial (alpha : ℝ) (h1 : alpha ≤ 27182818283 / 10000000000) (dim n : Nat) (hd : 0 < dim) (hn : 0 < n) :
    1 ≤ lenglerIntensity alpha dim n ∧ lenglerIntensity alpha dim n ≤ dim := by
  have he : (2.7182818283 : ℝ) < Real.exp 1 := Real.exp_one_gt_d9
  have hn' : (0 : ℝ) < n := by exact_mod_cast hn
  have hd' : (1 : ℝ) ≤ dim := by exact_mod_cast hd
  have hae : alpha ≤ Real.exp 1 := by linarith
  have hlog : Real.log n ≤ n / Real.exp 1 := by
    have h := Real.log_le_sub_one_of_pos (div_pos hn' (Real.exp_pos 1))
    rw [Real.log_div hn'.ne' (Real.exp_pos 1).ne', Real.log_exp] at h
    linarith
  have hl0 : 0 ≤ Real.log n := Real.log_natCast_nonneg n
  have hle : (dim : ℝ) * (alpha * Real.log n / n) ≤ dim := by
    have : alpha * Real.log n / n ≤ 1 := by
      rw [div_le_one hn']
      calc alpha * Real.log n ≤ Real.exp 1 * (n / Real.exp 1) := mul_le_mul hae hlog hl0 (Real.exp_pos 1).le
        _ = n := mul_div_cancel₀ _ (Real.exp_pos 1).ne'
    nlinarith
  unfold lenglerIntensity
  constructor
  · rw [Int.le_floor]; simp
  · have : ⌊max 1 ((dim : ℝ) * (alpha * Real.log n / n))⌋ ≤ ⌊(dim : ℝ)⌋ := Int.floor_le_floor (max_le hd' hle)
    simpa using this

/-- **C68 (disagreement).** `lengler3` (constant 9) asks for at least three times as many variables as there are, at the third ask. -/
theorem lengler3_over (dim : Nat) (hd : 0 < dim) : (dim : Int) < lenglerIntensity 9 dim 3 ∧ 3 * (dim : Int) ≤ lenglerIntensity 9 dim 3 := by
  have hd' : (1 : ℝ) ≤ dim := by exact_mod_cast hd
  have h3 : 1 ≤ Real.log 3 := by
    rw [Real.le_log_iff_exp_le (by norm_num)]
    have := Real.exp_one_lt_d9
    linarith
  have : 3 * (dim : Int) ≤ lenglerIntensity 9 dim 3 := by
    unfold lenglerIntensity
    rw [Int.le_floor]
    refine le_max_of_le_right ?_
    push_cast
    nlinarith
  exact ⟨by omega, this⟩

/-! ## Annealing -/

theorem temperature_scale (sch : Schedule) (a : ℝ) (n b : Nat) : temperature sch a n b = a * temperature sch 1 n b := by
  cases sch <;> simp only [temperature] <;> ring

theorem temperature_pos (sch : Schedule) (a : ℝ) (ha : 0 < a) (n b : Nat) (hn : n ≤ b) : 0 < temperature sch a n b := by
  have hb : (0 : ℝ) < b + 1 := by positivity
  have hlin : (0 : ℝ) < 1 - n / (b + 1) := by
    rw [sub_pos, div_lt_one hb]
    have : (n : ℝ) ≤ b := by exact_mod_cast hn
    linarith
  cases sch <;> simp only [temperature] <;> positivity

/-- **C68.** The temperature decreases along the run. -/
theorem temperature_antitone (sch : Schedule) (a : ℝ) (ha : 0 < a) (n n' b : Nat) (h : n ≤ n') :
    temperature sch a n' b ≤ temperature sch a n b := by
  have hb : (0 : ℝ) < b + 1 := by positivity
  have hlin : 1 - (n' : ℝ) / (b + 1) ≤ 1 - n / (b + 1) := by
    have : (n : ℝ) ≤ n' := by exact_mod_cast h
    have := div_le_div_of_nonneg_right this hb.le
    linarith
  have hbase : (0 : ℝ) ≤ (1 / 1000 : ℝ) ^ (1 / (b : ℝ)) ∧ (1 / 1000 : ℝ) ^ (1 / (b : ℝ)) ≤ 1 :=
    ⟨by positivity, Real.rpow_le_one (by norm_num) (by norm_num) (by positivity)⟩
  cases sch <;> simp only [temperature]
  · exact mul_le_mul_of_nonneg_left (pow_le_pow_of_le_one (by norm_num) (by norm_num) h) (by positivity)
  · exact mul_le_mul_of_nonneg_left (pow_le_pow_of_le_one (by norm_num) (by norm_num) h) (by positivity)
  · exact mul_le_mul_of_nonneg_left (pow_le_pow_of_le_one hbase.1 hbase.2 h) (by positivity)
  · exact mul_le_mul_of_nonneg_left hlin (by positivity)
  · exact mul_le_mul_of_nonneg_left hlin (by positivity)
  · exact mul_le_mul_of_nonneg_left hlin (by positivity)

/-- **C68.** Annealing: a point no worse is always taken; a worse one is taken, within the budget only, with a probability strictly between 0 and 1. -/
theorem anneals_iff (sch : Schedule) (maxLoss prev loss : ℝ) (n b : Nat) (u : ℝ) :
    ∃ p : ℝ, 0 < p ∧ (prev < loss → n < b → p < 1) ∧ (anneals sch maxLoss prev loss n b u ↔ loss ≤ prev ∨ (n < b ∧ u < p)) := by
  refine ⟨Real.exp ((prev - loss) / temperature sch (max 1 (max maxLoss loss - prev)) n b), Real.exp_pos _, ?_, ?_⟩
  · intro hl hn
    have hT := temperature_pos sch (max 1 (max maxLoss loss - prev)) (lt_max_of_lt_left one_pos) n b hn.le
    rw [Real.exp_lt_one_iff]
    exact div_neg_of_neg_of_pos (by linarith) hT
  · unfold anneals
    rw [sub_nonneg]
    constructor
    · rintro (h | ⟨h1, -, h2⟩)
      · exact Or.inl h
      · exact Or.inr ⟨h1, h2⟩
    · rintro (h | ⟨h1, h2⟩)
      · exact Or.inl h
      · exact Or.inr ⟨h1, temperature_pos sch _ (lt_max_of_lt_left one_pos) n b h1.le, h2⟩

/-- **C68.** However bad the point, its chance to be taken does not vanish: the temperature follows the largest loss seen. -/
theorem anneals_any_loss (sch : Schedule) (maxLoss prev loss : ℝ) (n b : Nat) (hn : n < b) (u : ℝ)
    (hu : u < Real.exp (-1 / temperature sch 1 n b)) : anneals sch maxLoss prev loss n b u := by
  by_cases hl : loss ≤ prev
  · exact Or.inl (by linarith)
  · have hA : 0 < max 1 (max maxLoss loss - prev) := lt_max_of_lt_left one_pos
    have hT := temperature_pos sch _ hA n b hn.le
    have hT1 := temperature_pos sch 1 one_pos n b hn.le
    refine Or.inr ⟨hn, hT, lt_of_lt_of_le hu ?_⟩
    rw [Real.exp_le_exp, temperature_scale sch (max 1 (max maxLoss loss - prev)), div_le_div_iff₀ hT1 (mul_pos hA hT1)]
    have h1 : loss - prev ≤ max 1 (max maxLoss loss - prev) := by
      refine le_max_of_le_right ?_
      have := le_max_right maxLoss loss
      linarith
    nlinarith

/-! ## Concrete cases -/

example : [((⊤ : WithTop ℚ), (5 : ℚ)), (((5 : ℚ) : WithTop ℚ), 7), (((5 : ℚ) : WithTop ℚ), 5), (((5 : ℚ) : WithTop ℚ), 3)].foldl (fun s e => sigmaStep s e.1 e.2) 1
    = 336 / 100 := by decide +kernel
example : bsoIntensity (α := ℚ) 10 25 100 = 7 := by decide +kernel
example : rates 12 = [1, 2, 3, 5, 9] := by decide +kernel
example : velocityStep (2 : Nat) [1, (3 : ℚ)] ⊤ 4 = [1 / 2, 1 / 2] := by decide +kernel
example : ([(1 / 10, 4), (3 / 10, 2), (5 / 10, 2)].foldl (fun s e => s.tell e.1 e.2 3) (⟨1 / 5, 0, ⊤, 1 / 5⟩ : LogN ℚ)).globalMr = 3 / 10 := by
  decide +kernel
example : learnt (10 : ℚ) [(some 1, 7), (none, 5), (some 1, 4), (some 0, 8)] = [(0, 0), (1, 1), (1, 3)] := by decide +kernel
example : weight (1 / 2 : ℚ) 1 [(0, 0), (1, 1), (1, 3)] = 3 / 4 ∧ gain (1 / 2 : ℚ) 1 [(0, 0), (1, 1), (1, 3)] = 5 / 4 := by decide +kernel

end OnePlusOne
end NG
