import Verif.Model.Transforms
import Verif.Props.Transforms
import Mathlib.Tactic.Linarith
import Mathlib.Tactic.Ring
import Mathlib.Tactic.FieldSimp
import Mathlib.Tactic.NormNum
import Mathlib.Data.Fin.VecNotation
import Mathlib.Data.Rat.Floor
import Mathlib.Algebra.Order.Floor.Ring
import Mathlib.Algebra.Ring.Int.Parity
import Mathlib.MeasureTheory.Measure.Lebesgue.Basic

/-!
# C22, C23, C58: integer casting, modulo and angle layers
-/

namespace NG
namespace Tr

section modulo
variable {α : Type} [LinearOrder α] [Field α] [IsStrictOrderedRing α] [FloorRing α]

theorem pymod_range (x m : α) (hm : 0 < m) : 0 ≤ pymod x m ∧ pymod x m < m := by
  unfold pymod
  have h1 := Int.floor_le (x / m)
  have h2 := Int.lt_floor_add_one (x / m)
  rw [le_div_iff₀ hm] at h1
  rw [div_lt_iff₀ hm] at h2
  constructor <;> nlinarith

theorem pymod_eq (x m : α) (hm : 0 < m) (k : ℤ) (h0 : 0 ≤ x) (h1 : x < m) : pymod (x + m * k) m = x := by
  unfold pymod
  have : (x + m * k) / m = x / m + k := by field_simp
  rw [this, Int.floor_add_intCast]
  have : ⌊x / m⌋ = 0 := by
    rw [Int.floor_eq_zero_iff]
    exact ⟨div_nonneg h0 hm.le, (div_lt_one hm).2 h1⟩
  rw [this]
  push_cast
  ring

variable {ι : Type} [Fintype ι]

/-- C23: a modulo parameter always reads in `[0, m)`. -/
theorem modulo_range (m x : ι → α) (hm : ∀ i, 0 < m i) (i : ι) : 0 ≤ moduloGet m x i ∧ moduloGet m x i < m i :=
  pymod_range (x i) (m i) (hm i)

/-- C23: reading is periodic in the internal value, and only equal for internal values that differ by whole periods. -/
theorem modulo_periodic (m x x' : ι → α) (hm : ∀ i, 0 < m i) :
    moduloGet m x = moduloGet m x' ↔ ∀ i, ∃ k : ℤ, x' i = x i + m i * k := by
  constructor
  · intro h i
    have hi := congrFun h i
    simp only [moduloGet, pymod] at hi
    refine ⟨⌊x' i / m i⌋ - ⌊x i / m i⌋, ?_⟩
    push_cast
    linarith
  · intro h
    funext i
    obtain ⟨k, hk⟩ := h i
    simp only [moduloGet]
    rw [hk]
    have hr := pymod_range (x i) (m i) (hm i)
    have hx : x i = pymod (x i) (m i) + m i * (⌊x i / m i⌋ : ℤ) := by unfold pymod; ring
    have h2 : x i + m i * k = pymod (x i) (m i) + m i * ((⌊x i / m i⌋ + k : ℤ) : α) := by
      push_cast
      linear_combination hx
    rw [h2, pymod_eq _ _ (hm i) _ hr.1 hr.2]

/-- C23: setting succeeds exactly for values in `[0, m]`; the value read back is the one set, except that `m` reads 0;
the internal value stays in the same period (or exactly one period higher when `m` was given). -/
theorem modulo_set (m cur v : ι → α) (hm : ∀ i, 0 < m i) :
    (moduloSet m cur v = .error ↔ ∃ i, v i < 0 ∨ m i < v i) ∧
    ∀ new, moduloSet m cur v = .ok new →
      (∀ i, moduloGet m new i = if v i = m i then 0 else v i) ∧ ∀ i, |new i - cur i| ≤ m i := by
  have hw : checker (some (fun _ => 0)) (some m) v = true ↔ ∀ i, 0 ≤ v i ∧ v i ≤ m i := by
    rw [checker_iff]
    unfold Within
    constructor
    · intro h i; exact ⟨h.1 _ rfl i, h.2 _ rfl i⟩
    · intro h
      refine ⟨?_, ?_⟩
      · rintro _ ⟨⟩ i; exact (h i).1
      · rintro _ ⟨⟩ i; exact (h i).2
  unfold moduloSet
  constructor
  · by_cases h : checker (some (fun _ => 0)) (some m) v = true
    · rw [if_pos h]
      rw [hw] at h
      simp only [reduceCtorEq, false_iff, not_exists, not_or, not_lt]
      exact h
    · rw [if_neg h]
      rw [hw] at h
      simp only [true_iff]
      push Not at h
      obtain ⟨i, hi⟩ := h
      refine ⟨i, ?_⟩
      by_cases h0 : 0 ≤ v i
      · exact Or.inr (hi h0)
      · exact Or.inl (not_le.1 h0)
  · intro new hnew
    by_cases h : checker (some (fun _ => 0)) (some m) v = true
    · rw [if_pos h] at hnew
      rw [hw] at h
      have hnew := Res.ok.inj hnew
      subst hnew
      have e : ∀ i, cur i - pymod (cur i) (m i) = m i * (⌊cur i / m i⌋ : ℤ) := by intro i; unfold pymod; ring
      refine ⟨fun i => ?_, fun i => ?_⟩
      · simp only [moduloGet, e]
        split
        · rename_i hv
          rw [hv]
          have : m i * ((⌊cur i / m i⌋ : ℤ) : α) + m i = 0 + m i * ((⌊cur i / m i⌋ + 1 : ℤ) : α) := by push_cast; ring
          rw [this, pymod_eq _ _ (hm i) _ le_rfl (hm i)]
        · rename_i hv
          rw [add_comm, pymod_eq _ _ (hm i) _ (h i).1 (lt_of_le_of_ne (h i).2 hv)]
      · have hr := pymod_range (cur i) (m i) (hm i)
        have := h i
        simp only
        rw [abs_le]
        constructor <;> linarith
    · rw [if_neg h] at hnew; cases hnew

example : moduloGet (fun _ => 3) (![-1, 0, 7, 3] : Fin 4 → ℚ) = ![2, 0, 1, 0] := by decide +kernel
example : moduloSet (fun _ => 3) (![-1, 7] : Fin 2 → ℚ) ![1, 3] = .ok (fun i => ![-1, 7] i - moduloGet (fun _ => 3) ![-1, 7] i + ![1, 3] i) ∧
    (fun i => (![-1, 7] : Fin 2 → ℚ) i - moduloGet (fun _ => 3) ![-1, 7] i + ![1, 3] i) = ![-2, 9] :=
  ⟨by unfold moduloSet; rw [if_pos (by decide +kernel)]; rfl, by decide +kernel⟩
example : moduloSet (fun _ => 3) (![-1, 7] : Fin 2 → ℚ) ![1, 4] = .error := by decide +kernel

end modulo

section angle
variable {ι : Type} [Fintype ι]

/-- C23: angles read in `(-π, π]`. -/
theorem angle_range (x : ι → ℝ × ℝ) (i : ι) : -Real.pi < angleGet x i ∧ angleGet x i ≤ Real.pi :=
  ⟨Complex.neg_pi_lt_arg _, Complex.arg_le_pi _⟩

/-- C23: an angle set in `(-π, π]` is read back. -/
theorem angle_roundtrip (v : ι → ℝ) (h : ∀ i, -Real.pi < v i ∧ v i ≤ Real.pi) : angleGet (angleSet v) = v := by
  funext i
  unfold angleGet angleSet
  have : (⟨Real.cos (v i), Real.sin (v i)⟩ : ℂ) = Complex.cos (v i) + Complex.sin (v i) * Complex.I := by
    apply Complex.ext
    · simp [← Complex.ofReal_cos, ← Complex.ofReal_sin]
    · simp [← Complex.ofReal_cos, ← Complex.ofReal_sin]
  simp only
  rw [this, Complex.arg_cos_add_sin_mul_I ⟨(h i).1, (h i).2⟩]

/-- C23: the angle read does not depend on the length of the internal vector. -/
theorem angle_scale (x : ι → ℝ × ℝ) (r : ι → ℝ) (h : ∀ i, 0 < r i) :
    angleGet (fun i => (r i * (x i).1, r i * (x i).2)) = angleGet x := by
  funext i
  unfold angleGet
  have : (⟨r i * (x i).1, r i * (x i).2⟩ : ℂ) = (r i : ℂ) * ⟨(x i).1, (x i).2⟩ := by
    apply Complex.ext <;> simp
  simp only
  rw [this, Complex.arg_real_mul _ (h i)]

end angle

section int
variable {α : Type} [LinearOrder α] [Field α] [IsStrictOrderedRing α] [FloorRing α]

/-- Specification: `n` is the integer nearest to `x`, the even one at equal distance. -/
def Nearest (x : α) (n : ℤ) : Prop := |x - n| ≤ 1 / 2 ∧ (|x - n| = 1 / 2 → Even n)

theorem nearest_unique (x : α) (n n' : ℤ) (h : Nearest x n) (h' : Nearest x n') : n = n' := by
  obtain ⟨h1, h2⟩ := h
  obtain ⟨h1', h2'⟩ := h'
  rw [abs_le] at h1 h1'
  have key : ∀ a b : ℤ, -(1 / 2) ≤ x - a → x - a ≤ 1 / 2 → -(1 / 2) ≤ x - b → x - b ≤ 1 / 2 →
      (|x - a| = 1 / 2 → Even a) → (|x - b| = 1 / 2 → Even b) → a < b → False := by
    intro a b ha1 ha2 hb1 hb2 hea heb hab
    have hab' : a + 1 ≤ b := hab
    have hc : ((a + 1 : ℤ) : α) ≤ b := by exact_mod_cast hab'
    push_cast at hc
    have e1 : x - a = 1 / 2 := by linarith
    have e2 : x - b = -(1 / 2) := by linarith
    have e3 : (b : α) = ((a + 1 : ℤ) : α) := by push_cast; linarith
    have e4 : b = a + 1 := by exact_mod_cast e3
    have v1 := hea (by rw [e1, abs_of_pos (by norm_num)])
    have v2 := heb (by rw [e2, abs_neg, abs_of_pos (by norm_num)])
    rw [e4] at v2
    rw [Int.even_add_one] at v2
    exact v2 v1
  rcases lt_trichotomy n n' with h | h | h
  · exact (key n n' h1.1 h1.2 h1'.1 h1'.2 h2 h2' h).elim
  · exact h
  · exact (key n' n h1'.1 h1'.2 h1.1 h1.2 h2' h2 h).elim

theorem roundEven_nearest (x : α) : Nearest x (roundEven x) := by
  have h1 := Int.floor_le x
  have h2 := Int.lt_floor_add_one x
  unfold roundEven Nearest
  simp only
  split
  · rename_i h
    have : |x - ⌊x⌋| < 1 / 2 := by rw [abs_of_nonneg (by linarith)]; exact h
    exact ⟨this.le, fun he => absurd he this.ne⟩
  · rename_i h
    split
    · rename_i h'
      push_cast
      have : |x - (⌊x⌋ + 1)| < 1 / 2 := by rw [abs_lt]; constructor <;> linarith
      exact ⟨this.le, fun he => absurd he this.ne⟩
    · rename_i h'
      have he : x - ⌊x⌋ = 1 / 2 := le_antisymm (not_lt.1 h') (not_lt.1 h)
      split
      · rename_i hpar
        refine ⟨by rw [he, abs_of_pos (by norm_num)], fun _ => Int.even_iff.2 hpar⟩
      · rename_i hpar
        push_cast
        refine ⟨?_, fun _ => ?_⟩
        · rw [abs_le]; constructor <;> linarith
        · rw [Int.even_add_one, Int.even_iff]; exact hpar

theorem roundEven_eq (x : α) (n : ℤ) : roundEven x = n ↔ Nearest x n :=
  ⟨fun h => h ▸ roundEven_nearest x, fun h => nearest_unique x _ _ (roundEven_nearest x) h⟩

theorem roundEven_of_lt (x : α) (n : ℤ) (h : |x - n| < 1 / 2) : roundEven x = n :=
  (roundEven_eq x n).2 ⟨h.le, fun he => absurd he h.ne⟩

theorem roundEven_int (n : ℤ) : roundEven (n : α) = n := roundEven_of_lt _ _ (by simp)

theorem roundEven_mono (x y : α) (h : x ≤ y) : roundEven x ≤ roundEven y := by
  obtain ⟨h1, h2⟩ := roundEven_nearest x
  obtain ⟨h1', h2'⟩ := roundEven_nearest y
  by_contra hn
  push Not at hn
  rw [abs_le] at h1 h1'
  have hc : ((roundEven y + 1 : ℤ) : α) ≤ roundEven x := by exact_mod_cast hn
  push_cast at hc
  have : x = y := by linarith
  rw [this] at hn
  exact lt_irrefl _ hn

theorem intEps_pos : (0 : α) < intEps := by unfold intEps; norm_num
theorem intEps_small : (intEps : α) < 1 / 2 := by unfold intEps; norm_num

/-- A lower bound is usable if it is an integer or its fractional part exceeds the code's 1e-12 margin. -/
def GoodLower (l : α) : Prop := Int.fract l = 0 ∨ intEps < Int.fract l

theorem lower_clip (l : α) (h : GoodLower l) : roundEven (l + 1 / 2 - intEps) = ⌈l⌉ := by
  have he := intEps_pos (α := α)
  have he2 := intEps_small (α := α)
  apply roundEven_of_lt
  have hf := Int.fract_lt_one l
  rcases h with h | h
  · have hl : ((⌊l⌋ : ℤ) : α) = l := by have := Int.self_sub_floor l; rw [h] at this; linarith
    have hc : ((⌈l⌉ : ℤ) : α) = l := by rw [← hl, Int.ceil_intCast]
    rw [hc, abs_lt]; constructor <;> linarith
  · have hpos : 0 < Int.fract l := lt_trans he h
    have hl := Int.self_sub_floor l
    have hc : ⌈l⌉ = ⌊l⌋ + 1 := by
      rw [Int.ceil_eq_iff]
      push_cast
      constructor <;> linarith
    rw [hc]
    push_cast
    rw [abs_lt]
    constructor <;> linarith

theorem roundEven_neg (x : α) : roundEven (-x) = - roundEven x := by
  rw [roundEven_eq]
  obtain ⟨h1, h2⟩ := roundEven_nearest x
  have e : |(-x) - ((- roundEven x : ℤ) : α)| = |x - roundEven x| := by
    rw [← abs_neg]; congr 1; push_cast; ring
  refine ⟨e ▸ h1, fun h => ?_⟩
  rw [e] at h
  exact (h2 h).neg

theorem upper_clip (u : α) (h : GoodLower (-u)) : roundEven (u - 1 / 2 + intEps) = ⌊u⌋ := by
  have := lower_clip (-u) h
  rw [Int.ceil_neg] at this
  have e : -u + 1 / 2 - intEps = -(u - 1 / 2 + intEps) := by ring
  rw [e, roundEven_neg] at this
  omega

/-- C22: with bounds that contain an integer and are not within 1e-12 beyond one, the value is an integer of `[l, u]`,
whatever the internal value and whatever is drawn. Without the hypotheses it fails, see `int_bounds_witness`. -/
theorem int_within_partial (draw : Option α) (lo hi : Option α) (x : α)
    (hlo : ∀ l, lo = some l → GoodLower l) (hhi : ∀ u, hi = some u → GoodLower (-u))
    (hex : ∃ n : ℤ, (∀ l, lo = some l → l ≤ n) ∧ (∀ u, hi = some u → (n : α) ≤ u)) :
    (∀ l, lo = some l → l ≤ intGet draw lo hi x) ∧ (∀ u, hi = some u → (intGet draw lo hi x : α) ≤ u) := by
  obtain ⟨n, hn1, hn2⟩ := hex
  constructor
  · rintro l rfl
    have hl := lower_clip l (hlo l rfl)
    have hce : l ≤ (⌈l⌉ : ℤ) := Int.le_ceil l
    cases hi with
    | none =>
      unfold intGet
      simp only [hl]
      exact le_trans hce (by exact_mod_cast le_max_left _ _)
    | some u =>
      have hu := upper_clip u (hhi u rfl)
      unfold intGet
      simp only [hl, hu]
      have : ⌈l⌉ ≤ ⌊u⌋ := le_trans (Int.ceil_le.2 (hn1 l rfl)) (Int.le_floor.2 (hn2 u rfl))
      exact le_trans hce (by exact_mod_cast le_min this (le_max_left _ _))
  · rintro u rfl
    have hu := upper_clip u (hhi u rfl)
    have hfl : ((⌊u⌋ : ℤ) : α) ≤ u := Int.floor_le u
    unfold intGet
    simp only [hu]
    exact le_trans (by exact_mod_cast min_le_left _ _) hfl

/-- C22: within usable bounds the value is the nearest integer, clamped to the integers of the interval. -/
theorem int_value (lo hi : α) (x : α) (hlo : GoodLower lo) (hhi : GoodLower (-hi)) :
    ∃ n, Nearest x n ∧ intGet none (some lo) (some hi) x = min ⌊hi⌋ (max ⌈lo⌉ n) := by
  refine ⟨roundEven x, roundEven_nearest x, ?_⟩
  unfold intGet
  simp only [lower_clip lo hlo, upper_clip hi hhi]

/-- C22: integers within the bounds are left unchanged by the deterministic cast. -/
theorem int_id (lo hi : Option α) (n : ℤ) (hlo : ∀ l, lo = some l → GoodLower l) (hhi : ∀ u, hi = some u → GoodLower (-u))
    (h1 : ∀ l, lo = some l → l ≤ n) (h2 : ∀ u, hi = some u → (n : α) ≤ u) : intGet none lo hi (n : α) = n := by
  unfold intGet
  simp only [roundEven_int]
  cases lo with
  | none =>
    cases hi with
    | none => rfl
    | some u =>
      simp only [upper_clip u (hhi u rfl)]
      exact min_eq_right (Int.le_floor.2 (h2 u rfl))
  | some l =>
    simp only [lower_clip l (hlo l rfl), max_eq_right (Int.ceil_le.2 (h1 l rfl))]
    cases hi with
    | none => rfl
    | some u =>
      simp only [upper_clip u (hhi u rfl)]
      exact min_eq_right (Int.le_floor.2 (h2 u rfl))

/-- C22: for the same draw, a larger internal value never gives a smaller integer. -/
theorem int_mono (draw : Option α) (lo hi : Option α) (x y : α) (h : x ≤ y) : intGet draw lo hi x ≤ intGet draw lo hi y := by
  have key : ∀ a b : ℤ, a ≤ b →
      (match hi with
        | none => (match lo with | none => a | some l => max (roundEven (l + 1 / 2 - intEps)) a)
        | some u => min (roundEven (u - 1 / 2 + intEps)) (match lo with | none => a | some l => max (roundEven (l + 1 / 2 - intEps)) a)) ≤
      (match hi with
        | none => (match lo with | none => b | some l => max (roundEven (l + 1 / 2 - intEps)) b)
        | some u => min (roundEven (u - 1 / 2 + intEps)) (match lo with | none => b | some l => max (roundEven (l + 1 / 2 - intEps)) b)) := by
    intro a b hab
    cases lo <;> cases hi <;> simp only <;> omega
  unfold intGet
  cases draw with
  | none => exact key _ _ (roundEven_mono _ _ h)
  | some r => exact key _ _ (roundEven_mono _ _ (by linarith))

/-- C22: the stochastic cast gives the integer below when draw plus fractional part is below 1, the one above when it
is over 1, one of them in between. -/
theorem int_stochastic (r x : α) (h0 : 0 < r) (h1 : r < 1) :
    (Int.fract x + r < 1 → intGet (some r) none none x = ⌊x⌋) ∧
    (1 < Int.fract x + r → intGet (some r) none none x = ⌊x⌋ + 1) ∧
    (intGet (some r) none none x = ⌊x⌋ ∨ intGet (some r) none none x = ⌈x⌉) := by
  have hf0 := Int.fract_nonneg x
  have hf1 := Int.fract_lt_one x
  have hl := Int.self_sub_floor x
  have a : Int.fract x + r < 1 → intGet (some r) none none x = ⌊x⌋ := by
    intro h
    apply roundEven_of_lt
    rw [abs_lt]; constructor <;> linarith
  have b : 1 < Int.fract x + r → intGet (some r) none none x = ⌊x⌋ + 1 := by
    intro h
    apply roundEven_of_lt
    push_cast
    rw [abs_lt]; constructor <;> linarith
  have hc : 0 < Int.fract x → ⌈x⌉ = ⌊x⌋ + 1 := by
    intro hp
    rw [Int.ceil_eq_iff]
    push_cast
    constructor <;> linarith
  refine ⟨a, b, ?_⟩
  rcases lt_trichotomy (Int.fract x + r) 1 with h | h | h
  · exact Or.inl (a h)
  · rw [hc (by linarith)]
    obtain ⟨g1, _⟩ := roundEven_nearest (x + (r - 1 / 2))
    have g : intGet (some r) none none x = roundEven (x + (r - 1 / 2)) := rfl
    rw [← g, abs_le] at g1
    generalize hn : intGet (some r) none none x = n at g1
    have g2 : (n : α) ≤ ((⌊x⌋ + 1 : ℤ) : α) := by push_cast; linarith
    have g3 : ((⌊x⌋ : ℤ) : α) ≤ n := by linarith
    have g2' : n ≤ ⌊x⌋ + 1 := by exact_mod_cast g2
    have g3' : ⌊x⌋ ≤ n := by exact_mod_cast g3
    omega
  · rw [hc (by linarith)]; exact Or.inr (b h)

/-- C22, negative: with bounds (1/5, 4/5), which hold no integer, the value is 0, below the lower bound. -/
theorem int_bounds_witness :
    intGet none (some (1 / 5 : ℚ)) (some (4 / 5)) (1 / 2) = 0 ∧
    intGet none (some (1 / 10000000000000 : ℚ)) (some 5) 0 = 0 := by decide +kernel

/-- C22, negative: a draw of exactly 0 with an odd integer gives the integer below it. -/
theorem int_draw_zero : intGet (some 0) none none (3 : ℚ) = 2 := by decide +kernel

/-- C58: reading twice gives the same value, whatever is drawn, and the second read changes nothing. -/
theorem read_stable {ι : Type} (aliased : Bool) (draw draw' lo hi : Option (ι → α)) (p : IntP ι α) :
    IntP.read aliased draw' lo hi (IntP.read aliased draw lo hi p).2 = IntP.read aliased draw lo hi p := by
  unfold IntP.read
  cases h : p.cache with
  | some v => simp only [h]
  | none => rfl

/-- C58: without stochastic rounding, or if a deeper layer made a copy, or if the value was read before, reading leaves the
internal data unchanged. -/
theorem read_pure_partial {ι : Type} (aliased : Bool) (draw lo hi : Option (ι → α)) (p : IntP ι α)
    (h : draw = none ∨ aliased = false ∨ p.cache.isSome) : (IntP.read aliased draw lo hi p).2.root = p.root := by
  unfold IntP.read
  cases hc : p.cache with
  | some v => rfl
  | none =>
    rcases h with rfl | rfl | h
    · rfl
    · cases draw <;> rfl
    · rw [hc] at h; cases h

/-- C58, negative: the first read of a stochastic integer whose array is not copied by any layer moves the internal
data, by the draw minus 1/2, whenever the draw is not 1/2. -/
theorem read_changes {ι : Type} (r : ι → α) (lo hi : Option (ι → α)) (p : IntP ι α) (hc : p.cache = none) :
    (IntP.read true (some r) lo hi p).2.root = p.root ↔ ∀ i, r i = 1 / 2 := by
  unfold IntP.read
  rw [hc]
  simp only [if_true]
  constructor
  · intro h i
    have := congrFun h i
    linarith
  · intro h
    funext i
    rw [h i]; ring

/-- C58, negative: hence `set_standardized_data(d)` stores `d` shifted by the draw. -/
theorem setData_shifts {ι : Type} (r : ι → α) (lo hi : Option (ι → α)) (refv data : ι → α) :
    (fun i => (IntP.setData true (some r) lo hi refv data).root i - refv i) = fun i => data i + (r i - 1 / 2) := by
  funext i
  simp only [IntP.setData, IntP.read, if_true]
  ring

/-- C58, negative: over ten generations of `spawn_child` each read once with draws 9/10, the internal value moves from 0
to 4, without any mutation. -/
theorem read_drifts :
    ((List.range 10).foldl (fun (s : IntP (Fin 1) ℚ) _ => (IntP.read true (some (fun _ => 9 / 10)) none none s.copy).2)
      { root := fun _ => 0, cache := none }).root = (fun _ => 4) := by
  decide +kernel

example : (IntP.read true (some (fun _ => 9 / 10)) none none { root := fun _ : Fin 1 => (3 / 10 : ℚ), cache := none }).1 0 = 1 := by
  decide +kernel
example : intGet none (some (-3 / 2 : ℚ)) (some (7 / 2)) (5 / 2) = 2 := by decide +kernel
example : intGet none (some (-3 / 2 : ℚ)) (some (7 / 2)) (9 / 2) = 3 := by decide +kernel
example : intGet none (some (-3 / 2 : ℚ)) (some (7 / 2)) (-9 / 2) = -1 := by decide +kernel
example : intGet (some (7 / 10)) none none (9 / 2 : ℚ) = 5 := by decide +kernel

end int

section measure
open MeasureTheory Set

/-- C22: stochastic rounding is unbiased: for a uniform draw, the probability of the upper integer is the fractional
part of the internal value. -/
theorem int_unbiased (x : ℝ) :
    volume {r : ℝ | r ∈ Ioo (0 : ℝ) 1 ∧ intGet (some r) none none x = ⌊x⌋ + 1} = ENNReal.ofReal (Int.fract x) := by
  have hf0 := Int.fract_nonneg x
  have hf1 := Int.fract_lt_one x
  apply le_antisymm
  · have : {r : ℝ | r ∈ Ioo (0 : ℝ) 1 ∧ intGet (some r) none none x = ⌊x⌋ + 1} ⊆ Icc (1 - Int.fract x) 1 := by
      rintro r ⟨⟨h0, h1⟩, hr⟩
      refine ⟨?_, h1.le⟩
      by_contra hn
      push Not at hn
      have := (int_stochastic r x h0 h1).1 (by linarith)
      omega
    refine (measure_mono this).trans ?_
    rw [Real.volume_Icc]
    apply ENNReal.ofReal_le_ofReal
    linarith
  · have : Ioo (1 - Int.fract x) 1 ⊆ {r : ℝ | r ∈ Ioo (0 : ℝ) 1 ∧ intGet (some r) none none x = ⌊x⌋ + 1} := by
      rintro r ⟨h0, h1⟩
      have hp : 0 < r := by linarith
      exact ⟨⟨hp, h1⟩, (int_stochastic r x hp h1).2.1 (by linarith)⟩
    refine le_trans ?_ (measure_mono this)
    rw [Real.volume_Ioo]
    apply ENNReal.ofReal_le_ofReal
    linarith

end measure
end Tr
end NG
