import Verif.Model.CoreFuncs
import Mathlib.Tactic.Linarith
import Mathlib.Tactic.Positivity
import Mathlib.Tactic.Ring
import Mathlib.Tactic.NormNum
import Mathlib.Tactic.FieldSimp
import Mathlib.Algebra.Order.BigOperators.Group.List
import Mathlib.Analysis.SpecialFunctions.Artanh

/-!
# Optima of the core benchmark functions
-/

namespace NG
namespace Core

/-! ## Specification -/

/-- In dimension `n`, the function has minimum `m`, reached at `p` and nowhere else. -/
def Optimum (n : Nat) (f : List ℝ → ℝ) (m : ℝ) (p : List ℝ) : Prop :=
  p.length = n ∧ f p = m ∧ ∀ x, x.length = n → m ≤ f x ∧ (f x = m → x = p)

/-- The same for a function which may fail: it does not in dimension `n`. -/
def OptimumO (n : Nat) (f : List ℝ → Option ℝ) (m : ℝ) (p : List ℝ) : Prop :=
  p.length = n ∧ f p = some m ∧ ∀ x, x.length = n → ∃ v, f x = some v ∧ m ≤ v ∧ (v = m → x = p)

/-! ## Sums -/

theorem sum_nonneg {l : List ℝ} (h : ∀ a ∈ l, 0 ≤ a) : 0 ≤ l.sum := List.sum_nonneg h

theorem sum_zero {l : List ℝ} (h : ∀ a ∈ l, 0 ≤ a) (hs : l.sum = 0) : ∀ a ∈ l, a = 0 := by
  induction l with
  | nil => simp
  | cons b l ih =>
    have hb := h b (by simp)
    have hl : 0 ≤ l.sum := sum_nonneg (fun a ha => h a (by simp [ha]))
    simp only [List.sum_cons] at hs
    intro a ha
    rcases List.mem_cons.1 ha with rfl | ha
    · linarith
    · exact ih (fun c hc => h c (by simp [hc])) (by linarith) a ha

theorem sphere_nonneg (x : List ℝ) : 0 ≤ sphere x := sum_nonneg (by simp only [List.mem_map]; rintro a ⟨v, _, rfl⟩; positivity)

theorem sphere_zero {x : List ℝ} (h : sphere x = 0) : ∀ v ∈ x, v = 0 := by
  intro v hv
  have := sum_zero (l := x.map (fun v => v ^ 2)) (by simp only [List.mem_map]; rintro a ⟨v, _, rfl⟩; positivity) h (v ^ 2) (List.mem_map_of_mem hv)
  exact pow_eq_zero_iff (two_ne_zero) |>.1 this

theorem eq_replicate {x : List ℝ} {n : Nat} {c : ℝ} (hn : x.length = n) (h : ∀ v ∈ x, v = c) : x = List.replicate n c :=
  List.eq_replicate_iff.2 ⟨hn, h⟩

theorem sphere_replicate (n : Nat) : sphere (List.replicate n 0) = 0 := by simp [sphere]

/-! ## Continuous functions with the announced optimum -/

theorem sphere_optimum (n : Nat) : Optimum n sphere 0 (List.replicate n 0) :=
  ⟨by simp, sphere_replicate n, fun x hx => ⟨sphere_nonneg x, fun h => eq_replicate hx (sphere_zero h)⟩⟩

/-- `sphere1`, `sphere2`, `sphere4`. -/
theorem shifted_optimum (k : ℝ) (n : Nat) : Optimum n (shiftedSphere k) 0 (List.replicate n k) := by
  refine ⟨by simp, by simp [shiftedSphere, sphere], fun x hx => ⟨sphere_nonneg _, fun h => eq_replicate hx (fun v hv => ?_)⟩⟩
  have := sphere_zero h (v - k) (List.mem_map.2 ⟨v, hv, rfl⟩)
  linarith

theorem cigar_optimum (n : Nat) : OptimumO (n + 1) cigar 0 (List.replicate (n + 1) 0) := by
  refine ⟨by simp, by simp [List.replicate_succ, cigar, sphere_replicate], fun x hx => ?_⟩
  cases x with
  | nil => simp at hx
  | cons a r =>
    have := sphere_nonneg r
    refine ⟨_, rfl, by positivity, fun h => ?_⟩
    have h1 : a ^ 2 = 0 := by nlinarith [sq_nonneg a]
    have h2 : sphere r = 0 := by nlinarith [sq_nonneg a]
    rw [List.replicate_succ, pow_eq_zero_iff two_ne_zero |>.1 h1, ← eq_replicate (by simpa using hx) (sphere_zero h2)]

theorem discus_optimum (n : Nat) : OptimumO (n + 1) discus 0 (List.replicate (n + 1) 0) := by
  refine ⟨by simp, by simp [List.replicate_succ, discus, sphere_replicate], fun x hx => ?_⟩
  cases x with
  | nil => simp at hx
  | cons a r =>
    have := sphere_nonneg r
    refine ⟨_, rfl, by positivity, fun h => ?_⟩
    have h1 : a ^ 2 = 0 := by nlinarith [sq_nonneg a]
    have h2 : sphere r = 0 := by nlinarith [sq_nonneg a]
    rw [List.replicate_succ, pow_eq_zero_iff two_ne_zero |>.1 h1, ← eq_replicate (by simpa using hx) (sphere_zero h2)]

/-- `altcigar` is `cigar` on the reversed array. -/
theorem altcigar_eq (x : List ℝ) : altcigar x = cigar x.reverse := by
  rcases List.eq_nil_or_concat x with rfl | ⟨l, a, rfl⟩
  · rfl
  · simp [altcigar, cigar, sphere, List.sum_reverse]

theorem altcigar_optimum (n : Nat) : OptimumO (n + 1) altcigar 0 (List.replicate (n + 1) 0) := by
  obtain ⟨h1, h2, h3⟩ := cigar_optimum n
  refine ⟨h1, by rw [altcigar_eq, List.reverse_replicate, h2], fun x hx => ?_⟩
  obtain ⟨v, hv, h0, h⟩ := h3 x.reverse (by simpa using hx)
  refine ⟨v, by rw [altcigar_eq, hv], h0, fun he => ?_⟩
  have := h he
  rw [← List.reverse_reverse x, this, List.reverse_replicate]

theorem mem_mapIdx {α : Type} {f : Nat → ℝ → α} {x : List ℝ} {b : α} (h : b ∈ x.mapIdx f) : ∃ i, ∃ hi : i < x.length, f i x[i] = b := by
  obtain ⟨i, hi, rfl⟩ := List.mem_mapIdx.1 h
  exact ⟨i, hi, rfl⟩

theorem weight_pos (n i : Nat) : 0 < weight n i := Real.rpow_pos_of_pos (by norm_num) _

theorem weight_range {n i : Nat} (hi : i < n) : 1 ≤ weight n i ∧ weight n i ≤ 1000000 := by
  have hn : (1 : ℝ) ≤ n := by exact_mod_cast (by omega : 1 ≤ n)
  have hin : (i : ℝ) ≤ n - 1 := by
    have : (i : ℝ) + 1 ≤ n := by exact_mod_cast hi
    linarith
  have h0 : 0 ≤ 6 * (i : ℝ) / ((n : ℝ) - 1) := div_nonneg (by positivity) (by linarith)
  have h6 : 6 * (i : ℝ) / ((n : ℝ) - 1) ≤ 6 := by
    rcases eq_or_lt_of_le hn with h | h
    · rw [← h]; norm_num
    · rw [div_le_iff₀ (by linarith)]; linarith
  refine ⟨Real.one_le_rpow (by norm_num) h0, ?_⟩
  have : weight n i ≤ (10 : ℝ) ^ (6 : ℝ) := Real.rpow_le_rpow_of_exponent_le (by norm_num) h6
  refine this.trans (le_of_eq ?_)
  have : (10 : ℝ) ^ (6 : ℝ) = (10 : ℝ) ^ (6 : ℕ) := by rw [← Real.rpow_natCast]; norm_num
  rw [this]; norm_num

theorem ellipsoid_terms (x : List ℝ) : ∀ a ∈ x.mapIdx (fun i v => weight x.length i * v ^ 2), 0 ≤ a := by
  intro a ha
  obtain ⟨i, hi, rfl⟩ := mem_mapIdx ha
  exact mul_nonneg (weight_pos _ _).le (sq_nonneg _)

theorem ellipsoid_optimum (n : Nat) : Optimum n ellipsoid 0 (List.replicate n 0) := by
  refine ⟨by simp, ?_, fun x hx => ⟨sum_nonneg (ellipsoid_terms x), fun h => eq_replicate hx (fun v hv => ?_)⟩⟩
  · refine List.sum_eq_zero (fun a ha => ?_)
    obtain ⟨i, hi, rfl⟩ := mem_mapIdx ha
    simp
  · obtain ⟨i, hi, rfl⟩ := List.getElem_of_mem hv
    have := sum_zero (ellipsoid_terms x) h (weight x.length i * x[i] ^ 2) (List.mem_mapIdx.2 ⟨i, hi, rfl⟩)
    have h2 := (mul_eq_zero.1 this).resolve_left (weight_pos _ _).ne'
    exact pow_eq_zero_iff two_ne_zero |>.1 h2

/-- The condition number of `ellipsoid` is at most a million: it stays between the sphere and a million times the sphere. -/
theorem ellipsoid_condition (x : List ℝ) : sphere x ≤ ellipsoid x ∧ ellipsoid x ≤ 1000000 * sphere x := by
  have key : ∀ (l : List ℝ) (k : Nat), k + l.length = x.length →
      (l.map (fun v => v ^ 2)).sum ≤ (l.mapIdx (fun i v => weight x.length (i + k) * v ^ 2)).sum
      ∧ (l.mapIdx (fun i v => weight x.length (i + k) * v ^ 2)).sum ≤ 1000000 * (l.map (fun v => v ^ 2)).sum := by
    intro l
    induction l with
    | nil => intro k _; simp
    | cons a l ih =>
      intro k hk
      simp only [List.length_cons] at hk
      obtain ⟨h1, h2⟩ := ih (k + 1) (by omega)
      obtain ⟨w1, w2⟩ := weight_range (n := x.length) (i := k) (by omega)
      have e : (l.mapIdx (fun i v => weight x.length (i + 1 + k) * v ^ 2)) = l.mapIdx (fun i v => weight x.length (i + (k + 1)) * v ^ 2) := by
        congr 1; funext i v; rw [Nat.add_assoc, Nat.add_comm 1 k]
      rw [List.mapIdx_cons, e]
      simp only [List.map_cons, List.sum_cons, Nat.zero_add]
      constructor
      · nlinarith [sq_nonneg a]
      · nlinarith [sq_nonneg a]
  exact key x 0 (by simp)

theorem altellipsoid_optimum (n : Nat) : Optimum n altellipsoid 0 (List.replicate n 0) := by
  obtain ⟨h1, h2, h3⟩ := ellipsoid_optimum n
  refine ⟨h1, by rw [altellipsoid, List.reverse_replicate, h2], fun x hx => ?_⟩
  obtain ⟨h4, h5⟩ := h3 x.reverse (by simpa using hx)
  refine ⟨h4, fun he => ?_⟩
  rw [← List.reverse_reverse x, h5 he, List.reverse_replicate]

theorem cos_sum_le (x : List ℝ) (g : ℝ → ℝ) : (x.map (fun v => Real.cos (g v))).sum ≤ x.length := by
  induction x with
  | nil => simp
  | cons a x ih =>
    simp only [List.map_cons, List.sum_cons, List.length_cons, Nat.cast_add, Nat.cast_one]
    linarith [Real.cos_le_one (g a)]

theorem rastrigin_optimum (n : Nat) : Optimum n rastrigin 0 (List.replicate n 0) := by
  refine ⟨by simp, by simp [rastrigin, sphere], fun x hx => ?_⟩
  have h1 := cos_sum_le x (fun v => 2 * Real.pi * v)
  have h2 := sphere_nonneg x
  refine ⟨by unfold rastrigin; linarith, fun h => eq_replicate hx (sphere_zero ?_)⟩
  unfold rastrigin at h
  linarith

theorem rosenbrock_nonneg : ∀ x, 0 ≤ rosenbrock x
  | [] => le_refl _
  | [_] => le_refl _
  | a :: b :: r => by
    have := rosenbrock_nonneg (b :: r)
    simp only [rosenbrock]
    nlinarith [sq_nonneg (a ^ 2 - b), sq_nonneg (a - 1)]

theorem rosenbrock_ones : ∀ n, rosenbrock (List.replicate n 1) = 0
  | 0 => rfl
  | 1 => rfl
  | n + 2 => by
    have := rosenbrock_ones (n + 1)
    simp only [List.replicate_succ] at this ⊢
    simp only [rosenbrock, this]
    norm_num

theorem rosenbrock_zero : ∀ (a : ℝ) (b : ℝ) (r : List ℝ), rosenbrock (a :: b :: r) = 0 → ∀ v ∈ a :: b :: r, v = 1
  | a, b, [] => by
    intro h
    simp only [rosenbrock] at h
    have h1 : (a - 1) ^ 2 = 0 := by nlinarith [sq_nonneg (a ^ 2 - b), sq_nonneg (a - 1)]
    have h2 : (a ^ 2 - b) ^ 2 = 0 := by nlinarith [sq_nonneg (a ^ 2 - b), sq_nonneg (a - 1)]
    have h3 : a = 1 := by have := pow_eq_zero_iff two_ne_zero |>.1 h1; linarith
    have h4 : b = 1 := by have := pow_eq_zero_iff two_ne_zero |>.1 h2; subst h3; linarith
    simp [h3, h4]
  | a, b, c :: r => by
    intro h
    have hr := rosenbrock_nonneg (b :: c :: r)
    rw [rosenbrock] at h
    have h1 : (a - 1) ^ 2 = 0 := by nlinarith [sq_nonneg (a ^ 2 - b), sq_nonneg (a - 1)]
    have h2 : rosenbrock (b :: c :: r) = 0 := by nlinarith [sq_nonneg (a ^ 2 - b), sq_nonneg (a - 1)]
    have h3 : a = 1 := by have := pow_eq_zero_iff two_ne_zero |>.1 h1; linarith
    intro v hv
    rcases List.mem_cons.1 hv with rfl | hv
    · exact h3
    · exact rosenbrock_zero b c r h2 v hv

/-- Rosenbrock's optimum is at `(1, ..., 1)`, from two dimensions on. -/
theorem rosenbrock_optimum (n : Nat) : Optimum (n + 2) rosenbrock 0 (List.replicate (n + 2) 1) := by
  refine ⟨by simp, rosenbrock_ones _, fun x hx => ⟨rosenbrock_nonneg x, fun h => ?_⟩⟩
  match x, hx with
  | a :: b :: r, hx => exact eq_replicate hx (rosenbrock_zero a b r h)

/-- In one dimension it is constant. -/
theorem rosenbrock_constant (a : ℝ) : rosenbrock [a] = 0 := rfl

theorem ackley_optimum (n : Nat) : Optimum (n + 1) ackley 0 (List.replicate (n + 1) 0) := by
  have hn : (0 : ℝ) < (n + 1 : Nat) := by positivity
  refine ⟨by simp, ?_, fun x hx => ?_⟩
  · have : ((n : ℝ) + 1) / ((n : ℝ) + 1) = 1 := div_self (by positivity)
    simp [ackley, sphere, this]
    ring
  · have h1 := cos_sum_le x (fun v => 2 * Real.pi * v)
    have h2 := sphere_nonneg x
    have hl : (0 : ℝ) < x.length := by rw [hx]; exact hn
    have h3 : (x.map (fun v => Real.cos (2 * Real.pi * v))).sum / x.length ≤ 1 := by rw [div_le_one hl]; exact h1
    have h4 : Real.exp ((x.map (fun v => Real.cos (2 * Real.pi * v))).sum / x.length) ≤ Real.exp 1 := Real.exp_le_exp.2 h3
    have h5 : -0.2 * Real.sqrt (sphere x / x.length) ≤ 0 := by nlinarith [Real.sqrt_nonneg (sphere x / x.length)]
    have h6 : Real.exp (-0.2 * Real.sqrt (sphere x / x.length)) ≤ 1 := Real.exp_le_one_iff.2 h5
    refine ⟨by unfold ackley; linarith, fun h => eq_replicate hx (sphere_zero ?_)⟩
    unfold ackley at h
    have h7 : Real.exp (-0.2 * Real.sqrt (sphere x / x.length)) = 1 := by linarith
    have h8 : Real.sqrt (sphere x / x.length) = 0 := by
      have := Real.exp_eq_one_iff _ |>.1 h7
      linarith
    have h9 : sphere x / x.length = 0 := (Real.sqrt_eq_zero (by positivity)).1 h8
    exact (div_eq_zero_iff.1 h9).resolve_right hl.ne'

theorem cumsum_zero : ∀ (x : List ℝ) (s : ℝ), s = 0 → (∀ v ∈ cumsum s x, v = 0) → ∀ v ∈ x, v = 0
  | [], _, _, _ => by simp
  | a :: r, s, hs, h => by
    subst hs
    simp only [cumsum, zero_add, List.mem_cons, forall_eq_or_imp] at h
    intro v hv
    rcases List.mem_cons.1 hv with rfl | hv
    · exact h.1
    · exact cumsum_zero r a h.1 h.2 v hv

theorem cumsum_replicate : ∀ n, cumsum 0 (List.replicate n 0) = List.replicate n 0
  | 0 => rfl
  | n + 1 => by simp [List.replicate_succ, cumsum, cumsum_replicate n]

theorem schwefel_optimum (n : Nat) : Optimum n schwefel 0 (List.replicate n 0) :=
  ⟨by simp, by rw [schwefel, cumsum_replicate, sphere_replicate],
    fun x hx => ⟨sphere_nonneg _, fun h => eq_replicate hx (cumsum_zero x 0 rfl (sphere_zero h))⟩⟩

theorem prod_abs_le {l : List ℝ} (h : ∀ a ∈ l, |a| ≤ 1) : |l.prod| ≤ 1 := by
  induction l with
  | nil => simp
  | cons a l ih =>
    rw [List.prod_cons, abs_mul]
    exact mul_le_one₀ (h a (by simp)) (abs_nonneg _) (ih (fun b hb => h b (by simp [hb])))

theorem griewank_optimum (n : Nat) : Optimum n griewank 0 (List.replicate n 0) := by
  refine ⟨by simp, ?_, fun x hx => ?_⟩
  · have : ((List.replicate n (0 : ℝ)).mapIdx (fun i v => Real.cos (v / Real.sqrt (1 + i)))).prod = 1 := by
      refine List.prod_eq_one (fun a ha => ?_)
      obtain ⟨i, hi, rfl⟩ := mem_mapIdx ha
      simp
    rw [griewank, this, sphere_replicate]; norm_num
  · have h1 : (x.mapIdx (fun i v => Real.cos (v / Real.sqrt (1 + i)))).prod ≤ 1 := by
      refine (abs_le.1 (prod_abs_le ?_)).2
      intro a ha
      obtain ⟨i, hi, rfl⟩ := mem_mapIdx ha
      exact Real.abs_cos_le_one _
    have h2 := sphere_nonneg x
    refine ⟨by unfold griewank; linarith, fun h => eq_replicate hx (sphere_zero ?_)⟩
    unfold griewank at h
    linarith

theorem one_sub_cos_sum (x : List ℝ) (g : ℝ → ℝ) : 0 ≤ (x.map (fun v => 1 - Real.cos (g v))).sum := by
  refine sum_nonneg ?_
  simp only [List.mem_map]
  rintro a ⟨v, _, rfl⟩
  linarith [Real.cos_le_one (g v)]

/-- Lunacek's optimum is at `(2.5, ..., 2.5)`. -/
theorem lunacek_optimum (n : Nat) : Optimum (n + 1) lunacek 0 (List.replicate (n + 1) 2.5) := by
  refine ⟨by simp, ?_, fun x hx => ?_⟩
  · have h1 : sphere ((List.replicate (n + 1) (2.5 : ℝ)).map (fun v => v - 2.5)) = 0 := by simp [sphere]
    have h2 := sphere_nonneg ((List.replicate (n + 1) (2.5 : ℝ)).map (fun v => v - mu2 (List.replicate (n + 1) (2.5 : ℝ)).length))
    rw [lunacek, h1, min_eq_left (by positivity)]
    simp
  · have h1 := sphere_nonneg (x.map (fun v => v - 2.5))
    have h2 := sphere_nonneg (x.map (fun v => v - mu2 x.length))
    have h3 := one_sub_cos_sum x (fun v => 2 * Real.pi * (v - 2.5))
    have hl : (0 : ℝ) < x.length := by rw [hx]; positivity
    have hm : 0 ≤ min (sphere (x.map (fun v => v - 2.5))) (x.length + sphere (x.map (fun v => v - mu2 x.length))) := le_min h1 (by linarith)
    refine ⟨by unfold lunacek; linarith, fun h => ?_⟩
    unfold lunacek at h
    have h0 : min (sphere (x.map (fun v => v - 2.5))) (x.length + sphere (x.map (fun v => v - mu2 x.length))) = 0 := by linarith
    have : sphere (x.map (fun v => v - 2.5)) = 0 := by
      rcases min_choice (sphere (x.map (fun v => v - 2.5))) (x.length + sphere (x.map (fun v => v - mu2 x.length))) with h' | h'
      · rw [h'] at h0; exact h0
      · rw [h'] at h0; linarith
    refine eq_replicate hx (fun v hv => ?_)
    have := sphere_zero this (v - 2.5) (List.mem_map.2 ⟨v, hv, rfl⟩)
    linarith

/-- `minusgenzgaussianpeakintegral` has its minimum `-1` at 0. -/
theorem gaussianpeak_optimum (n : Nat) : Optimum n (fun x => -gaussianpeak x) (-1) (List.replicate n 0) := by
  refine ⟨by simp, by simp [gaussianpeak, sphere_replicate], fun x hx => ?_⟩
  have h1 := sphere_nonneg x
  have h2 : gaussianpeak x ≤ 1 := Real.exp_le_one_iff.2 (by linarith)
  refine ⟨by linarith, fun h => eq_replicate hx (sphere_zero ?_)⟩
  have h3 : gaussianpeak x = 1 := by linarith
  have := Real.exp_eq_one_iff _ |>.1 h3
  linarith

theorem foldl_min_spec (f : Nat → ℝ) : ∀ (l : List Nat) (v : ℝ),
    (l.foldl (fun v a => min v (f a)) v ≤ v ∧ ∀ a ∈ l, l.foldl (fun v a => min v (f a)) v ≤ f a)
      ∧ (l.foldl (fun v a => min v (f a)) v = v ∨ ∃ a ∈ l, l.foldl (fun v a => min v (f a)) v = f a)
  | [], v => by simp
  | a :: l, v => by
    obtain ⟨⟨h1, h2⟩, h3⟩ := foldl_min_spec f l (min v (f a))
    simp only [List.foldl_cons]
    refine ⟨⟨h1.trans (min_le_left _ _), ?_⟩, ?_⟩
    · intro b hb
      rcases List.mem_cons.1 hb with rfl | hb
      · exact h1.trans (min_le_right _ _)
      · exact h2 b hb
    · rcases h3 with h3 | ⟨b, hb, h3⟩
      · rcases min_choice v (f a) with h | h
        · left; rw [h3, h]
        · right; exact ⟨a, by simp, by rw [h3, h]⟩
      · right; exact ⟨b, by simp [hb], h3⟩

theorem zip_sub_zero : ∀ (x p : List ℝ), x.length = p.length → sphere (List.zipWith (fun u w => u - w) x p) = 0 → x = p
  | [], [], _, _ => rfl
  | a :: x, b :: p, hl, h => by
    have hz := sphere_zero h
    simp only [List.zipWith_cons_cons, List.mem_cons, forall_eq_or_imp] at hz
    have h2 : sphere (List.zipWith (fun u w => u - w) x p) = 0 := by
      refine List.sum_eq_zero (fun c hc => ?_)
      obtain ⟨v, hv, rfl⟩ := List.mem_map.1 hc
      rw [hz.2 v hv]; norm_num
    rw [zip_sub_zero x p (by simpa using hl) h2, show a = b by linarith [hz.1]]

/-- `multipeak` has minimum 1, at the first of its 101 centres only. -/
theorem multipeak_optimum (n : Nat) : Optimum n multipeak 1 (peak n 0) := by
  have hself : ∀ p : List ℝ, sphere (List.zipWith (fun u w => u - w) p p) = 0 := by
    intro p
    refine List.sum_eq_zero (fun c hc => ?_)
    obtain ⟨v, hv, rfl⟩ := List.mem_map.1 hc
    rw [List.zipWith_self] at hv
    obtain ⟨w, _, rfl⟩ := List.mem_map.1 hv
    norm_num
  have hpeak : ∀ a, (peak n a).length = n := by intro a; simp [peak]
  have hone : ∀ x : List ℝ, ∀ a : Nat, (1 : ℝ) + a / 101 ≤
      a / 101 + Real.exp (min 100 (sphere (List.zipWith (fun u w => u - w) x (peak x.length a)))) := by
    intro x a
    have := Real.one_le_exp (le_min (by norm_num : (0 : ℝ) ≤ 100) (sphere_nonneg (List.zipWith (fun u w => u - w) x (peak x.length a))))
    linarith
  have hlow : ∀ x : List ℝ, 1 ≤ multipeak x := by
    intro x
    obtain ⟨_, h⟩ := foldl_min_spec (fun a => a / 101 + Real.exp (min 100 (sphere (List.zipWith (fun u w => u - w) x (peak x.length a)))))
      (List.range 101) 10000
    unfold multipeak
    rcases h with h | ⟨a, _, h⟩
    · rw [h]; norm_num
    · rw [h]
      have := hone x a
      have h0 : (0 : ℝ) ≤ a / 101 := by positivity
      linarith
  refine ⟨hpeak 0, ?_, fun x hx => ⟨hlow x, fun h => ?_⟩⟩
  · refine le_antisymm ?_ (hlow _)
    obtain ⟨⟨_, h⟩, _⟩ := foldl_min_spec
      (fun a => a / 101 + Real.exp (min 100 (sphere (List.zipWith (fun u w => u - w) (peak n 0) (peak (peak n 0).length a)))))
      (List.range 101) 10000
    refine (h 0 (by simp)).trans ?_
    rw [hpeak, hself]
    norm_num
  · obtain ⟨_, h'⟩ := foldl_min_spec (fun a => a / 101 + Real.exp (min 100 (sphere (List.zipWith (fun u w => u - w) x (peak x.length a)))))
      (List.range 101) 10000
    have hdef : multipeak x = (List.range 101).foldl (fun v a => min v
      (a / 101 + Real.exp (min 100 (sphere (List.zipWith (fun u w => u - w) x (peak x.length a)))))) 10000 := rfl
    rw [← hdef, h] at h'
    rcases h' with h' | ⟨a, _, h'⟩
    · norm_num at h'
    · have h1 := hone x a
      have h0 : (0 : ℝ) ≤ a / 101 := by positivity
      have ha : (a : ℝ) / 101 = 0 := by linarith
      have ha0 : a = 0 := by
        have : (a : ℝ) = 0 := by linarith
        exact_mod_cast this
      subst ha0
      have he : Real.exp (min 100 (sphere (List.zipWith (fun u w => u - w) x (peak x.length 0)))) = 1 := by linarith
      have hm := Real.exp_eq_one_iff _ |>.1 he
      have hs : sphere (List.zipWith (fun u w => u - w) x (peak x.length 0)) = 0 := by
        rcases min_choice (100 : ℝ) (sphere (List.zipWith (fun u w => u - w) x (peak x.length 0))) with h2 | h2
        · rw [h2] at hm; norm_num at hm
        · rw [h2] at hm; exact hm
      have := zip_sub_zero _ _ (by simp [peak]) hs
      rw [this, hx]

/-! ## Functions which need two dimensions, or are bent -/

theorem bent_zero_iff (n i : Nat) (v : ℝ) : bent n i v = 0 ↔ v = 0 := by
  unfold bent
  split
  · rename_i h
    exact ⟨fun h' => absurd h' (Real.rpow_pos_of_pos h _).ne', fun h' => absurd h' h.ne'⟩
  · rfl

theorem mapIdx_zero {g : Nat → ℝ → ℝ} (hg : ∀ i v, g i v = 0 ↔ v = 0) {x : List ℝ} {n : Nat} (hx : x.length = n)
    (h : x.mapIdx g = List.replicate n 0) : x = List.replicate n 0 := by
  refine eq_replicate hx (fun v hv => ?_)
  obtain ⟨i, hi, rfl⟩ := List.getElem_of_mem hv
  have : g i x[i] ∈ x.mapIdx g := List.mem_mapIdx.2 ⟨i, hi, rfl⟩
  rw [h] at this
  exact (hg i _).1 (List.eq_of_mem_replicate this)

theorem mapIdx_replicate {g : Nat → ℝ → ℝ} (hg : ∀ i v, g i v = 0 ↔ v = 0) (n : Nat) :
    (List.replicate n (0 : ℝ)).mapIdx g = List.replicate n 0 := by
  refine eq_replicate (by simp) (fun v hv => ?_)
  obtain ⟨i, hi, rfl⟩ := mem_mapIdx hv
  rw [hg]; simp

/-- `bentcigar` has its minimum 0 at 0 only. -/
theorem bentcigar_optimum_partial (n : Nat) : OptimumO (n + 2) bentcigar 0 (List.replicate (n + 2) 0) := by
  obtain ⟨h1, h2, h3⟩ := cigar_optimum (n + 1)
  refine ⟨h1, ?_, fun x hx => ?_⟩
  · rw [bentcigar, mapIdx_replicate (fun i v => bent_zero_iff _ i v), h2]
  · obtain ⟨v, hv, h0, h⟩ := h3 (x.mapIdx (fun i v => bent x.length i v)) (by simpa using hx)
    exact ⟨v, hv, h0, fun he => mapIdx_zero (fun i v => bent_zero_iff _ i v) hx (h he)⟩

/-- The claim "`bentcigar` grows when the first coordinate goes away from the optimum" is false: the exponent of the first coordinate decreases (`i`
starts at 0 where the original formula starts at 1), and the value goes back to the minimum at infinity. -/
theorem bentcigar_vanishes (n : Nat) (v : ℝ) (hv : 16 * ((n : ℝ) + 1) ^ 2 ≤ v) :
    ∃ w, bentcigar (v :: List.replicate (n + 1) 0) = some w ∧ w ≤ (1 / v) ^ 2 := by
  have hn : (0 : ℝ) ≤ n := Nat.cast_nonneg n
  have hv1 : 1 ≤ v := by nlinarith
  have hv0 : 0 < v := by linarith
  have hs : 4 * ((n : ℝ) + 1) ≤ Real.sqrt v := by
    rw [Real.le_sqrt (by positivity)]
    · nlinarith
    · exact hv0.le
  have hmap : (v :: List.replicate (n + 1) (0 : ℝ)).mapIdx (fun i u => bent (v :: List.replicate (n + 1) (0 : ℝ)).length i u)
      = bent (n + 2) 0 v :: List.replicate (n + 1) 0 := by
    rw [List.mapIdx_cons]
    have := mapIdx_replicate (g := fun i u => bent (v :: List.replicate (n + 1) (0 : ℝ)).length (i + 1) u) (fun i u => bent_zero_iff _ _ u) (n + 1)
    rw [this]
    simp
  refine ⟨_, by rw [bentcigar, hmap]; rfl, ?_⟩
  rw [sphere_replicate, mul_zero, add_zero]
  have hb : bent (n + 2) 0 v ≤ 1 / v := by
    unfold bent
    rw [if_pos hv0, one_div, ← Real.rpow_neg_one]
    refine Real.rpow_le_rpow_of_exponent_le hv1 ?_
    have e : (((n + 2 : Nat) : ℝ) - 1) = (n : ℝ) + 1 := by push_cast; ring
    rw [e]
    have : 0.5 * Real.sqrt v * (((0 : Nat) : ℝ) - 1) / ((n : ℝ) + 1) ≤ -2 := by
      rw [div_le_iff₀ (by positivity)]
      push_cast
      nlinarith
    linarith
  have hb0 : 0 ≤ bent (n + 2) 0 v := by
    unfold bent
    rw [if_pos hv0]
    exact (Real.rpow_pos_of_pos hv0 _).le
  exact pow_le_pow_left₀ hb0 hb 2

theorem bucheScale_zero_iff (n i : Nat) (v : ℝ) : bucheScale n i v = 0 ↔ v = 0 := by
  unfold bucheScale
  have h : (10 : ℝ) ^ (((i : ℝ) - 1) / (2 * ((n : ℝ) - 1))) ≠ 0 := (Real.rpow_pos_of_pos (by norm_num) _).ne'
  rw [mul_eq_zero, or_iff_left h, mul_eq_zero]
  constructor
  · rintro (h | h)
    · exact h
    · split at h <;> norm_num at h
  · intro h; exact Or.inl h

theorem bucherastrigin_optimum_partial (n : Nat) : OptimumO (n + 2) bucherastrigin 0 (List.replicate (n + 2) 0) := by
  obtain ⟨h1, h2, h3⟩ := rastrigin_optimum (n + 2)
  refine ⟨h1, ?_, fun x hx => ?_⟩
  · rw [bucherastrigin, if_neg (by simp), mapIdx_replicate (fun i v => bucheScale_zero_iff _ i v), h2]
  · obtain ⟨h0, h⟩ := h3 (x.mapIdx (fun i v => bucheScale x.length i v)) (by simpa using hx)
    refine ⟨_, by rw [bucherastrigin, if_neg (by omega)], h0, fun he => mapIdx_zero (fun i v => bucheScale_zero_iff _ i v) hx (h he)⟩

/-- The claim "every core function can be used in any dimension" is false: in one dimension `bucherastrigin` always raises ZeroDivisionError. -/
theorem bucherastrigin_one (a : ℝ) : bucherastrigin [a] = none := rfl

/-- `hm` is equivalent to the sphere. -/
theorem hm_bounds_partial (x : List ℝ) (v : ℝ) (h : hm x = some v) : 0.1 * sphere x ≤ v ∧ v ≤ 2.1 * sphere x := by
  unfold hm at h
  split at h
  · simp at h
  · simp only [Option.some.injEq] at h
    subst h
    clear * -
    induction x with
    | nil => simp [sphere]
    | cons a x ih =>
      simp only [sphere, List.map_cons, List.sum_cons] at ih ⊢
      have h1 := Real.neg_one_le_cos (1 / a)
      have h2 := Real.cos_le_one (1 / a)
      constructor
      · nlinarith [sq_nonneg a]
      · nlinarith [sq_nonneg a]

/-- The claim "the optimum of `hm` is 0 with value 0" is false: it is NaN as soon as one coordinate is 0, in particular at its optimum. -/
theorem hm_undefined (x : List ℝ) : hm x = none ↔ (0 : ℝ) ∈ x := by
  unfold hm
  split <;> simp_all

/-- Sum of the absolute value: the minimum is reached on a hyperplane. -/
theorem doublelinearslope_zero (x : List ℝ) : 0 ≤ doublelinearslope x ∧ (doublelinearslope x = 0 ↔ x.sum = 0) :=
  ⟨abs_nonneg _, abs_eq_zero⟩

/-! ## Steps -/

theorem trunc_bounds (t : ℝ) : (0 ≤ t → (trunc t : ℝ) ≤ t ∧ t < trunc t + 1) ∧ (t < 0 → t ≤ trunc t ∧ (trunc t : ℝ) < t + 1) := by
  constructor
  · intro h
    unfold trunc
    rw [if_pos h]
    exact ⟨Int.floor_le t, Int.lt_floor_add_one t⟩
  · intro h
    unfold trunc
    rw [if_neg (not_le.2 h)]
    exact ⟨Int.le_ceil t, Int.ceil_lt_add_one t⟩

theorem trunc_mono {s t : ℝ} (h : s ≤ t) : trunc s ≤ trunc t := by
  unfold trunc
  split
  · rename_i hs
    rw [if_pos (hs.trans h)]
    exact Int.floor_le_floor h
  · rename_i hs
    rw [not_le] at hs
    split
    · rename_i ht
      refine le_trans (b := (0 : ℤ)) ?_ (Int.floor_nonneg.2 ht)
      exact Int.ceil_le.2 (by simpa using hs.le)
    · exact Int.ceil_le_ceil h

/-- Steps preserve the order and stay within a factor `e`: below the value from 1 on, above it before. -/
theorem step_spec {s : ℝ} (hs : 0 < s) : (1 ≤ s → step s ≤ s ∧ s < Real.exp 1 * step s) ∧ (s < 1 → s ≤ step s ∧ step s < Real.exp 1 * s) := by
  unfold step
  rw [if_neg hs.ne']
  obtain ⟨h1, h2⟩ := trunc_bounds (Real.log s)
  constructor
  · intro h
    obtain ⟨a, b⟩ := h1 (Real.log_nonneg h)
    constructor
    · calc Real.exp (trunc (Real.log s)) ≤ Real.exp (Real.log s) := Real.exp_le_exp.2 a
        _ = s := Real.exp_log hs
    · calc s = Real.exp (Real.log s) := (Real.exp_log hs).symm
        _ < Real.exp (1 + trunc (Real.log s)) := Real.exp_lt_exp.2 (by linarith)
        _ = Real.exp 1 * Real.exp (trunc (Real.log s)) := Real.exp_add _ _
  · intro h
    obtain ⟨a, b⟩ := h2 (Real.log_neg hs h)
    constructor
    · calc s = Real.exp (Real.log s) := (Real.exp_log hs).symm
        _ ≤ _ := Real.exp_le_exp.2 a
    · calc Real.exp (trunc (Real.log s)) < Real.exp (Real.log s + 1) := Real.exp_lt_exp.2 b
        _ = Real.exp 1 * s := by rw [Real.exp_add, Real.exp_log hs, mul_comm]

theorem step_mono {s t : ℝ} (hs : 0 < s) (h : s ≤ t) : step s ≤ step t := by
  unfold step
  rw [if_neg hs.ne', if_neg (hs.trans_le h).ne']
  exact Real.exp_le_exp.2 (by exact_mod_cast trunc_mono (Real.log_le_log hs h))

/-- The claim "all steps have the same length on the logarithmic scale" is false around 1: the step is 1 from `1/e` to `e`, which is twice as long. -/
theorem step_double {s : ℝ} (h1 : Real.exp (-1) < s) (h2 : s < Real.exp 1) : step s = 1 := by
  have hs : 0 < s := (Real.exp_pos _).trans h1
  have a : -1 < Real.log s := (Real.lt_log_iff_exp_lt hs).2 h1
  have b : Real.log s < 1 := (Real.log_lt_iff_lt_exp hs).2 h2
  have : trunc (Real.log s) = 0 := by
    unfold trunc
    split
    · rename_i h; exact Int.floor_eq_zero_iff.2 ⟨h, b⟩
    · rename_i h
      rw [Int.ceil_eq_iff]
      push Not at h
      constructor <;> push_cast <;> linarith
  unfold step
  rw [if_neg hs.ne', this]
  simp

/-! ## Deceptive functions -/

/-- `deceptiveillcond` is always positive, and comes as close to 0 as wanted: it has no minimum (it is infinite at its announced optimum). -/
theorem illcond_no_minimum : (∀ a b v, deceptiveillcond a b = some v → 0 < v) ∧ (∀ b, deceptiveillcond 0 b = none)
    ∧ ∀ ε : ℝ, 0 < ε → ∃ a b v, deceptiveillcond a b = some v ∧ v ≤ ε := by
  refine ⟨?_, ?_, ?_⟩
  · intro a b v h
    unfold deceptiveillcond at h
    split at h
    · rename_i ha
      simp only [Option.some.injEq] at h
      subst h
      have : 0 < a ^ 2 := by positivity
      have : 0 < Real.sqrt (a ^ 2 + b ^ 2) := Real.sqrt_pos.2 (by positivity)
      exact lt_of_lt_of_le this ((le_max_right _ _).trans (le_max_left _ _))
    · simp at h
  · intro b; simp [deceptiveillcond]
  · intro ε hε
    have hne : -ε ≠ 0 := by linarith
    refine ⟨-ε, 0, _, by rw [deceptiveillcond, if_pos hne], ?_⟩
    have h1 : Real.sqrt ((-ε) ^ 2 + 0 ^ 2) = ε := by
      rw [show (-ε) ^ 2 + 0 ^ 2 = ε ^ 2 by ring, Real.sqrt_sq hε.le]
    rw [h1, if_neg (by linarith), zero_div, Real.arctan_zero, abs_zero]
    simp [hε.le]

/-- `deceptivepath` and `deceptivemultimodal` have their minimum 0 at 0 only, and are 1 or the distance to it elsewhere. -/
theorem deceptive_optimum (inv : ℝ → ℝ) (a b : ℝ) : 0 ≤ deceptive inv a b ∧ (deceptive inv a b = 0 ↔ a = 0 ∧ b = 0)
    ∧ (deceptive inv a b = 1 ∨ deceptive inv a b = Real.sqrt (a ^ 2 + b ^ 2)) := by
  have hd : Real.sqrt (a ^ 2 + b ^ 2) = 0 ↔ a = 0 ∧ b = 0 := by
    rw [Real.sqrt_eq_zero (by positivity)]
    constructor
    · intro h
      exact ⟨by nlinarith [sq_nonneg a, sq_nonneg b], by nlinarith [sq_nonneg a, sq_nonneg b]⟩
    · rintro ⟨rfl, rfl⟩; norm_num
  unfold deceptive
  split
  · rename_i h
    exact ⟨le_refl _, by simpa using hd.1 h, Or.inr h.symm⟩
  · rename_i h
    split <;> split <;> first
      | exact ⟨zero_le_one, by simp only [one_ne_zero, false_iff]; exact fun h' => h (hd.2 h'), Or.inl rfl⟩
      | exact ⟨Real.sqrt_nonneg _, hd, Or.inr rfl⟩

/-! ## Functions without a minimum -/

theorem tanh_sum_bounds : ∀ y : List ℝ, y ≠ [] → -(y.length : ℝ) < (y.map Real.tanh).sum ∧ (y.map Real.tanh).sum < y.length
  | [], h => absurd rfl h
  | [a], _ => by
    simp only [List.map_cons, List.map_nil, List.sum_cons, List.sum_nil, add_zero, List.length_cons, List.length_nil]
    norm_num
    exact ⟨Real.neg_one_lt_tanh a, Real.tanh_lt_one a⟩
  | a :: b :: r, _ => by
    obtain ⟨h1, h2⟩ := tanh_sum_bounds (b :: r) (by simp)
    have h3 := Real.neg_one_lt_tanh a
    have h4 := Real.tanh_lt_one a
    rw [List.map_cons, List.sum_cons, List.length_cons]
    push_cast
    constructor <;> linarith

/-- `genzcornerpeak` is finite everywhere and above `1 / 2 ^ (n + 1)`, and `minusgenzcornerpeak` is unbounded below. -/
theorem cornerpeak_spec (n : Nat) : (∀ y : List ℝ, y.length = n + 1 → 1 / 2 ^ (n + 2) < cornerpeak y)
    ∧ ∀ M : ℝ, ∃ y : List ℝ, y.length = n + 1 ∧ -cornerpeak y < M := by
  constructor
  · intro y hy
    have hne : y ≠ [] := by intro h; simp [h] at hy
    obtain ⟨h1, h2⟩ := tanh_sum_bounds y hne
    have hl : (0 : ℝ) < y.length := by rw [hy]; positivity
    have h3 : -1 < (y.map Real.tanh).sum / y.length := by rw [lt_div_iff₀ hl]; linarith
    have h4 : (y.map Real.tanh).sum / y.length < 1 := by rw [div_lt_one hl]; exact h2
    unfold cornerpeak
    rw [hy] at *
    rw [one_div]
    refine inv_strictAnti₀ (pow_pos (by linarith) _) ?_
    exact pow_lt_pow_left₀ (by linarith) (by linarith) (by omega)
  · intro M
    set t : ℝ := 1 / (|M| + 2) with ht
    have hM := abs_nonneg M
    have ht0 : 0 < t := by positivity
    have ht1 : t < 1 := by rw [ht, div_lt_one (by positivity)]; linarith
    refine ⟨List.replicate (n + 1) (Real.artanh (t - 1)), by simp, ?_⟩
    have hmem : t - 1 ∈ Set.Ioo (-1 : ℝ) 1 := ⟨by linarith, by linarith⟩
    have hval : cornerpeak (List.replicate (n + 1) (Real.artanh (t - 1))) = (t ^ (n + 2))⁻¹ := by
      unfold cornerpeak
      simp only [List.map_replicate, List.sum_replicate, List.length_replicate, Real.tanh_artanh hmem, nsmul_eq_mul]
      have hn : ((n + 1 : Nat) : ℝ) ≠ 0 := by positivity
      rw [mul_div_cancel_left₀ _ hn]
      congr 2
      ring
    rw [hval]
    have h1 : t ^ (n + 2) ≤ t := by
      calc t ^ (n + 2) ≤ t ^ 1 := pow_le_pow_of_le_one ht0.le ht1.le (by omega)
        _ = t := pow_one t
    have h2 : t⁻¹ ≤ (t ^ (n + 2))⁻¹ := inv_anti₀ (by positivity) h1
    have h3 : t⁻¹ = |M| + 2 := by rw [ht]; simp
    have h4 := neg_abs_le M
    linarith

/-- `slope` is unbounded below. -/
theorem slope_unbounded (n : Nat) (M : ℝ) : ∃ x : List ℝ, x.length = n + 1 ∧ slope x < M := by
  refine ⟨(M - 1) :: List.replicate n 0, by simp, ?_⟩
  simp [slope]

/-! ## Styblinski-Tang -/

theorem styblinski_eq (x : List ℝ) : styblinski x = (x.map (fun v => 39.16599 + 0.5 * (v ^ 4 - 16 * v ^ 2 + 5 * v))).sum := by
  unfold styblinski
  induction x with
  | nil => simp
  | cons a x ih =>
    simp only [List.map_cons, List.sum_cons, List.length_cons] at ih ⊢
    rw [← ih]
    push_cast
    ring

/-- The value per coordinate never is below `-0.0002`. -/
theorem styblinski_lower_partial (x : List ℝ) : -0.0002 * x.length ≤ styblinski x := by
  rw [styblinski_eq]
  induction x with
  | nil => simp
  | cons a x ih =>
    simp only [List.map_cons, List.sum_cons, List.length_cons, Nat.cast_add, Nat.cast_one]
    have : 0 ≤ (a ^ 2 - (16 + 5000 / 5807) / 2) ^ 2 + 5000 / 5807 * (a + 29035 / 10000) ^ 2 := by positivity
    nlinarith

/-- The comment "return a positive value" is false in every dimension: at `(-2.9035, ..., -2.9035)` it is negative. -/
theorem styblinski_negative (n : Nat) : styblinski (List.replicate (n + 1) (-2.9035)) < 0 := by
  rw [styblinski_eq, List.map_replicate, List.sum_replicate, nsmul_eq_mul]
  have : (39.16599 : ℝ) + 0.5 * ((-2.9035) ^ 4 - 16 * (-2.9035) ^ 2 + 5 * (-2.9035)) < 0 := by norm_num
  have hn : (0 : ℝ) < (n + 1 : Nat) := by positivity
  exact mul_neg_of_pos_of_neg hn this

/-- `DelayedSphere` pretends to take a time inversely proportional to the first coordinate. -/
theorem delay_spec (a : ℝ) : 0 ≤ delay a ∧ (a ≠ 0 → delay a * (1000 * |a|) = 1) := by
  unfold delay
  constructor
  · split
    · positivity
    · exact le_refl _
  · intro h
    rw [if_pos h, abs_div, abs_one]
    have : |a| ≠ 0 := abs_ne_zero.2 h
    field_simp

/-! ## Discrete functions -/

/-- The documented optimum: `(0, 1, ..., arity - 1, 0, 1, ...)`. -/
def target (arity n : Nat) : List ℤ := (List.range n).map (fun i => ((i % arity : Nat) : ℤ))

/-- Number of positions at which two lists differ. -/
def hamming : List ℤ → List ℤ → Nat
  | a :: x, b :: y => (if a = b then 0 else 1) + hamming x y
  | _, _ => 0

theorem diffs_eq (arity : Nat) (x : List ℤ) : x.mapIdx (fun i v => v - ((i % arity : Nat) : ℤ)) = List.zipWith (fun a b => a - b) x (target arity x.length) := by
  refine List.ext_getElem (by simp [target]) (fun i h1 h2 => ?_)
  simp [target]

theorem zip_hamming : ∀ x y : List ℤ, ((List.zipWith (fun a b => a - b) x y).filter (fun d => decide (d ≠ 0))).length = hamming x y
  | [], y => by simp [hamming]
  | a :: x, [] => by simp [hamming]
  | a :: x, b :: y => by
    have := zip_hamming x y
    simp only [List.zipWith_cons_cons, List.filter_cons, hamming]
    by_cases h : a = b
    · subst h; simpa using this
    · have : a - b ≠ 0 := sub_ne_zero.2 h
      simp_all [Nat.add_comm]

/-- `onemax` counts the positions which differ from the optimum. -/
theorem onemax_hamming (arity : Nat) (x : List ℤ) : onemax arity x = hamming x (target arity x.length) := by
  rw [onemax, diffs_eq, zip_hamming]

theorem hamming_le : ∀ x y : List ℤ, hamming x y ≤ x.length
  | [], _ => by simp [hamming]
  | a :: x, [] => by simp [hamming]
  | a :: x, b :: y => by
    have := hamming_le x y
    simp only [hamming, List.length_cons]
    split <;> omega

theorem hamming_zero : ∀ x y : List ℤ, x.length = y.length → (hamming x y = 0 ↔ x = y)
  | [], [], _ => by simp [hamming]
  | a :: x, b :: y, h => by
    have := hamming_zero x y (by simpa using h)
    simp only [hamming, Nat.add_eq_zero_iff, this, List.cons.injEq]
    constructor
    · rintro ⟨h1, h2⟩
      refine ⟨?_, h2⟩
      by_contra hne
      simp [hne] at h1
    · rintro ⟨rfl, rfl⟩; simp

theorem onemax_le (arity : Nat) (x : List ℤ) : onemax arity x ≤ x.length := by rw [onemax_hamming]; exact hamming_le _ _

/-- Its minimum 0 is reached at the documented optimum only. -/
theorem onemax_optimum (arity : Nat) (x : List ℤ) : onemax arity x = 0 ↔ x = target arity x.length := by
  rw [onemax_hamming, hamming_zero _ _ (by simp [target])]

theorem hamming_set : ∀ (x y : List ℤ) (i : Nat) (v : ℤ), hamming (x.set i v) y ≤ hamming x y + 1 ∧ hamming x y ≤ hamming (x.set i v) y + 1
  | [], _, _, _ => by simp [hamming]
  | a :: x, [], i, v => by cases i <;> simp [hamming]
  | a :: x, b :: y, 0, v => by
    simp only [List.set_cons_zero, hamming]
    split <;> split <;> omega
  | a :: x, b :: y, i + 1, v => by
    have := hamming_set x y i v
    simp only [List.set_cons_succ, hamming]
    omega

/-- Changing one variable changes `onemax` by at most one. -/
theorem onemax_set (arity : Nat) (x : List ℤ) (i : Nat) (v : ℤ) :
    onemax arity (x.set i v) ≤ onemax arity x + 1 ∧ onemax arity x ≤ onemax arity (x.set i v) + 1 := by
  rw [onemax_hamming, onemax_hamming, List.length_set]
  exact hamming_set _ _ _ _

/-- `leadingones` is the number of variables from the first wrong one on: `n - k` exactly when the first `k` variables are right and the next one
is wrong. -/
theorem leadingones_spec (arity : Nat) (x : List ℤ) (k : Nat) (hk : k < x.length) :
    leadingones arity x = x.length - k ↔ x.take k = (target arity x.length).take k ∧ x[k] ≠ ((k % arity : Nat) : ℤ) := by
  have hget : ∀ j (hj : j < x.length), (x.mapIdx (fun i v => v - ((i % arity : Nat) : ℤ)))[j]'(by simpa using hj) = x[j] - ((j % arity : Nat) : ℤ) := by
    intro j hj; simp
  have htake : x.take k = (target arity x.length).take k ↔ ∀ j (hj : j < k), x[j]'(by omega) = ((j % arity : Nat) : ℤ) := by
    constructor
    · intro h j hj
      have h1 : (x.take k)[j]? = ((target arity x.length).take k)[j]? := by rw [h]
      rw [List.getElem?_take_of_lt hj, List.getElem?_take_of_lt hj] at h1
      have hjx : j < x.length := by omega
      simp [target, hjx] at h1
      exact h1
    · intro h
      refine List.ext_getElem (by simp [target]) (fun j h1 h2 => ?_)
      simp only [List.length_take] at h1
      simp [target, h j (by omega)]
  rw [htake]
  unfold leadingones
  split
  · rename_i hn
    rw [List.findIdx?_eq_none_iff] at hn
    constructor
    · intro h; omega
    · rintro ⟨_, h2⟩
      have := hn (x[k] - ((k % arity : Nat) : ℤ)) (by rw [← hget k hk]; exact List.getElem_mem _)
      exact absurd (sub_eq_zero.1 (by simpa only [ne_eq, decide_not, Bool.not_eq_eq_eq_not, Bool.not_false, decide_eq_true_eq] using this)) h2
  · rename_i m hm
    rw [List.findIdx?_eq_some_iff_getElem] at hm
    obtain ⟨hlt, h1, h2⟩ := hm
    have hlt' : m < x.length := by simpa using hlt
    rw [hget m hlt'] at h1
    simp at h1
    have h2' : ∀ j (hj : j < m), x[j]'(by omega) = ((j % arity : Nat) : ℤ) := by
      intro j hj
      have := h2 j hj
      rw [hget j (by omega)] at this
      exact sub_eq_zero.1 (not_not.1 (by simpa only [decide_eq_true_eq] using this))
    constructor
    · intro h
      have : m = k := by omega
      subst this
      exact ⟨h2', fun h' => h1 (by rw [h']; simp)⟩
    · rintro ⟨ha, hb⟩
      have : m = k := by
        rcases Nat.lt_trichotomy m k with h | h | h
        · exact absurd (by rw [ha m h]; simp) h1
        · exact h
        · exact absurd (h2' k h) hb
      rw [this]

/-- Its minimum 0 is reached at the documented optimum only. -/
theorem leadingones_optimum (arity : Nat) (x : List ℤ) : leadingones arity x = 0 ↔ x = target arity x.length := by
  rw [← onemax_optimum]
  unfold leadingones onemax
  split
  · rename_i hn
    rw [List.findIdx?_eq_none_iff] at hn
    simp only [true_iff, List.length_eq_zero_iff, List.filter_eq_nil_iff]
    intro a ha
    simpa using hn a ha
  · rename_i m hm
    rw [List.findIdx?_eq_some_iff_getElem] at hm
    obtain ⟨hlt, h1, _⟩ := hm
    have hlt' : m < x.length := by simpa using hlt
    constructor
    · intro h; omega
    · intro h
      rw [List.length_eq_zero_iff, List.filter_eq_nil_iff] at h
      exact absurd h1 (h _ (List.getElem_mem hlt))

/-- `jump` by the number of wrong variables: the optimum has value `-(n / 4)`, the region within `n / 4` of it is deceptive (moving towards the
optimum makes the value larger), the rest counts the distance to that region. -/
theorem jump_spec (arity : Nat) (x : List ℤ) :
    (onemax arity x = 0 → jump arity x = -((x.length / 4 : Nat) : ℤ))
    ∧ (0 < onemax arity x → onemax arity x < x.length / 4 → jump arity x = (x.length : ℤ) - onemax arity x)
    ∧ (x.length / 4 ≤ onemax arity x → jump arity x = (onemax arity x : ℤ) - ((x.length / 4 : Nat) : ℤ)) := by
  have hle := onemax_le arity x
  unfold jump
  refine ⟨fun h => ?_, fun h1 h2 => ?_, fun h => ?_⟩
  · rw [if_pos (Or.inl (by omega))]; omega
  · rw [if_neg (by omega)]; omega
  · rw [if_pos (Or.inr (by omega))]; omega

/-- From four variables on its minimum is reached at the documented optimum only. -/
theorem jump_optimum (arity : Nat) (x : List ℤ) : -((x.length / 4 : Nat) : ℤ) ≤ jump arity x
    ∧ (jump arity x = -((x.length / 4 : Nat) : ℤ) ↔ x = target arity x.length) := by
  have hle := onemax_le arity x
  obtain ⟨h1, h2, h3⟩ := jump_spec arity x
  rw [← onemax_optimum]
  rcases Nat.eq_zero_or_pos (onemax arity x) with h | h
  · have := h1 h; omega
  · rcases Nat.lt_or_ge (onemax arity x) (x.length / 4) with h' | h'
    · have := h2 h h'; omega
    · have := h3 h'; omega

/-- From eight variables on, a point at distance `n / 4` of the optimum is a local minimum: no change of one variable improves it. -/
theorem jump_local (arity : Nat) (x : List ℤ) (h8 : 8 ≤ x.length) (hx : onemax arity x = x.length / 4) (i : Nat) (v : ℤ) :
    jump arity x ≤ jump arity (x.set i v) := by
  have hle := onemax_le arity (x.set i v)
  obtain ⟨_, _, h3⟩ := jump_spec arity x
  obtain ⟨_, h2', h3'⟩ := jump_spec arity (x.set i v)
  have hs := onemax_set arity x i v
  rw [List.length_set] at *
  have := h3 (by omega)
  rcases Nat.lt_or_ge (onemax arity (x.set i v)) (x.length / 4) with h' | h'
  · have := h2' (by omega) h'; omega
  · have := h3' h'; omega

/-- With fewer than eight variables nothing is deceptive: the value always decreases with the number of wrong variables. -/
theorem jump_small (arity : Nat) (x y : List ℤ) (h8 : x.length < 8) (hl : y.length = x.length) (h : onemax arity y < onemax arity x) :
    jump arity y < jump arity x := by
  have hle := onemax_le arity x
  obtain ⟨h1, h2, h3⟩ := jump_spec arity x
  obtain ⟨h1', h2', h3'⟩ := jump_spec arity y
  rw [hl] at *
  have hx := h3 (by omega)
  rcases Nat.eq_zero_or_pos (onemax arity y) with h0 | h0
  · have := h1' h0; omega
  · have := h3' (by omega); omega

example : sphere [3, -1] = 10 ∧ cigar [3, -1] = some 1000009 ∧ discus [3, -1] = some 9000001 ∧ rosenbrock [2, 1] = 901 ∧ schwefel [1, -1] = 1
    ∧ styblinski [0, 0] = 78.33198 := by
  refine ⟨?_, ?_, ?_, ?_, ?_, ?_⟩ <;> norm_num [sphere, cigar, discus, rosenbrock, schwefel, cumsum, styblinski]

example : onemax 3 [0, 1, 2, 0, 1, 2, 0, 1] = 0 ∧ onemax 3 [0, 0, 2, 0, 1, 2, 1, 1] = 2 ∧ leadingones 3 [0, 0, 2, 0, 1, 2, 1, 1] = 7
    ∧ jump 3 [0, 1, 2, 0, 1, 2, 0, 1] = -2 ∧ jump 3 [0, 0, 2, 0, 1, 2, 1, 1] = 0 ∧ jump 3 [0, 0, 2, 0, 1, 2, 0, 1] = 7 := by decide

end Core
end NG
