/-
C125: the rocket. The thrusts are changed while their impulse is kept; the masses decrease; the value is at most the one of the launch. Disagreements: the masses, the gravity,
the drag, the angle and the times of the positions.
-/
import Mathlib.Analysis.Real.Pi.Bounds
import Mathlib.Tactic.NormNum
import Mathlib.Tactic.Linarith
import Mathlib.Tactic.FieldSimp
import Mathlib.Tactic.Ring
import Mathlib.Analysis.Complex.ExponentialBounds
import Verif.Model.Rocket

namespace NG.Rocket

/-! ### The thrusts -/

theorem durations_pos : ∀ d ∈ durations, 0 < d := by decide

theorem impulse_eq : impulse given = 8.614314 := by
  simp only [impulse, given, thrusts, durations, table]
  norm_num [List.zipWith]

theorem zip_scale (c : ℝ) : ∀ (a : List ℝ) (ds : List Nat),
    (List.zipWith (fun x (d : Nat) => x * ((d : ℝ) / 1000)) (a.map fun t => t * c) ds).sum = (List.zipWith (fun x (d : Nat) => x * ((d : ℝ) / 1000)) a ds).sum * c
  | [], _ => by simp
  | _ :: _, [] => by simp
  | x :: a, d :: ds => by
    simp only [List.map_cons, List.zipWith_cons_cons, List.sum_cons, zip_scale c a ds]
    ring

theorem impulse_scale (c : ℝ) (a : List ℝ) : impulse (a.map fun t => t * c) = impulse a * c := zip_scale c a durations

theorem zip_nonneg : ∀ (a : List ℝ) (ds : List Nat), (∀ x ∈ a, 0 ≤ x) → 0 ≤ (List.zipWith (fun x (d : Nat) => x * ((d : ℝ) / 1000)) a ds).sum
  | [], _, _ => by simp
  | _ :: _, [], _ => by simp
  | x :: a, d :: ds, h => by
    simp only [List.zipWith_cons_cons, List.sum_cons]
    have := zip_nonneg a ds fun y hy => h y (List.mem_cons_of_mem _ hy)
    have h2 := h x List.mem_cons_self
    positivity

theorem zipExp_nonneg : ∀ (g b : List ℝ), (∀ x ∈ g, 0 ≤ x) → ∀ y ∈ List.zipWith (fun t b => t * Real.exp b) g b, 0 ≤ y
  | [], _, _, _, hy => by simp at hy
  | _ :: _, [], _, _, hy => by simp at hy
  | x :: g, c :: b, h, y, hy => by
    simp only [List.zipWith_cons_cons, List.mem_cons] at hy
    rcases hy with rfl | hy
    · exact mul_nonneg (h x List.mem_cons_self) (Real.exp_pos _).le
    · exact zipExp_nonneg g b (fun z hz => h z (List.mem_cons_of_mem _ hz)) y hy

theorem given_nonneg : ∀ x ∈ given, 0 ≤ x := by
  intro x hx
  simp only [given, List.mem_map] at hx
  obtain ⟨t, _, rfl⟩ := hx
  exact div_nonneg (Nat.cast_nonneg t) (by norm_num)

theorem biased_nonneg (bias : List ℝ) : ∀ y ∈ biased bias, 0 ≤ y := zipExp_nonneg given bias given_nonneg

theorem biased_pos {bias : List ℝ} (h : bias.length = 24) : 0 < impulse (biased bias) := by
  match bias, h with
  | b0 :: b1 :: l, _ =>
    have hg : ∃ g, given = (0 : ℝ) :: 0.946 :: g ∧ ∀ x ∈ g, 0 ≤ x := by
      have e : given = (0 : ℝ) :: 0.946 :: (thrusts.tail.tail.map fun (t : Nat) => (t : ℝ) / 1000) := by
        simp only [given, thrusts, table, List.map_cons, List.map_nil, List.dropLast, List.tail]; norm_num
      exact ⟨_, e, fun x hx => given_nonneg x (by rw [e]; exact List.mem_cons_of_mem _ (List.mem_cons_of_mem _ hx))⟩
    have hd : ∃ ds, durations = 31 :: 61 :: ds := ⟨_, rfl⟩
    obtain ⟨g, hg, hn⟩ := hg
    obtain ⟨ds, hd⟩ := hd
    simp only [impulse, biased, hg, hd, List.zipWith_cons_cons, List.sum_cons]
    have := zip_nonneg (List.zipWith (fun t b => t * Real.exp b) g l) ds (zipExp_nonneg g l hn)
    have e := Real.exp_pos b1
    norm_num
    positivity

/-- **The thrusts are changed and the impulse is kept** (the comment of the code: "We modify the thrust while preserving the sum"). -/
theorem impulse_kept {bias : List ℝ} (h : bias.length = 24) : impulse (normalized bias) = 8.614314 := by
  have e : normalized bias = (biased bias).map fun t => t * (impulse given / impulse (biased bias)) := by
    simp only [normalized, mul_div_assoc]
  rw [e, impulse_scale, mul_div_cancel₀ _ (biased_pos h).ne', impulse_eq]

/-- The ratios of the thrusts are the ones asked for: every thrust is the one of the table times the exponential of its bias, times one common factor. -/
theorem normalized_ratio {bias : List ℝ} (h : bias.length = 24) :
    ∃ c > 0, normalized bias = List.zipWith (fun t b => t * Real.exp b * c) given bias := by
  refine ⟨impulse given / impulse (biased bias), div_pos (by rw [impulse_eq]; norm_num) (biased_pos h), ?_⟩
  simp only [normalized, biased, List.map_zipWith, mul_div_assoc]

theorem biased_shift (c : ℝ) (bias : List ℝ) : biased (bias.map fun b => b + c) = (biased bias).map fun t => t * Real.exp c := by
  simp only [biased, List.zipWith_map_right, List.map_zipWith, Real.exp_add, mul_assoc]

theorem normalized_shift (c : ℝ) (bias : List ℝ) : normalized (bias.map fun b => b + c) = normalized bias := by
  simp only [normalized, biased_shift, impulse_scale, List.map_map]
  refine List.map_congr_left fun t _ => ?_
  have := Real.exp_pos c
  simp only [Function.comp]
  rw [mul_right_comm t, mul_div_mul_right _ _ this.ne']

/-- **The same number added to all biases has no effect.** -/
theorem rocket_shift (alt : Vec → ℝ) (launch : Vec) (fuel : Nat) (c : ℝ) (bias : List ℝ) :
    rocket alt launch fuel (bias.map fun b => b + c) = rocket alt launch fuel bias := by
  simp only [rocket, massList, normalized_shift, List.length_map]

/-- **The first bias has no effect** (the thrust of the first row is 0). -/
theorem rocket_first (alt : Vec → ℝ) (launch : Vec) (fuel : Nat) (b c : ℝ) (l : List ℝ) : rocket alt launch fuel (b :: l) = rocket alt launch fuel (c :: l) := by
  have hg : ∃ g, given = (0 : ℝ) :: g := ⟨_, by simp only [given, thrusts, table, List.map_cons, List.dropLast]; norm_num; rfl⟩
  obtain ⟨g, hg⟩ := hg
  have e : biased (b :: l) = biased (c :: l) := by simp [biased, hg]
  simp only [rocket, massList, normalized, e, List.length_cons]

theorem length_normalized {bias : List ℝ} (h : bias.length = 24) : (normalized bias).length = 24 := by
  simp [normalized, biased, given, thrusts, table, h]

theorem normalized_nonneg {bias : List ℝ} (h : bias.length = 24) : ∀ x ∈ normalized bias, 0 ≤ x := by
  intro x hx
  simp only [normalized, List.mem_map] at hx
  obtain ⟨t, ht, rfl⟩ := hx
  have h1 := biased_nonneg bias t ht
  have h2 := biased_pos h
  have h3 : 0 ≤ impulse given := by rw [impulse_eq]; norm_num
  positivity

theorem sum_nonneg' : ∀ {l : List ℝ}, (∀ x ∈ l, 0 ≤ x) → 0 ≤ l.sum := fun h => List.sum_nonneg h

theorem le_sum : ∀ {l : List ℝ}, (∀ x ∈ l, 0 ≤ x) → ∀ x ∈ l, x ≤ l.sum := fun h x hx => List.single_le_sum h x hx

theorem normalized_sum_pos {bias : List ℝ} (h : bias.length = 24) : 0 < (normalized bias).sum := by
  rcases lt_or_eq_of_le (sum_nonneg' (normalized_nonneg h)) with h1 | h1
  · exact h1
  · exfalso
    have hz : ∀ x ∈ normalized bias, x = 0 := fun x hx => le_antisymm (h1 ▸ le_sum (normalized_nonneg h) x hx) (normalized_nonneg h x hx)
    have e : normalized bias = (normalized bias).map fun t => t * 0 := by
      conv_lhs => rw [← List.map_id (normalized bias)]
      exact List.map_congr_left fun t ht => by simp [hz t ht]
    have := impulse_kept h
    rw [e, impulse_scale] at this
    norm_num at this

/-! ### The masses -/

theorem masses_spec (total : ℝ) (ht : 0 < total) : ∀ (l : List ℝ) (left : ℝ), 0 ≤ left → (∀ x ∈ l, 0 ≤ x ∧ x ≤ total) →
    ∃ ms, masses total l left = some ms ∧ ms.length = l.length ∧ ms.Pairwise (· ≥ ·) ∧ (∀ m ∈ ms, rocMass ≤ m ∧ m ≤ rocMass + left) ∧
      (∀ k : Nat, ∀ m : ℝ, ms[k]? = some m → m ≤ rocMass + left * Real.exp (-((l.take (k + 1)).map (· / total)).sum))
  | [], left, _, _ => ⟨[], rfl, rfl, List.Pairwise.nil, by simp, by simp⟩
  | t :: l, left, h, hl => by
    obtain ⟨h0, h1⟩ := hl t List.mem_cons_self
    have p0 : 0 ≤ t / total := div_nonneg h0 ht.le
    have p1 : t / total ≤ 1 := (div_le_one ht).2 h1
    have hleft : 0 ≤ left - left * (t / total) := by nlinarith
    obtain ⟨ms, e, hlen, hp, hb, hk⟩ := masses_spec total ht l (left - left * (t / total)) hleft fun x hx => hl x (List.mem_cons_of_mem _ hx)
    have hc : ¬ (t / total < -1e-5 ∨ 1 < t / total) := by
      rintro (hh | hh)
      · norm_num at hh; linarith
      · linarith
    refine ⟨(rocMass + (left - left * (t / total))) :: ms, ?_, by simp [hlen], ?_, ?_, ?_⟩
    · simp only [masses, if_neg hc, e, Option.map_some]
    · exact List.pairwise_cons.2 ⟨fun m hm => (hb m hm).2, hp⟩
    · intro m hm
      rcases List.mem_cons.1 hm with rfl | hm
      · constructor
        · linarith
        · nlinarith
      · have := hb m hm
        refine ⟨this.1, this.2.trans ?_⟩
        nlinarith
    · intro k m hm
      have he : 1 - t / total ≤ Real.exp (-(t / total)) := by
        have := Real.add_one_le_exp (-(t / total)); linarith
      cases k with
      | zero =>
        simp only [List.getElem?_cons_zero, Option.some.injEq] at hm
        subst hm
        simp only [Nat.zero_add, List.take_succ_cons, List.take_zero, List.map_cons, List.map_nil, List.sum_cons, List.sum_nil, add_zero]
        nlinarith
      | succ k =>
        simp only [List.getElem?_cons_succ] at hm
        have := hk k m hm
        refine this.trans ?_
        simp only [List.take_succ_cons, List.map_cons, List.sum_cons, neg_add, Real.exp_add]
        have hpos := Real.exp_pos (-(List.map (· / total) (List.take (k + 1) l)).sum)
        have : left - left * (t / total) ≤ left * Real.exp (-(t / total)) := by nlinarith
        have := mul_le_mul_of_nonneg_right this hpos.le
        linarith

theorem rows_ok {bias : List ℝ} (h : bias.length = 24) : ∀ x ∈ normalized bias ++ [0], 0 ≤ x ∧ x ≤ (normalized bias).sum := by
  intro x hx
  rcases List.mem_append.1 hx with hx | hx
  · exact ⟨normalized_nonneg h x hx, le_sum (normalized_nonneg h) x hx⟩
  · simp only [List.mem_singleton] at hx
    subst hx
    exact ⟨le_rfl, (normalized_sum_pos h).le⟩

/-- **The assertions on the percentages never fail**; there are 25 masses, which decrease from at most the loaded rocket and never below the rocket without engine. -/
theorem masses_ok {bias : List ℝ} (h : bias.length = 24) :
    ∃ ms, massList bias = some ms ∧ ms.length = 25 ∧ ms.Pairwise (· ≥ ·) ∧ ∀ m ∈ ms, 0.0472 ≤ m ∧ m ≤ 0.0472 + 0.024 := by
  obtain ⟨ms, e, hl, hp, hb, _⟩ := masses_spec _ (normalized_sum_pos h) _ engInitial (by norm_num [engInitial]) (rows_ok h)
  exact ⟨ms, e, by simpa [length_normalized h] using hl, hp, hb⟩

theorem sum_map_div (c : ℝ) : ∀ l : List ℝ, (l.map (· / c)).sum = l.sum / c
  | [] => by simp
  | x :: l => by simp [sum_map_div c l, add_div]

/-- The rocket is lighter at the end of the burn than with an empty engine, whatever the biases: the mass used after the burn is larger than the last mass of the burn. -/
theorem burnt_too_much {bias : List ℝ} (h : bias.length = 24) (ms : List ℝ) (hm : massList bias = some ms) (m : ℝ) (hl : ms[24]? = some m) :
    m < rocMass + engFinal := by
  obtain ⟨ms', e, _, _, _, hk⟩ := masses_spec _ (normalized_sum_pos h) _ engInitial (by norm_num [engInitial]) (rows_ok h)
  have : ms' = ms := by
    have : massList bias = some ms' := e
    rw [hm] at this
    exact (Option.some.inj this).symm
  subst this
  have := hk 24 m hl
  rw [List.take_of_length_le (by simp [length_normalized h]), sum_map_div, List.sum_append, List.sum_singleton, add_zero, div_self (normalized_sum_pos h).ne'] at this
  have e1 : Real.exp (-1) < 0.37 := by
    have := Real.exp_neg_one_lt_d9
    linarith
  simp only [engInitial, engFinal] at *
  linarith

/-! ### The forces -/

/-- Newton's attraction by the Earth, with the constants of the code. -/
noncomputable def newton (r m : ℝ) : ℝ := 6.67408 / 10 ^ 11 * (5.972 * 10 ^ 24) * m / r ^ 2

theorem norm_sq (p : Vec) : p.norm ^ 2 = p.x ^ 2 + p.y ^ 2 + p.z ^ 2 := by
  rw [Vec.norm, Real.sq_sqrt (by positivity)]

/-- **The gravity pulls back to the axis and to the equator; its size is Newton's times `√(1 + z²/r²)`**, and not Newton's: the horizontal components are divided by the horizontal
distance instead of the distance. -/
theorem gravity_partial (p : Vec) (m : ℝ) (hm : 0 < m) (h : 0 < p.x ^ 2 + p.y ^ 2) :
    (gravity p m).x * p.x ≤ 0 ∧ (gravity p m).y * p.y ≤ 0 ∧ (gravity p m).z * p.z ≤ 0 ∧ (gravity p m).x * p.y = (gravity p m).y * p.x ∧
    (gravity p m).x ^ 2 + (gravity p m).y ^ 2 + (gravity p m).z ^ 2 = newton p.norm m ^ 2 * (1 + p.z ^ 2 / p.norm ^ 2) := by
  have hs : 0 < Real.sqrt (p.x ^ 2 + p.y ^ 2) := Real.sqrt_pos.2 h
  have hs2 : Real.sqrt (p.x ^ 2 + p.y ^ 2) ^ 2 = p.x ^ 2 + p.y ^ 2 := Real.sq_sqrt h.le
  have hr : 0 < p.norm := Real.sqrt_pos.2 (by positivity)
  have hF : (-6.67408 * (1 / 10 ^ 11)) * (5.972 * 10 ^ 24) * m / p.norm ^ 2 = -newton p.norm m := by
    simp only [newton]; ring
  have hn : 0 < newton p.norm m := by simp only [newton]; positivity
  simp only [gravity, hF]
  generalize newton p.norm m = N at *
  generalize Real.sqrt (p.x ^ 2 + p.y ^ 2) = s at *
  generalize p.norm = r at *
  refine ⟨?_, ?_, ?_, by ring, ?_⟩
  · have : 0 ≤ N * (p.x ^ 2 / s) := by positivity
    calc -N * (p.x / s) * p.x = -(N * (p.x ^ 2 / s)) := by ring
      _ ≤ 0 := by linarith
  · have : 0 ≤ N * (p.y ^ 2 / s) := by positivity
    calc -N * (p.y / s) * p.y = -(N * (p.y ^ 2 / s)) := by ring
      _ ≤ 0 := by linarith
  · have : 0 ≤ N * (p.z ^ 2 / r) := by positivity
    calc -N * p.z / r * p.z = -(N * (p.z ^ 2 / r)) := by ring
      _ ≤ 0 := by linarith
  · have : (p.x ^ 2 + p.y ^ 2) / s ^ 2 = 1 := by rw [hs2, div_self h.ne']
    calc (-N * (p.x / s)) ^ 2 + (-N * (p.y / s)) ^ 2 + (-N * p.z / r) ^ 2 = N ^ 2 * ((p.x ^ 2 + p.y ^ 2) / s ^ 2 + p.z ^ 2 / r ^ 2) := by ring
      _ = _ := by rw [this]

/-- Only in the plane of the equator is the size of the gravity Newton's. -/
theorem gravity_newton_iff (p : Vec) (m : ℝ) (hm : 0 < m) (h : 0 < p.x ^ 2 + p.y ^ 2) :
    (gravity p m).x ^ 2 + (gravity p m).y ^ 2 + (gravity p m).z ^ 2 = newton p.norm m ^ 2 ↔ p.z = 0 := by
  rw [(gravity_partial p m hm h).2.2.2.2]
  have hr : 0 < p.norm := Real.sqrt_pos.2 (by positivity)
  have hn : 0 < newton p.norm m := by simp only [newton]; positivity
  constructor
  · intro e
    have : newton p.norm m ^ 2 * (p.z ^ 2 / p.norm ^ 2) = 0 := by linarith
    rcases mul_eq_zero.1 this with h1 | h1
    · exact absurd h1 (by positivity)
    · rcases div_eq_zero_iff.1 h1 with h2 | h2
      · exact pow_eq_zero_iff (two_ne_zero) |>.1 h2
      · exact absurd h2 (by positivity)
  · intro e
    simp [e]

/-- The size of the drag of the physics: half the density times the square of the speed times the coefficient times the section. -/
noncomputable def dragSize (rho : ℝ) (v : Vec) : ℝ := rho * v.norm ^ 2 / 2 * (0.94 * 0.00487)

/-- **The drag opposes every component of the velocity.** The component of `x` is the one of the physics; the ones of `y` and `z` are divided by the horizontal speed instead of the speed. -/
theorem drag_spec (rho : ℝ) (hr : 0 ≤ rho) (v : Vec) :
    (drag rho v).x * v.x ≤ 0 ∧ (drag rho v).y * v.y ≤ 0 ∧ (drag rho v).z * v.z ≤ 0 ∧
    (drag rho v).x = -dragSize rho v * (v.x / v.norm) ∧ (drag rho v).y = -dragSize rho v * (v.y / Real.sqrt (v.x ^ 2 + v.y ^ 2)) ∧
    (drag rho v).z = -dragSize rho v * (v.z / Real.sqrt (v.x ^ 2 + v.y ^ 2)) := by
  have hx : (drag rho v).x = -dragSize rho v * (v.x / v.norm) := by
    simp only [drag, dragSize, norm_sq]
    split
    · rename_i h; simp [h]
    · simp only [Vec.norm]; ring
  have hy : (drag rho v).y = -dragSize rho v * (v.y / Real.sqrt (v.x ^ 2 + v.y ^ 2)) := by
    simp only [drag, dragSize, norm_sq]
    split
    · rename_i h; simp [h]
    · ring
  have hz : (drag rho v).z = -dragSize rho v * (v.z / Real.sqrt (v.x ^ 2 + v.y ^ 2)) := by
    simp only [drag, dragSize, norm_sq]
    split
    · rename_i h; simp [h]
    · ring
  have hd : 0 ≤ dragSize rho v := by simp only [dragSize]; positivity
  refine ⟨?_, ?_, ?_, hx, hy, hz⟩
  · have : 0 ≤ dragSize rho v * (v.x ^ 2 / v.norm) := mul_nonneg hd (div_nonneg (sq_nonneg _) (Real.sqrt_nonneg _))
    rw [hx]; calc _ = -(dragSize rho v * (v.x ^ 2 / v.norm)) := by ring
      _ ≤ 0 := by linarith
  · have : 0 ≤ dragSize rho v * (v.y ^ 2 / Real.sqrt (v.x ^ 2 + v.y ^ 2)) := mul_nonneg hd (div_nonneg (sq_nonneg _) (Real.sqrt_nonneg _))
    rw [hy]; calc _ = -(dragSize rho v * (v.y ^ 2 / Real.sqrt (v.x ^ 2 + v.y ^ 2))) := by ring
      _ ≤ 0 := by linarith
  · have : 0 ≤ dragSize rho v * (v.z ^ 2 / Real.sqrt (v.x ^ 2 + v.y ^ 2)) := mul_nonneg hd (div_nonneg (sq_nonneg _) (Real.sqrt_nonneg _))
    rw [hz]; calc _ = -(dragSize rho v * (v.z ^ 2 / Real.sqrt (v.x ^ 2 + v.y ^ 2))) := by ring
      _ ≤ 0 := by linarith

/-- The vertical drag can be any number of times the size of the drag. -/
theorem drag_large (rho k : ℝ) (hr : 0 ≤ rho) : (drag rho ⟨1, 0, k⟩).z = -k * dragSize rho ⟨1, 0, k⟩ := by
  rw [(drag_spec rho hr ⟨1, 0, k⟩).2.2.2.2.2]
  simp; ring

/-- The density of the air is never negative. -/
theorem density_nonneg (a : ℝ) : 0 ≤ density a := by
  have pw : ∀ x y : ℝ, 0 ≤ x → 0 ≤ x ^ y := fun x y h => Real.rpow_nonneg h y
  simp only [density]
  split
  · rename_i h
    have h1 : 0 ≤ (15.04 - 0.00649 * a + 273.1 : ℝ) := by norm_num; linarith
    exact div_nonneg (mul_nonneg (by norm_num) (pw _ _ (div_nonneg h1 (by norm_num)))) (mul_nonneg (by norm_num) h1)
  · split
    · have := Real.exp_pos (1.73 - 0.000157 * a)
      exact div_nonneg (by positivity) (by norm_num)
    · rename_i h1 h2
      push Not at h1 h2
      have h1 : 0 ≤ (-131.21 + 0.00299 * a + 273.1 : ℝ) := by norm_num; linarith
      exact div_nonneg (mul_nonneg (by norm_num) (pw _ _ (div_nonneg h1 (by norm_num)))) (mul_nonneg (by norm_num) h1)

/-- The angles of launch are said to be 45 degrees, for which the sine and the cosine agree; the code takes the sine and the cosine of 45 radians. -/
theorem angle_differs : Real.cos 45 < Real.sin 45 := by
  have h1 := Real.pi_gt_d2
  have h2 := Real.pi_lt_d2
  have es : Real.sin 45 = Real.sin (45 - 14 * Real.pi) := by
    have := Real.sin_sub_nat_mul_two_pi 45 7
    rw [← this]; congr 1; push_cast; ring
  have ec : Real.cos 45 = Real.cos (45 - 14 * Real.pi) := by
    have := Real.cos_sub_nat_mul_two_pi 45 7
    rw [← this]; congr 1; push_cast; ring
  rw [es, ec, ← Real.sin_pi_div_two_sub]
  norm_num at h1 h2
  exact Real.sin_lt_sin_of_lt_of_le_pi_div_two (by linarith) (by linarith) (by linarith)

/-! ### The flight -/

/-- A step of the burn moves the position with the time since the ignition instead of the duration of the step: over the 1.847 seconds of the burn the positions move for 16.823 seconds. -/
theorem times_used : ((table.map (·.2)).take 23).sum = 16823 ∧ (durations.take 23).sum = 1847 := by decide

theorem burnStep_heights (alt : Vec → ℝ) (a b c d : ℝ) (s : Flight) :
    (burnStep alt a b c d s).pos = ⟨s.pos.x + a * s.vel.x, s.pos.y + a * s.vel.y, s.pos.z + a * s.vel.z⟩ ∧ (burnStep alt a b c d s).heights = s.heights ++ [(burnStep alt a b c d s).pos.z] := by
  simp only [burnStep, mul_comm a, and_self]

theorem burn_prefix (alt : Vec → ℝ) : ∀ l s, ∃ more, (burn alt l s).heights = s.heights ++ more ∧ more.length = l.length
  | [], s => ⟨[], by simp [burn], rfl⟩
  | (a, b, c, d) :: l, s => by
    obtain ⟨more, e, hl⟩ := burn_prefix alt l (burnStep alt a b c d s)
    exact ⟨_ :: more, by rw [burn, e, (burnStep_heights alt a b c d s).2, List.append_assoc]; rfl, by simp [hl]⟩

theorem fall_prefix (alt : Vec → ℝ) (r : ℝ) : ∀ k s s', fall alt r k s = some s' → ∃ more, s'.heights = s.heights ++ more ∧ s'.r ≤ r
  | 0, s, s', h => by
    simp only [fall] at h
    split at h
    · simp at h
    · rename_i hr
      cases h
      exact ⟨[], by simp, not_lt.1 hr⟩
  | k + 1, s, s', h => by
    simp only [fall] at h
    split at h
    · obtain ⟨more, e, hr⟩ := fall_prefix alt r k _ s' h
      exact ⟨_ :: more, by rw [e]; simp only [fallStep, List.append_assoc]; rfl, hr⟩
    · rename_i hr
      cases h
      exact ⟨[], by simp, not_lt.1 hr⟩

theorem foldl_max_ge (l : List ℝ) : ∀ a : ℝ, a ≤ l.foldl max a ∧ (∀ x ∈ l, x ≤ l.foldl max a) ∧ (l.foldl max a = a ∨ l.foldl max a ∈ l) := by
  induction l with
  | nil => intro a; simp
  | cons x l ih =>
    intro a
    obtain ⟨h1, h2, h3⟩ := ih (max a x)
    simp only [List.foldl_cons]
    refine ⟨(le_max_left _ _).trans h1, ?_, ?_⟩
    · intro y hy
      rcases List.mem_cons.1 hy with rfl | hy
      · exact (le_max_right _ _).trans h1
      · exact h2 y hy
    · rcases h3 with h3 | h3
      · rcases max_choice a x with h | h
        · left; rw [h3, h]
        · right; rw [h3, h]; exact List.mem_cons_self
      · right; exact List.mem_cons_of_mem _ h3

/-- **The value is one minus the largest height** (the coordinate `z`) over the one of the comment: the launch and the 23 positions of the burn are among the heights; the flight ends when
the distance to the center is at most the one of the launch. So the value is at most the one of staying at the launch. -/
theorem rocket_spec (alt : Vec → ℝ) (launch : Vec) (fuel : Nat) (bias : List ℝ) (v : ℝ) (h : rocket alt launch fuel bias = some v) :
    bias.length = 24 ∧ ∃ heights : List ℝ, heights.head? = some launch.z ∧ 24 ≤ heights.length ∧ (∀ z ∈ heights, v ≤ 1 - z / 3032708.353202) ∧
      (∃ z ∈ heights, v = 1 - z / 3032708.353202) ∧ v ≤ 1 - launch.z / 3032708.353202 := by
  by_cases hl : bias.length = 24
  · refine ⟨hl, ?_⟩
    obtain ⟨ms, e, hms, _⟩ := masses_ok hl
    simp only [rocket, hl, ne_eq, not_true_eq_false, if_false, e, Option.bind_some, Option.map_eq_some_iff] at h
    obtain ⟨s, hs, rfl⟩ := h
    obtain ⟨more, e1, _⟩ := fall_prefix alt _ _ _ _ hs
    obtain ⟨more', e2, hlen⟩ := burn_prefix alt (List.take 23 (List.zip (table.map fun (e : Nat × Nat) => (e.2 : ℝ) / 1000)
      (List.zip (durations.map fun (d : Nat) => (d : ℝ) / 1000) (List.zip (normalized bias) ms)))) ⟨launch, ⟨0, 0, 0⟩, 0, [launch.z]⟩
    have ed : durations.length = 24 := by decide
    have et : table.length = 25 := by decide
    have h23 : more'.length = 23 := by
      rw [hlen]; simp [length_normalized hl, hms, ed, et]
    rw [e2] at e1
    have hne : launch.z ∈ s.heights := by rw [e1]; simp
    obtain ⟨g1, g2, g3⟩ := foldl_max_ge s.heights launch.z
    have mono : ∀ a b : ℝ, a ≤ b → 1 - b / 3032708.353202 ≤ 1 - a / 3032708.353202 := fun a b hab =>
      sub_le_sub_left (div_le_div_of_nonneg_right hab (by norm_num)) 1
    refine ⟨s.heights, by rw [e1]; simp, by rw [e1]; simp; omega, fun z hz => mono _ _ (g2 z hz), ?_, mono _ _ g1⟩
    rcases g3 with g3 | g3
    · exact ⟨launch.z, hne, by rw [g3]⟩
    · exact ⟨_, g3, rfl⟩
  · simp [rocket, hl] at h

/-- With 24 biases only the loop after the burn can keep the value from being given. -/
theorem rocket_some (alt : Vec → ℝ) (launch : Vec) (fuel : Nat) (bias : List ℝ) (h : bias.length = 24)
    (hf : ∀ s, ∃ s', fall alt launch.norm fuel s = some s') : ∃ v, rocket alt launch fuel bias = some v := by
  obtain ⟨ms, e, _⟩ := masses_ok h
  simp only [rocket, h, ne_eq, not_true_eq_false, if_false, e, Option.bind_some]
  obtain ⟨s', hs⟩ := hf (burn alt (List.take 23 (List.zip (table.map fun (e : Nat × Nat) => (e.2 : ℝ) / 1000)
      (List.zip (durations.map fun (d : Nat) => (d : ℝ) / 1000) (List.zip (normalized bias) ms)))) ⟨launch, ⟨0, 0, 0⟩, 0, [launch.z]⟩)
  exact ⟨_, by rw [hs]; rfl⟩

/-- Without changes the thrusts are the ones of the table. -/
theorem normalized_zero : normalized (List.replicate 24 0) = given := by
  have e : biased (List.replicate 24 0) = given := by
    simp [biased, given, thrusts, table, List.replicate]
  have h : impulse given ≠ 0 := by rw [impulse_eq]; norm_num
  simp only [normalized, e, mul_div_assoc, div_self h, mul_one, List.map_id']

example : (gravity ⟨3, 0, 4⟩ 1).x ^ 2 + (gravity ⟨3, 0, 4⟩ 1).y ^ 2 + (gravity ⟨3, 0, 4⟩ 1).z ^ 2 = newton 5 1 ^ 2 * (1 + 16 / 25) := by
  have h5 : (Vec.mk 3 0 4).norm = 5 := by
    rw [Vec.norm]; norm_num
    rw [show (25 : ℝ) = 5 ^ 2 by norm_num, Real.sqrt_sq (by norm_num)]
  have := (gravity_partial ⟨3, 0, 4⟩ 1 one_pos (by norm_num)).2.2.2.2
  rw [h5] at this
  rw [this]; norm_num

example : masses 4 [1, 3] 0.024 = some [0.0472 + 0.018, 0.0472 + 0.0045] := by
  norm_num [masses, rocMass]

end NG.Rocket
