/-
The metrics of point sets on the sphere and the descents of the Riesz energy of `nevergrad/common/sphere.py` (C148).
-/
import Verif.Model.SphereMetric
import Verif.Props.SphereSearch
import Mathlib.Algebra.Order.BigOperators.Group.Finset

namespace NG.SphereMetric

open NG.Sphere

variable {n : Nat}

theorem inner_eq (shape : List Nat) (x y : Pt) : inner shape x y = dot shape x y := rfl

theorem list_sum_sum {ι : Type} [Fintype ι] (l : List (List Nat)) (f : ι → List Nat → ℝ) :
    (l.map fun e => ∑ k, f k e).sum = ∑ k, (l.map fun e => f k e).sum := by
  induction l with
  | nil => simp
  | cons e l ih => simp only [List.map_cons, List.sum_cons, ih, Finset.sum_add_distrib]

theorem dot_sum_left (shape : List Nat) (u : Fin n → Pt) (y : Pt) : dot shape (fun e => ∑ k, u k e) y = ∑ k, dot shape (u k) y := by
  simp only [dot, Finset.sum_mul]
  exact list_sum_sum _ fun k e => u k e * y e

theorem dot_sum (shape : List Nat) (u : Fin n → Pt) :
    sumsq shape (fun e => ∑ k, u k e) = ∑ i, ∑ j, dot shape (u i) (u j) := by
  rw [← dot_self, dot_sum_left]
  refine Finset.sum_congr rfl fun i _ => ?_
  rw [dot_comm, dot_sum_left]
  exact Finset.sum_congr rfl fun j _ => dot_comm _ _ _

theorem self_of_unit (shape : List Nat) (p : Pt) (h : norm shape p = 1) : dot shape p p = 1 := by
  rw [dot_self, ← norm_sq, h]
  norm_num

theorem score_sum (shape : List Nat) (u : Fin n → Pt) (hu : ∀ k, norm shape (u k) = 1) :
    ∑ i, ∑ j, score shape u i j = norm shape (fun e => ∑ k, u k e) ^ 2 - n := by
  rw [norm_sq, dot_sum]
  have : ∀ i, ∑ j, score shape u i j = (∑ j, dot shape (u i) (u j)) - 1 := by
    intro i
    rw [eq_sub_iff_add_eq]
    have h1 : (1 : ℝ) = ∑ j, if i = j then dot shape (u i) (u j) else 0 := by
      rw [Finset.sum_ite_eq, if_pos (Finset.mem_univ _), self_of_unit _ _ (hu i)]
    rw [h1, ← Finset.sum_add_distrib]
    refine Finset.sum_congr rfl fun j _ => ?_
    simp only [score, inner_eq]
    split <;> simp
  simp only [this, Finset.sum_sub_distrib]
  simp

/-- The points that the metrics can normalize: the blurred point is not zero, or what is drawn instead is not. -/
def Fit (shape : List Nat) (blur : Pt → Pt) (again x : Fin n → Pt) : Prop := ∀ k, 0 < norm shape (blur (x k)) ∨ 0 < norm shape (again k)

theorem blurred_unit (shape : List Nat) (blur : Pt → Pt) (again x : Fin n → Pt) (h : Fit shape blur again x) (k : Fin n) :
    norm shape (blurred shape blur again x k) = 1 := norm_unit _ _ _ (h k)

theorem on_sphere (shape : List Nat) (u : Fin n → Pt) (hu : ∀ k, norm shape (u k) = 1) : onSphere shape u := by
  intro i
  rw [inner_eq, self_of_unit _ _ (hu i)]
  norm_num

theorem sumsq_zero (f : Pt) : ∀ l : List (List Nat), (l.map fun e => f e ^ 2).sum = 0 → ∀ e ∈ l, f e = 0
  | [], _, _, he => absurd he List.not_mem_nil
  | a :: l, h, e, he => by
    rw [List.map_cons, List.sum_cons] at h
    have h1 : 0 ≤ (l.map fun e => f e ^ 2).sum := List.sum_nonneg fun v hv => by
      obtain ⟨i, -, rfl⟩ := List.mem_map.1 hv
      positivity
    have h2 : f a ^ 2 = 0 := by nlinarith [sq_nonneg (f a)]
    rcases List.mem_cons.1 he with rfl | he
    · exact pow_eq_zero_iff two_ne_zero |>.1 h2
    · exact sumsq_zero f l (by linarith) e he

/-- `metric_pack_avg` is given by the sum of the points alone: `n²` times it is the squared norm of the sum, minus `n`. -/
theorem pack_avg_value (shape : List Nat) (blur : Pt → Pt) (again x : Fin n → Pt) (hn : 0 < n) (h : Fit shape blur again x) :
    ∃ v, packAvg shape blur again x = some v ∧ v * n ^ 2 = norm shape (fun e => ∑ k, blurred shape blur again x k e) ^ 2 - n := by
  have hu := blurred_unit shape blur again x h
  have hn' : (0 : ℝ) < n := Nat.cast_pos.2 hn
  refine ⟨_, if_pos ⟨hn, on_sphere shape _ hu⟩, ?_⟩
  rw [score_sum _ _ hu]
  push_cast
  field_simp

/-- `metric_pack_avg` is between `-1/n` and `1 - 1/n`, and it is `-1/n` for the point sets whose sum is zero, and for these only. -/
theorem pack_avg_least (shape : List Nat) (blur : Pt → Pt) (again x : Fin n → Pt) (hn : 0 < n) (h : Fit shape blur again x) :
    ∃ v, packAvg shape blur again x = some v ∧ -(1 / n) ≤ v ∧ v ≤ 1 - 1 / n ∧
      (v = -(1 / n) ↔ ∀ e ∈ indices shape, ∑ k, blurred shape blur again x k e = 0) := by
  obtain ⟨v, hv, hs⟩ := pack_avg_value shape blur again x hn h
  have hn' : (0 : ℝ) < n := Nat.cast_pos.2 hn
  have hu := blurred_unit shape blur again x h
  have hle : norm shape (fun e => ∑ k, blurred shape blur again x k e) ^ 2 ≤ n ^ 2 := by
    rw [norm_sq, dot_sum]
    calc ∑ i, ∑ j, dot shape (blurred shape blur again x i) (blurred shape blur again x j) ≤ ∑ _i : Fin n, ∑ _j : Fin n, (1 : ℝ) :=
          Finset.sum_le_sum fun i _ => Finset.sum_le_sum fun j _ => (dot_bounds shape _ _ (hu i) (hu j)).2
      _ = n ^ 2 := by simp [pow_two]
  refine ⟨v, hv, ?_, ?_, ?_⟩
  · rw [neg_le_iff_add_nonneg]
    have : (v + 1 / n) * n ^ 2 = norm shape (fun e => ∑ k, blurred shape blur again x k e) ^ 2 := by
      rw [add_mul, hs]
      field_simp
      ring
    by_contra hc
    push Not at hc
    have : (v + 1 / n) * n ^ 2 < 0 := mul_neg_of_neg_of_pos hc (by positivity)
    nlinarith [sq_nonneg (norm shape (fun e => ∑ k, blurred shape blur again x k e))]
  · by_contra hc
    push Not at hc
    have : (1 - 1 / n) * n ^ 2 < v * (n : ℝ) ^ 2 := mul_lt_mul_of_pos_right hc (by positivity)
    rw [hs] at this
    have h2 : (1 - 1 / (n : ℝ)) * n ^ 2 = n ^ 2 - n := by field_simp
    rw [h2] at this
    linarith
  · have h2 : v = -(1 / n) ↔ norm shape (fun e => ∑ k, blurred shape blur again x k e) ^ 2 = 0 := by
      constructor
      · intro hv2
        rw [hv2] at hs
        have : -(1 / (n : ℝ)) * n ^ 2 = -n := by field_simp
        linarith
      · intro h0
        rw [h0] at hs
        have hne : (n : ℝ) ^ 2 ≠ 0 := by positivity
        apply mul_right_cancel₀ hne
        rw [hs]
        field_simp
        ring
    rw [h2, norm_sq, sumsq]
    constructor
    · intro h0 e he
      exact sumsq_zero (fun e => ∑ k, blurred shape blur again x k e) _ h0 e he
    · intro h0
      apply List.sum_eq_zero
      intro a ha
      obtain ⟨i, hi, rfl⟩ := List.mem_map.1 ha
      rw [h0 i hi]
      norm_num

/-- `metric_pack_absavg` is between zero and `1 - 1/n`, is not less than `metric_pack_avg`, and is zero if and only if the points are orthogonal to one another. -/
theorem pack_abs_spec (shape : List Nat) (blur : Pt → Pt) (again x : Fin n → Pt) (hn : 0 < n) (h : Fit shape blur again x) :
    ∃ v a, packAvg shape blur again x = some v ∧ packAbs shape blur again x = some a ∧ |v| ≤ a ∧ a ≤ 1 - 1 / n ∧
      (a = 0 ↔ ∀ i j, i ≠ j → dot shape (blurred shape blur again x i) (blurred shape blur again x j) = 0) := by
  have hu := blurred_unit shape blur again x h
  have hn' : (0 : ℝ) < n := Nat.cast_pos.2 hn
  have hc : 0 < n ∧ onSphere shape (blurred shape blur again x) := ⟨hn, on_sphere shape _ hu⟩
  have hpos : (0 : ℝ) < ((n ^ 2 : ℕ) : ℝ) := by positivity
  refine ⟨_, _, if_pos hc, if_pos hc, ?_, ?_, ?_⟩
  · rw [abs_div, abs_of_pos hpos]
    apply div_le_div_of_nonneg_right _ hpos.le
    refine (Finset.abs_sum_le_sum_abs _ _).trans (Finset.sum_le_sum fun i _ => Finset.abs_sum_le_sum_abs _ _)
  · rw [div_le_iff₀ hpos]
    have h1 : ∀ i, ∑ j, |score shape (blurred shape blur again x) i j| ≤ n - 1 := by
      intro i
      rw [le_sub_iff_add_le]
      have h1 : (1 : ℝ) = ∑ j, if i = j then (1 : ℝ) else 0 := by
        rw [Finset.sum_ite_eq, if_pos (Finset.mem_univ _)]
      rw [h1, ← Finset.sum_add_distrib]
      calc _ ≤ ∑ _j : Fin n, (1 : ℝ) := by
            refine Finset.sum_le_sum fun j _ => ?_
            simp only [score, inner_eq]
            split
            · simp
            · rw [add_zero, abs_le]
              exact dot_bounds shape _ _ (hu i) (hu j)
        _ = n := by simp
    refine (Finset.sum_le_sum fun i _ => h1 i).trans ?_
    simp only [Finset.sum_const, Finset.card_univ, Fintype.card_fin, nsmul_eq_mul]
    push_cast
    apply le_of_eq
    field_simp
  · rw [div_eq_zero_iff, or_iff_left hpos.ne', Finset.sum_eq_zero_iff_of_nonneg fun i _ => Finset.sum_nonneg fun j _ => abs_nonneg _]
    constructor
    · intro h0 i j hij
      have := (Finset.sum_eq_zero_iff_of_nonneg fun j _ => abs_nonneg _).1 (h0 i (Finset.mem_univ _)) j (Finset.mem_univ _)
      rw [abs_eq_zero, score, if_neg hij] at this
      exact this
    · intro h0 i _
      refine Finset.sum_eq_zero fun j _ => ?_
      rw [abs_eq_zero, score]
      split
      · rfl
      · rename_i hij
        exact h0 i j hij

/-! ### Pairs of opposite points -/

/-- The blur of the opposite is the opposite of the blur: the case of a linear filter, and of no blur. -/
def Odd (blur : Pt → Pt) : Prop := ∀ p, blur (fun e => -p e) = fun e => -blur p e

/-- The points of `antithetic_pm` for `2 * m` points: the first `m` and their opposites. -/
theorem pm_split (shape : List Nat) (m : Nat) (draw again : Nat → Pt) :
    antitheticPm shape (2 * m) draw again =
      normalize shape again ((List.range m).map draw) ++ (normalize shape again ((List.range m).map draw)).map fun p i => -p i := by
  rw [antitheticPm]
  have h : (normalize shape again ((List.range m).map draw)).length = m := by rw [normalize_length]; simp
  have h2 : 2 * m / 2 = m := by omega
  simp only [h2]
  rw [if_neg]
  rw [List.length_append, List.length_map, h]
  omega

theorem unit_neg (shape : List Nat) (a b p : Pt) (hp : 0 < norm shape p) : unit shape a (fun e => -p e) = fun e => -unit shape b p e := by
  rw [unit, unit, norm_neg, if_pos hp, if_pos hp]
  exact funext fun e => by ring

theorem sum_get (l : List Pt) (f : Pt → ℝ) : ∑ k : Fin l.length, f l[k] = (l.map f).sum := by
  rw [← List.sum_ofFn]
  congr 1
  apply List.ext_getElem
  · simp
  · intro i h1 h2
    simp

/-- No point set does better than `antithetic_pm` for `metric_pack_avg`, with or without a blur: an even number of points has the value `-1/n`. -/
theorem antithetic_best (shape : List Nat) (blur : Pt → Pt) (hb : Odd blur) (m : Nat) (hm : 0 < m) (draw again : Nat → Pt)
    (hpos : ∀ p ∈ antitheticPm shape (2 * m) draw again, 0 < norm shape (blur p))
    (again' : Fin (antitheticPm shape (2 * m) draw again).length → Pt) :
    packAvg shape blur again' (fun k => (antitheticPm shape (2 * m) draw again)[k]) = some (-(1 / ((2 * m : ℕ) : ℝ))) := by
  have hlen : (antitheticPm shape (2 * m) draw again).length = 2 * m := by
    rw [pm_split, List.length_append, List.length_map, normalize_length]
    simp
    omega
  obtain ⟨v, hv, -, -, hiff⟩ := pack_avg_least shape blur again' (fun k => (antitheticPm shape (2 * m) draw again)[k]) (by omega)
    (fun k => Or.inl (hpos _ (List.getElem_mem _)))
  rw [hv, ← hlen]
  refine congrArg some (hiff.2 ?_)
  intro e _
  have hcong : ∀ k : Fin (antitheticPm shape (2 * m) draw again).length,
      blurred shape blur again' (fun k => (antitheticPm shape (2 * m) draw again)[k]) k e =
        (fun p => unit shape (fun _ => 0) (blur p) e) (antitheticPm shape (2 * m) draw again)[k] := by
    intro k
    have := hpos _ (List.getElem_mem k.2)
    show unit shape (again' k) (blur (antitheticPm shape (2 * m) draw again)[k.1]) e = unit shape (fun _ => 0) (blur (antitheticPm shape (2 * m) draw again)[k.1]) e
    rw [unit, unit, if_pos this, if_pos this]
  rw [Finset.sum_congr rfl fun k _ => hcong k, sum_get _ (fun p => unit shape (fun _ => 0) (blur p) e)]
  rw [pm_split, List.map_append, List.sum_append, List.map_map]
  have hneg : ∀ p ∈ normalize shape again ((List.range m).map draw),
      ((fun p => unit shape (fun _ => 0) (blur p) e) ∘ fun p i => -p i) p = -(unit shape (fun _ => 0) (blur p) e) := by
    intro p hp
    show unit shape _ (blur fun i => -p i) e = _
    rw [hb p, unit_neg shape _ (fun _ => 0) (blur p) (hpos p (by rw [pm_split]; exact List.mem_append_left _ hp))]
  rw [List.map_congr_left hneg]
  have : ∀ (l : List Pt) (f : Pt → ℝ), (l.map f).sum + (l.map fun p => -f p).sum = 0 := by
    intro l f
    induction l with
    | nil => simp
    | cons a l ih => simp only [List.map_cons, List.sum_cons]; linarith
  exact this _ _

/-- Two opposite points, without a blur: the value is `-1/2`, the least one. -/
example : packAvg [1] id (fun _ _ => 1) (![fun _ => 3, fun _ => -2] : Fin 2 → Pt) = some (-(1 / 2)) := by
  obtain ⟨v, hv, -, -, h⟩ := pack_avg_least [1] id (fun _ _ => 1) (![fun _ => 3, fun _ => -2] : Fin 2 → Pt) (by norm_num) (by
    intro k
    right
    simp [Sphere.norm, indices])
  rw [hv]
  refine congrArg some (h.2 ?_)
  intro e he
  have h3 : norm [1] (fun _ => 3) = 3 := by
    simp [Sphere.norm, indices]
  have h2 : norm [1] (fun _ => -2) = 2 := by
    simp [Sphere.norm, indices]
  rw [Fin.sum_univ_two]
  show unit [1] (fun _ => 1) (fun _ => 3) e + unit [1] (fun _ => 1) (fun _ => -2) e = 0
  rw [unit, unit, if_pos (by rw [h3]; norm_num), if_pos (by rw [h2]; norm_num), h2, h3]
  norm_num

/-! ### `metric_half` -/

/-- The number of points on the positive side of a plane. -/
noncomputable def above (shape : List Nat) (x : List Pt) (y : Pt) : Nat := (x.filter fun p => open Classical in decide (0 < dot shape p y)).length

theorem half_eq (shape : List Nat) (x ys : List Pt) :
    metricHalf shape x ys = (ys.map fun y => ((above shape x y : ℝ) / x.length - 0.5) ^ 2).sum / ys.length := rfl

theorem dot_neg (shape : List Nat) (p y : Pt) : dot shape (fun e => -p e) y = -dot shape p y := by
  have := dot_lin shape (-1) 0 p p y
  have h : (fun i => -1 * p i + 0 * p i) = fun e => -p e := funext fun e => by ring
  rw [h] at this
  linarith

/-- Of a point and its opposite, one is on the positive side of a plane that does not hold them. -/
theorem above_pairs (shape : List Nat) (l : List Pt) (y : Pt) (h : ∀ p ∈ l, dot shape p y ≠ 0) :
    above shape (l ++ l.map fun p i => -p i) y = l.length := by
  rw [above, List.filter_append, List.length_append]
  induction l with
  | nil => rfl
  | cons p l ih =>
    have h1 := h p List.mem_cons_self
    have h2 := ih fun q hq => h q (List.mem_cons_of_mem _ hq)
    rw [List.map_cons, List.length_cons]
    by_cases hp : 0 < dot shape p y
    · rw [List.filter_cons_of_pos (by simpa using hp), List.filter_cons_of_neg (by rw [dot_neg]; simp; exact hp.le), List.length_cons]
      omega
    · have hp2 : dot shape p y < 0 := lt_of_le_of_ne (not_lt.1 hp) h1
      rw [List.filter_cons_of_neg (by simpa using hp), List.filter_cons_of_pos (by rw [dot_neg]; simp; exact hp2), List.length_cons]
      omega

/-- An even number of points of `antithetic_pm` is shared equally by the planes that hold none of them: `metric_half` is zero. -/
theorem half_even (shape : List Nat) (m : Nat) (hm : 0 < m) (draw again : Nat → Pt) (ys : List Pt)
    (h : ∀ y ∈ ys, ∀ p ∈ antitheticPm shape (2 * m) draw again, dot shape p y ≠ 0) :
    metricHalf shape (antitheticPm shape (2 * m) draw again) ys = 0 := by
  rw [half_eq]
  have : ∀ a ∈ ys.map (fun y => ((above shape (antitheticPm shape (2 * m) draw again) y : ℝ) / (antitheticPm shape (2 * m) draw again).length - 0.5) ^ 2), a = 0 := by
    intro a ha
    obtain ⟨y, hy, rfl⟩ := List.mem_map.1 ha
    have hl : (normalize shape again ((List.range m).map draw)).length = m := by rw [normalize_length]; simp
    have hy' := h y hy
    rw [pm_split] at hy' ⊢
    rw [above_pairs shape _ y fun p hp => hy' p (List.mem_append_left _ hp), List.length_append, List.length_map, hl]
    have : (m : ℝ) ≠ 0 := Nat.cast_ne_zero.2 hm.ne'
    push_cast
    field_simp
    norm_num
  rw [List.sum_eq_zero this, zero_div]

/-- With an odd number of points no set is shared equally: `metric_half` is at least `1 / (2n)²`. -/
theorem half_odd_least (shape : List Nat) (x ys : List Pt) (hx : x.length % 2 = 1) (hy : ys ≠ []) : 1 / (2 * (x.length : ℝ)) ^ 2 ≤ metricHalf shape x ys := by
  rw [half_eq]
  have hyl : (0 : ℝ) < ys.length := Nat.cast_pos.2 (List.length_pos_of_ne_nil hy)
  have hxl : (0 : ℝ) < x.length := Nat.cast_pos.2 (by omega)
  rw [le_div_iff₀ hyl]
  have key : ∀ y : Pt, 1 / (2 * (x.length : ℝ)) ^ 2 ≤ ((above shape x y : ℝ) / x.length - 0.5) ^ 2 := by
    intro y
    have h1 : ((above shape x y : ℝ) / x.length - 0.5) ^ 2 = (2 * (above shape x y : ℝ) - x.length) ^ 2 / (2 * (x.length : ℝ)) ^ 2 := by
      field_simp
      ring
    rw [h1]
    apply div_le_div_of_nonneg_right _ (by positivity)
    have h2 : (1 : ℤ) ≤ (2 * (above shape x y : ℤ) - x.length) ^ 2 := by
      have : (2 * (above shape x y : ℤ) - x.length) ≠ 0 := by omega
      have := sq_pos_of_ne_zero this
      omega
    exact_mod_cast h2
  have := List.card_nsmul_le_sum (ys.map fun y => ((above shape x y : ℝ) / x.length - 0.5) ^ 2) (1 / (2 * (x.length : ℝ)) ^ 2) (by
    intro a ha
    obtain ⟨y, -, rfl⟩ := List.mem_map.1 ha
    exact key y)
  rw [List.length_map, nsmul_eq_mul, mul_comm] at this
  exact this

/-- An odd number of points of `antithetic_pm` reaches this least value. -/
theorem half_odd (shape : List Nat) (m : Nat) (draw again : Nat → Pt) (ys : List Pt) (hy : ys ≠ [])
    (h : ∀ y ∈ ys, ∀ p ∈ antitheticPm shape (2 * m + 1) draw again, dot shape p y ≠ 0) :
    metricHalf shape (antitheticPm shape (2 * m + 1) draw again) ys = 1 / (2 * ((2 * m + 1 : ℕ) : ℝ)) ^ 2 := by
  have hl : (normalize shape again ((List.range m).map draw)).length = m := by rw [normalize_length]; simp
  have hsplit : antitheticPm shape (2 * m + 1) draw again =
      (normalize shape again ((List.range m).map draw) ++ (normalize shape again ((List.range m).map draw)).map fun p i => -p i) ++ [draw m] := by
    rw [antitheticPm]
    have h2 : (2 * m + 1) / 2 = m := by omega
    simp only [h2]
    rw [if_pos]
    rw [List.length_append, List.length_map, hl]
    omega
  have hlen : (antitheticPm shape (2 * m + 1) draw again).length = 2 * m + 1 := by
    rw [hsplit, List.length_append, List.length_append, List.length_map, hl]
    simp
    omega
  rw [half_eq, hlen]
  have hyl : (ys.length : ℝ) ≠ 0 := Nat.cast_ne_zero.2 (List.length_pos_of_ne_nil hy).ne'
  have key : ∀ y ∈ ys, ((above shape (antitheticPm shape (2 * m + 1) draw again) y : ℝ) / ((2 * m + 1 : ℕ) : ℝ) - 0.5) ^ 2 = 1 / (2 * ((2 * m + 1 : ℕ) : ℝ)) ^ 2 := by
    intro y hy1
    have hy' := h y hy1
    have hcases : above shape (antitheticPm shape (2 * m + 1) draw again) y = m ∨ above shape (antitheticPm shape (2 * m + 1) draw again) y = m + 1 := by
      rw [hsplit] at hy' ⊢
      have h1 := above_pairs shape (normalize shape again ((List.range m).map draw)) y fun p hp =>
        hy' p (List.mem_append_left _ (List.mem_append_left _ hp))
      rw [hl] at h1
      rw [above] at h1 ⊢
      rw [List.filter_append, List.length_append, h1]
      have := List.length_filter_le (fun p => open Classical in decide (0 < dot shape p y)) [draw m]
      simp only [List.length_singleton] at this
      omega
    have hpos : ((2 * m + 1 : ℕ) : ℝ) ≠ 0 := Nat.cast_ne_zero.2 (by omega)
    have hpos' : (2 * (m : ℝ) + 1) ≠ 0 := by positivity
    rcases hcases with hc | hc <;> rw [hc] <;> push_cast <;> field_simp <;> ring
  rw [List.map_congr_left key, List.map_const', List.sum_replicate, nsmul_eq_mul]
  field_simp

/-- Of two points and one plane: the point and its opposite are on the two sides. -/
example : metricHalf [1] (antitheticPm [1] 2 (fun _ _ => 3) fun _ _ => 1) [fun _ => 5] = 0 := by
  refine half_even [1] 1 (by norm_num) _ _ _ ?_
  intro y hy p hp
  rw [List.mem_singleton] at hy
  rw [pm_split] at hp
  have h3 : Sphere.norm [1] (fun _ => 3) = 3 := by simp [Sphere.norm, indices]
  have hu : unit [1] (fun _ => 1) (fun _ => 3) = fun _ => 1 := by
    rw [unit, if_pos (by rw [h3]; norm_num), h3]
    norm_num
  have hn : normalize [1] (fun _ _ => 1) ((List.range 1).map fun _ _ => 3) = [fun _ => 1] := by
    show [unit [1] (fun _ => 1) (fun _ => 3)] = _
    rw [hu]
  rw [hn] at hp
  subst hy
  rcases List.mem_append.1 hp with h | h
  · rw [List.mem_singleton] at h
    subst h
    norm_num [dot, indices]
  · simp only [List.map_cons, List.map_nil, List.mem_singleton] at h
    subst h
    norm_num [dot, indices]

/-! ### `metric_cap` -/

theorem share_bounds (u : Fin n → Pt) (q : Pt → Prop) : 0 ≤ share u q ∧ share u q ≤ 1 := by
  refine ⟨by rw [share]; positivity, ?_⟩
  rw [share]
  rcases Nat.eq_zero_or_pos n with h | h
  · subst h
    simp
  · rw [div_le_one (Nat.cast_pos.2 h)]
    exact_mod_cast (Finset.card_le_univ _).trans (Fintype.card_fin n).le

theorem sum_dev (l : List ℝ) (m : ℝ) : (l.map fun a => (a - m) ^ 2).sum = (l.map fun a => a ^ 2).sum - 2 * m * l.sum + l.length * m ^ 2 := by
  induction l with
  | nil => simp
  | cons a l ih =>
    simp only [List.map_cons, List.sum_cons, ih, List.length_cons]
    push_cast
    ring

/-- The standard deviation of numbers between zero and one is at most one half. -/
theorem std_bounds (l : List ℝ) (h : ∀ a ∈ l, 0 ≤ a ∧ a ≤ 1) : 0 ≤ std l ∧ std l ≤ 1 / 2 := by
  refine ⟨Real.sqrt_nonneg _, ?_⟩
  rw [std]
  rcases List.eq_nil_or_concat l with hl | hl
  · subst hl
    simp
  · have hpos : (0 : ℝ) < l.length := by
      obtain ⟨r, a, rfl⟩ := hl
      simp
      positivity
    rw [show (1 : ℝ) / 2 = Real.sqrt ((1 / 2) ^ 2) from (Real.sqrt_sq (by norm_num)).symm]
    apply Real.sqrt_le_sqrt
    rw [div_le_iff₀ hpos, sum_dev]
    have h2 : (l.map fun a => a ^ 2).sum ≤ l.sum := by
      have : (l.map fun a => a ^ 2).sum ≤ (l.map fun a => a).sum := List.sum_le_sum fun a ha => by
        obtain ⟨h0, h1⟩ := h a ha
        nlinarith
      simpa using this
    generalize l.sum = S at *
    have h3 : (l.length : ℝ) * (S / l.length) ^ 2 = S ^ 2 / l.length := by field_simp
    have h4 : 2 * (S / l.length) * S = 2 * (S ^ 2 / l.length) := by ring
    rw [h3, h4]
    have h5 : S ≤ S ^ 2 / l.length + (1 / 2) ^ 2 * l.length := by
      have : S ^ 2 / l.length + (1 / 2) ^ 2 * l.length - S = (S - l.length / 2) ^ 2 / l.length := by
        field_simp
        ring
      have : 0 ≤ (S - l.length / 2) ^ 2 / (l.length : ℝ) := by positivity
      linarith
    linarith

/-- `metric_cap` is between zero and one half. -/
theorem cap_bounds (shape : List Nat) (blur : Pt → Pt) (again x : Fin n → Pt) (ys : List Pt) :
    0 ≤ metricCap shape blur again x ys ∧ metricCap shape blur again x ys ≤ 1 / 2 := by
  apply std_bounds
  intro a ha
  simp only [capScores] at ha
  obtain ⟨y, -, hy⟩ := List.mem_flatMap.1 ha
  rcases List.mem_cons.1 hy with rfl | hy
  · exact share_bounds _ _
  · rw [List.mem_singleton] at hy
    subst hy
    exact share_bounds _ _

/-- The two caps of a normal hold the same share of a set that is its own opposite. -/
theorem cap_symmetric (shape : List Nat) (u : Fin n → Pt) (opp : Equiv.Perm (Fin n)) (h : ∀ k, u (opp k) = fun e => -u k e) (c : ℝ) (y : Pt) :
    share u (fun p => inner shape p y > c) = share u fun p => inner shape p y < -c := by
  rw [share, share]
  congr 2
  apply Finset.card_bij fun k _ => opp k
  · intro k hk
    rw [Finset.mem_filter] at hk ⊢
    refine ⟨Finset.mem_univ _, ?_⟩
    rw [h k, inner_eq, dot_neg]
    exact neg_lt_neg hk.2
  · intro a _ b _ hab
    exact opp.injective hab
  · intro k hk
    rw [Finset.mem_filter] at hk
    refine ⟨opp.symm k, ?_, opp.apply_symm_apply k⟩
    rw [Finset.mem_filter]
    refine ⟨Finset.mem_univ _, ?_⟩
    have h1 := h (opp.symm k)
    rw [opp.apply_symm_apply] at h1
    have h2 := hk.2
    rw [h1, inner_eq, dot_neg] at h2
    exact neg_lt_neg_iff.1 h2

/-! ### Descents of the Riesz energy -/

theorem weight_nonneg (shape : List Nat) (order : ℝ) (x y : Pt) : 0 ≤ weight shape order x y :=
  div_nonneg zero_le_one (Real.rpow_nonneg (norm_nonneg _ _) _)

theorem norm_sub_comm (shape : List Nat) (x y : Pt) : norm shape (fun e => x e - y e) = norm shape fun e => y e - x e :=
  norm_congr _ _ _ fun i _ => by ring

theorem weight_comm (shape : List Nat) (order : ℝ) (x y : Pt) : weight shape order x y = weight shape order y x := by
  rw [weight, weight, norm_sub_comm]

/-- No two points coincide. -/
def Distinct (shape : List Nat) (x : Fin n → Pt) : Prop := ∀ i j, i ≠ j → norm shape (fun e => x i e - x j e) ≠ 0

theorem force_some (shape : List Nat) (order : ℝ) (x : Fin n → Pt) (h : Distinct shape x) (i : Fin n) :
    force shape order x i = some fun e => ∑ j, if j = i then 0 else (x i e - x j e) * weight shape order (x i) (x j) := by
  rw [force, if_neg]
  rintro ⟨j, hj, h0⟩
  exact h i j hj.symm h0

/-- The forces between the points cancel out: their sum is zero. -/
theorem force_sum (shape : List Nat) (order : ℝ) (x : Fin n → Pt) (h : Distinct shape x) :
    ∃ f : Fin n → Pt, (∀ i, force shape order x i = some (f i)) ∧ ∀ e, ∑ i, f i e = 0 := by
  refine ⟨_, force_some shape order x h, fun e => ?_⟩
  have hanti : ∀ i j : Fin n, (if j = i then (0 : ℝ) else (x i e - x j e) * weight shape order (x i) (x j)) =
      -(if i = j then (0 : ℝ) else (x j e - x i e) * weight shape order (x j) (x i)) := by
    intro i j
    by_cases hij : j = i
    · rw [if_pos hij, if_pos hij.symm, neg_zero]
    · rw [if_neg hij, if_neg (Ne.symm hij), weight_comm]
      ring
  have h1 : ∑ i, ∑ j, (if j = i then (0 : ℝ) else (x i e - x j e) * weight shape order (x i) (x j)) =
      -∑ i, ∑ j, (if j = i then (0 : ℝ) else (x i e - x j e) * weight shape order (x i) (x j)) := by
    conv_lhs => rw [Finset.sum_comm]
    rw [← Finset.sum_neg_distrib]
    refine Finset.sum_congr rfl fun j _ => ?_
    rw [← Finset.sum_neg_distrib]
    exact Finset.sum_congr rfl fun i _ => hanti i j
  linarith

/-- A force does not push a point of the sphere inwards. -/
theorem force_outwards (shape : List Nat) (order : ℝ) (x : Fin n → Pt) (h : Distinct shape x) (hu : ∀ k, norm shape (x k) = 1) (i : Fin n) :
    ∃ f, force shape order x i = some f ∧ 0 ≤ dot shape f (x i) := by
  refine ⟨_, force_some shape order x h i, ?_⟩
  have h1 := dot_sum_left shape (fun (j : Fin n) e => if j = i then (0 : ℝ) else (x i e - x j e) * weight shape order (x i) (x j)) (x i)
  rw [h1]
  refine Finset.sum_nonneg fun j _ => ?_
  by_cases hij : j = i
  · simp [hij, dot]
  · simp only [if_neg hij]
    have h2 : (fun e => (x i e - x j e) * weight shape order (x i) (x j)) =
        fun e => weight shape order (x i) (x j) * x i e + -weight shape order (x i) (x j) * x j e := funext fun e => by ring
    rw [h2, dot_lin, self_of_unit _ _ (hu i)]
    have h3 := (dot_bounds shape (x j) (x i) (hu j) (hu i)).2
    have h4 := weight_nonneg shape order (x i) (x j)
    nlinarith

theorem norm_add_ge (shape : List Nat) (p f : Pt) (c : ℝ) (hc : 0 ≤ c) (hp : norm shape p = 1) (hf : 0 ≤ dot shape f p) : 1 ≤ norm shape fun e => p e + c * f e := by
  have h1 := sumsq_lin shape 1 c p f
  have h2 : (fun i => 1 * p i + c * f i) = fun e => p e + c * f e := funext fun e => by ring
  rw [h2, ← norm_sq, ← norm_sq, hp, dot_comm] at h1
  have h3 := sumsq_nonneg shape f
  have h4 := norm_nonneg shape fun e => p e + c * f e
  have h5 : 0 ≤ c * dot shape f p := mul_nonneg hc hf
  have h6 : 0 ≤ c ^ 2 * sumsq shape f := mul_nonneg (sq_nonneg _) h3
  by_contra hlt
  push Not at hlt
  nlinarith

/-- From distinct points of the sphere, a step of the descent without blur needs no new draw, and gives points of the sphere: each point plus its force, divided by
a norm that is at least one. -/
theorem noblur_spec (shape : List Nat) (blur : Pt → Pt) (order stepSize : ℝ) (again x : Fin n → Pt) (h : Distinct shape x) (hu : ∀ k, norm shape (x k) = 1) (i : Fin n) :
    ∃ f N, force shape order x i = some f ∧ 1 ≤ N ∧ (noblurStep shape blur order stepSize again x i = fun e => (x i e + f e) / N) ∧
      norm shape (noblurStep shape blur order stepSize again x i) = 1 := by
  obtain ⟨f, hf, hd⟩ := force_outwards shape order x h hu i
  have hN := norm_add_ge shape (x i) f 1 zero_le_one (hu i) hd
  simp only [one_mul] at hN
  have heq : noblurStep shape blur order stepSize again x i = fun e => (x i e + f e) / norm shape fun e => x i e + f e := by
    rw [noblurStep, hf, move, unit, if_pos (by linarith)]
  refine ⟨f, _, hf, hN, heq, ?_⟩
  rw [heq]
  exact norm_div shape _ (by linarith)

/-- Points that coincide are drawn again. -/
theorem coincide_redrawn (shape : List Nat) (blur : Pt → Pt) (order stepSize : ℝ) (again x : Fin n → Pt) (i j : Fin n) (hij : j ≠ i)
    (h : norm shape (fun e => x i e - x j e) = 0) :
    noblurStep shape blur order stepSize again x i = (fun e => again i e / norm shape (again i)) ∧
      blursumStep shape blur order stepSize again x i = fun e => again i e / norm shape (again i) := by
  have : force shape order x i = none := if_pos ⟨j, hij, h⟩
  rw [noblurStep, blursumStep, this]
  exact ⟨rfl, rfl⟩

/-- Two distinct points of the sphere: a step does not bring them closer. -/
theorem two_points (shape : List Nat) (blur : Pt → Pt) (order stepSize : ℝ) (again x : Fin 2 → Pt) (h : Distinct shape x) (hu : ∀ k, norm shape (x k) = 1) :
    dot shape (noblurStep shape blur order stepSize again x 0) (noblurStep shape blur order stepSize again x 1) ≤ dot shape (x 0) (x 1) ∧
      norm shape (fun e => x 0 e - x 1 e) ≤
        norm shape fun e => noblurStep shape blur order stepSize again x 0 e - noblurStep shape blur order stepSize again x 1 e := by
  set w := weight shape order (x 0) (x 1) with hw
  have hw0 : 0 ≤ w := weight_nonneg _ _ _ _
  set c := dot shape (x 0) (x 1) with hc
  have hcb := dot_bounds shape (x 0) (x 1) (hu 0) (hu 1)
  rw [← hc] at hcb
  have f0 : force shape order x 0 = some fun e => (x 0 e - x 1 e) * w := by
    rw [force_some shape order x h]
    congr 1
    funext e
    rw [Fin.sum_univ_two]
    simp [hw]
  have f1 : force shape order x 1 = some fun e => (x 1 e - x 0 e) * w := by
    rw [force_some shape order x h]
    congr 1
    funext e
    rw [Fin.sum_univ_two]
    simp [hw, weight_comm shape order (x 1) (x 0)]
  have s0 := self_of_unit shape (x 0) (hu 0)
  have s1 := self_of_unit shape (x 1) (hu 1)
  have q0 : sumsq shape (x 0) = 1 := by rw [← dot_self, s0]
  have q1 : sumsq shape (x 1) = 1 := by rw [← dot_self, s1]
  have e0 : (fun e => x 0 e + (x 0 e - x 1 e) * w) = fun e => (1 + w) * x 0 e + -w * x 1 e := funext fun e => by ring
  have e1 : (fun e => x 1 e + (x 1 e - x 0 e) * w) = fun e => -w * x 0 e + (1 + w) * x 1 e := funext fun e => by ring
  set A := (1 - c) * (2 * w + 2 * w ^ 2) with hA
  have hA0 : 0 ≤ A := mul_nonneg (by linarith) (by positivity)
  have n0 : norm shape (fun e => x 0 e + (x 0 e - x 1 e) * w) = Real.sqrt (1 + A) := by
    rw [e0, Sphere.norm]
    congr 1
    rw [show ((indices shape).map fun i => ((1 + w) * x 0 i + -w * x 1 i) ^ 2).sum = _ from sumsq_lin shape (1 + w) (-w) (x 0) (x 1), q0, q1, ← hc]
    rw [hA]
    ring
  have n1 : norm shape (fun e => x 1 e + (x 1 e - x 0 e) * w) = Real.sqrt (1 + A) := by
    rw [e1, Sphere.norm]
    congr 1
    rw [show ((indices shape).map fun i => (-w * x 0 i + (1 + w) * x 1 i) ^ 2).sum = _ from sumsq_lin shape (-w) (1 + w) (x 0) (x 1), q0, q1, ← hc]
    rw [hA]
    ring
  set N := Real.sqrt (1 + A) with hN
  have hNpos : 0 < N := Real.sqrt_pos.2 (by linarith)
  have hN2 : N ^ 2 = 1 + A := Real.sq_sqrt (by linarith)
  have g0 : noblurStep shape blur order stepSize again x 0 = fun e => (1 + w) / N * x 0 e + -w / N * x 1 e := by
    rw [noblurStep, f0, move, unit, n0, if_pos hNpos]
    funext e
    ring
  have g1 : noblurStep shape blur order stepSize again x 1 = fun e => -w / N * x 0 e + (1 + w) / N * x 1 e := by
    rw [noblurStep, f1, move, unit, n1, if_pos hNpos]
    funext e
    ring
  have hdot : dot shape (noblurStep shape blur order stepSize again x 0) (noblurStep shape blur order stepSize again x 1) = (c - A) / (1 + A) := by
    have d0 : dot shape (x 0) (fun e => -w / N * x 0 e + (1 + w) / N * x 1 e) = -w / N + (1 + w) / N * c := by
      rw [dot_comm, dot_lin, s0, dot_comm shape (x 1) (x 0), ← hc, mul_one]
    have d1 : dot shape (x 1) (fun e => -w / N * x 0 e + (1 + w) / N * x 1 e) = -w / N * c + (1 + w) / N := by
      rw [dot_comm, dot_lin, s1, ← hc, mul_one]
    rw [g0, g1, dot_lin, d0, d1, ← hN2]
    field_simp
    rw [hA]
    ring
  have hle : (c - A) / (1 + A) ≤ c := by
    rw [div_le_iff₀ (by linarith)]
    nlinarith [mul_nonneg hA0 (by linarith : (0 : ℝ) ≤ 1 + c)]
  refine ⟨hdot ▸ hle, ?_⟩
  have u0 := (noblur_spec shape blur order stepSize again x h hu 0)
  have u1 := (noblur_spec shape blur order stepSize again x h hu 1)
  obtain ⟨-, -, -, -, -, u0⟩ := u0
  obtain ⟨-, -, -, -, -, u1⟩ := u1
  apply le_of_sq_le_sq _ (norm_nonneg _ _)
  rw [norm_sub_sq, norm_sub_sq, ← norm_sq, ← norm_sq, ← norm_sq, ← norm_sq, u0, u1, hu 0, hu 1, hdot, ← hc]
  linarith

/-- Two opposite points stay where they are. -/
theorem opposite_fixed (shape : List Nat) (blur : Pt → Pt) (order stepSize : ℝ) (again x : Fin 2 → Pt) (hu : norm shape (x 0) = 1) (hx : x 1 = fun e => -x 0 e) :
    noblurStep shape blur order stepSize again x 0 = x 0 ∧ noblurStep shape blur order stepSize again x 1 = x 1 := by
  have h2 : norm shape (fun e => x 0 e - x 1 e) = 2 := by
    have h1 := norm_scale shape 2 (by norm_num) (x 0)
    rw [hu] at h1
    rw [hx]
    have : (fun e => x 0 e - -x 0 e) = fun e => 2 * x 0 e := funext fun e => by ring
    rw [this, h1]
    norm_num
  have hd : Distinct shape x := by
    intro i j hij
    fin_cases i <;> fin_cases j
    · exact absurd rfl hij
    · show norm shape (fun e => x 0 e - x 1 e) ≠ 0
      rw [h2]
      norm_num
    · show norm shape (fun e => x 1 e - x 0 e) ≠ 0
      rw [norm_sub_comm, h2]
      norm_num
    · exact absurd rfl hij
  have hu1 : norm shape (x 1) = 1 := by rw [hx, norm_neg, hu]
  set w := weight shape order (x 0) (x 1) with hw
  have hw0 : 0 ≤ w := weight_nonneg _ _ _ _
  have hpos : 0 < 1 + 2 * w := by linarith
  have key : ∀ p : Pt, norm shape p = 1 → ∀ a, unit shape a (fun e => (1 + 2 * w) * p e) = p := by
    intro p hp a
    rw [unit, norm_scale shape _ hpos.le, hp, mul_one, if_pos hpos]
    funext e
    field_simp
  constructor
  · rw [noblurStep, force_some shape order x hd, move]
    have : (fun e => x 0 e + ∑ j, if j = 0 then 0 else (x 0 e - x j e) * weight shape order (x 0) (x j)) = fun e => (1 + 2 * w) * x 0 e := by
      funext e
      rw [Fin.sum_univ_two]
      simp only [if_true, Fin.isValue, one_ne_zero, if_false, ← hw]
      rw [hx]
      ring
    rw [this]
    exact key _ hu _
  · rw [noblurStep, force_some shape order x hd, move]
    have : (fun e => x 1 e + ∑ j, if j = 1 then 0 else (x 1 e - x j e) * weight shape order (x 1) (x j)) = fun e => (1 + 2 * w) * x 1 e := by
      funext e
      rw [Fin.sum_univ_two]
      simp only [if_true, Fin.isValue, zero_ne_one, if_false, weight_comm shape order (x 1) (x 0), ← hw]
      rw [hx]
      ring
    rw [this]
    exact key _ hu1 _

/-- The step size is read by the descent on blurred points only. -/
theorem step_size_ignored (shape : List Nat) (blur : Pt → Pt) (order s t : ℝ) (again x : Fin n → Pt) :
    noblurStep shape blur order s again x = noblurStep shape blur order t again x ∧ blursumStep shape blur order s again x = blursumStep shape blur order t again x :=
  ⟨rfl, rfl⟩

/-- Without a blur the three descents are the same, except for the step size of the first one: its default of 10 is not the step of the others. -/
theorem same_without_blur (shape : List Nat) (blur : Pt → Pt) (order s : ℝ) (again x : Fin n → Pt) :
    blursumStep shape id order s again x = noblurStep shape blur order s again x ∧ blurredStep shape id order 1 again x = noblurStep shape blur order s again x := by
  constructor
  · funext i
    rw [blursumStep, noblurStep, Option.map_id]
    rfl
  · funext i
    rw [blurredStep, noblurStep]
    simp only [id, one_mul]
    rw [show (fun (f : Pt) e => f e) = id from rfl, Option.map_id]
    rfl

/-- The step of the descent on blurred points: the point plus the step size times the force between the blurred points; it stays on the sphere. -/
theorem blurred_spec (shape : List Nat) (order s : ℝ) (hs : 0 ≤ s) (again x : Fin n → Pt) (h : Distinct shape x) (hu : ∀ k, norm shape (x k) = 1) (i : Fin n) :
    ∃ f N, force shape order x i = some f ∧ 1 ≤ N ∧ (blurredStep shape id order s again x i = fun e => (x i e + s * f e) / N) ∧
      norm shape (blurredStep shape id order s again x i) = 1 := by
  obtain ⟨f, hf, hd⟩ := force_outwards shape order x h hu i
  have hN := norm_add_ge shape (x i) f s hs (hu i) hd
  have heq : blurredStep shape id order s again x i = fun e => (x i e + s * f e) / norm shape fun e => x i e + s * f e := by
    rw [blurredStep]
    simp only [id]
    rw [hf, Option.map_some, move, unit, if_pos (by linarith)]
  refine ⟨f, _, hf, hN, heq, ?_⟩
  rw [heq]
  exact norm_div shape _ (by linarith)

/-- Two opposite points of the line, and a new draw that is not used. -/
example : noblurStep [1] id 2 10 (fun _ _ => 7) (![fun _ => 1, fun _ => -1] : Fin 2 → Pt) 0 = fun _ => 1 :=
  (opposite_fixed [1] id 2 10 (fun _ _ => 7) ![fun _ => 1, fun _ => -1] (by simp [Sphere.norm, indices]) rfl).1

end NG.SphereMetric
