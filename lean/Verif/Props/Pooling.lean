/-
The points chosen by their pooled distances (C149).
-/
import Verif.Model.Pooling
import Verif.Props.SphereMetric
import Mathlib.Algebra.Order.BigOperators.Group.Finset
import Mathlib.Algebra.Order.Chebyshev

namespace NG.Pooling

open NG.Sphere

/-! ### The average of blocks -/

theorem sum_range_list (s : Nat) (g : Nat → ℝ) : ((List.range s).map g).sum = ∑ i ∈ Finset.range s, g i := rfl

theorem indices_sum (s : Nat) (r : List Nat) (f : Pt) : ((indices (s :: r)).map f).sum = ∑ i ∈ Finset.range s, ((indices r).map fun j => f (i :: j)).sum := by
  rw [indices, sum_map_flatMap, sum_range_list]
  refine Finset.sum_congr rfl fun i _ => ?_
  rw [List.map_map]
  rfl

theorem indices_three (a b c : Nat) (r : List Nat) (f : Pt) :
    ((indices (a :: b :: c :: r)).map f).sum = ∑ i ∈ Finset.range a, ∑ j ∈ Finset.range b, ∑ k ∈ Finset.range c, ((indices r).map fun e => f (i :: j :: k :: e)).sum := by
  rw [indices_sum]
  refine Finset.sum_congr rfl fun i _ => ?_
  rw [indices_sum]
  refine Finset.sum_congr rfl fun j _ => ?_
  rw [indices_sum]

theorem blocks_sum (m k : Nat) (f : Nat → ℝ) : ∑ z ∈ Finset.range m, ∑ a ∈ Finset.range k, f (z * k + a) = ∑ i ∈ Finset.range (m * k), f i := by
  induction m with
  | zero => simp
  | succ m ih => rw [Finset.sum_range_succ, ih, Nat.succ_mul, Finset.sum_range_add]

/-- The entries of the pooled array are the averages of the blocks. -/
theorem pool_spec (s0 s1 s2 k0 k1 k2 : Nat) (rest ks : List Nat) (arr : Pt) (h0 : 0 < k0) (h1 : 0 < k1) (h2 : 0 < k2) :
    ∃ out, pool (s0 :: s1 :: s2 :: rest) (k0 :: k1 :: k2 :: ks) arr = some ([s0 / k0, s1 / k1, s2 / k2], out) ∧
      ∀ z y x, out [z, y, x] = (((indices (k0 :: k1 :: k2 :: rest)).map fun e => match e with
        | a :: b :: c :: r => arr ((z * k0 + a) :: (y * k1 + b) :: (x * k2 + c) :: r)
        | _ => 0).sum) / (indices (k0 :: k1 :: k2 :: rest)).length := by
  refine ⟨_, if_neg (by omega), fun z y x => ?_⟩
  rw [indices_length, indices_three]
  simp only [blockSum, List.prod_cons, mul_assoc]

/-- With less than three axes there is an error. -/
theorem pool_axes (shape kernel : List Nat) (arr : Pt) (h : shape.length < 3 ∨ kernel.length < 3) : pool shape kernel arr = none := by
  match shape, kernel with
  | s0 :: s1 :: s2 :: rest, k0 :: k1 :: k2 :: ks => simp at h; omega
  | [], _ => rfl
  | [_], _ => rfl
  | [_, _], _ => rfl
  | _ :: _ :: _ :: _, [] => rfl
  | _ :: _ :: _ :: _, [_] => rfl
  | _ :: _ :: _ :: _, [_, _] => rfl

theorem sum_four {m0 m1 m2 k0 k1 k2 : Nat} (f : Nat → Nat → Nat → ℝ) :
    (∑ z ∈ Finset.range m0, ∑ y ∈ Finset.range m1, ∑ x ∈ Finset.range m2, ∑ a ∈ Finset.range k0, ∑ b ∈ Finset.range k1, ∑ c ∈ Finset.range k2,
      f (z * k0 + a) (y * k1 + b) (x * k2 + c)) = ∑ i ∈ Finset.range (m0 * k0), ∑ j ∈ Finset.range (m1 * k1), ∑ k ∈ Finset.range (m2 * k2), f i j k := by
  rw [← blocks_sum m0 k0]
  refine Finset.sum_congr rfl fun z _ => ?_
  have h1 : ∀ i, ∑ j ∈ Finset.range (m1 * k1), ∑ k ∈ Finset.range (m2 * k2), f i j k =
      ∑ y ∈ Finset.range m1, ∑ b ∈ Finset.range k1, ∑ x ∈ Finset.range m2, ∑ c ∈ Finset.range k2, f i (y * k1 + b) (x * k2 + c) := by
    intro i
    rw [← blocks_sum m1 k1]
    refine Finset.sum_congr rfl fun y _ => Finset.sum_congr rfl fun b _ => ?_
    rw [← blocks_sum m2 k2]
  simp only [h1]
  conv_rhs => rw [Finset.sum_comm]
  refine Finset.sum_congr rfl fun y _ => ?_
  calc _ = ∑ a ∈ Finset.range k0, ∑ x ∈ Finset.range m2, ∑ b ∈ Finset.range k1, ∑ c ∈ Finset.range k2, f (z * k0 + a) (y * k1 + b) (x * k2 + c) := Finset.sum_comm
    _ = _ := Finset.sum_congr rfl fun a _ => Finset.sum_comm

theorem mem_three {a b c : Nat} {e : List Nat} (he : e ∈ indices [a, b, c]) : ∃ z y x, z < a ∧ y < b ∧ x < c ∧ e = [z, y, x] := by
  rw [mem_indices] at he
  match e, he with
  | [z, y, x], .cons hz (.cons hy (.cons hx .nil)) => exact ⟨z, y, x, hz, hy, hx, rfl⟩

theorem pooledShape_eq (s0 s1 s2 k0 k1 k2 : Nat) (rest ks : List Nat) : pooledShape (s0 :: s1 :: s2 :: rest) (k0 :: k1 :: k2 :: ks) = [s0 / k0, s1 / k1, s2 / k2] := rfl

/-- The sum of the pooled entries, times the number of entries of a block, is the sum of the entries of the array that are in a block: those beyond the last whole
block of an axis are left out. -/
theorem pool_total_partial (s0 s1 s2 k0 k1 k2 : Nat) (rest ks : List Nat) (arr out : Pt) (hr : ∀ s ∈ rest, 0 < s)
    (h : pooled (s0 :: s1 :: s2 :: rest) (k0 :: k1 :: k2 :: ks) arr = some out) :
    ((indices [s0 / k0, s1 / k1, s2 / k2]).map out).sum * (k0 * k1 * k2 * rest.prod : ℕ) =
      ((indices (s0 / k0 * k0 :: s1 / k1 * k1 :: s2 / k2 * k2 :: rest)).map arr).sum := by
  rw [pooled, pool] at h
  split at h
  · cases h
  · rename_i hk
    have := Option.some.inj h
    subst this
    rw [indices_three, indices_three]
    simp only [indices, List.map_cons, List.map_nil, List.sum_cons, List.sum_nil, add_zero]
    have hrp : 0 < rest.prod := by
      apply Nat.pos_of_ne_zero
      intro h0
      rw [List.prod_eq_zero_iff] at h0
      exact absurd (hr 0 h0) (by omega)
    have hv : ((k0 * k1 * k2 * rest.prod : ℕ) : ℝ) ≠ 0 := by
      rw [Nat.cast_ne_zero]
      have : 0 < k0 * k1 * k2 * rest.prod := by
        have h0 : 0 < k0 := by omega
        have h1 : 0 < k1 := by omega
        have h2 : 0 < k2 := by omega
        positivity
      omega
    simp only [Finset.sum_mul, div_mul_cancel₀ _ hv, blockSum]
    exact sum_four fun i j k => ((indices rest).map fun r => arr (i :: j :: k :: r)).sum

/-- What is beyond the last whole block of an axis is not read. -/
theorem pool_ignores (s0 s1 s2 k0 k1 k2 : Nat) (rest ks : List Nat) (a b p q : Pt)
    (hab : ∀ e ∈ indices (s0 / k0 * k0 :: s1 / k1 * k1 :: s2 / k2 * k2 :: rest), a e = b e)
    (hp : pooled (s0 :: s1 :: s2 :: rest) (k0 :: k1 :: k2 :: ks) a = some p) (hq : pooled (s0 :: s1 :: s2 :: rest) (k0 :: k1 :: k2 :: ks) b = some q) :
    ∀ e ∈ indices [s0 / k0, s1 / k1, s2 / k2], p e = q e := by
  rw [pooled, pool] at hp hq
  split at hp
  · cases hp
  · rename_i hk
    rw [if_neg hk] at hq
    have hp := Option.some.inj hp
    have hq := Option.some.inj hq
    subst hp hq
    intro e he
    obtain ⟨z, y, x, hz, hy, hx, rfl⟩ := mem_three he
    show blockSum _ _ _ _ _ _ _ _ / _ = blockSum _ _ _ _ _ _ _ _ / _
    congr 1
    refine Finset.sum_congr rfl fun i hi => Finset.sum_congr rfl fun j hj => Finset.sum_congr rfl fun k hk => ?_
    congr 1
    refine List.map_congr_left fun r hr => ?_
    apply hab
    rw [mem_indices]
    rw [Finset.mem_range] at hi hj hk
    have key : ∀ z k i m : Nat, z < m → i < k → z * k + i < m * k := by
      intro z k i m h1 h2
      calc z * k + i < z * k + k := by omega
        _ = (z + 1) * k := by ring
        _ ≤ m * k := Nat.mul_le_mul_right _ h1
    exact .cons (key _ _ _ _ hz hi) (.cons (key _ _ _ _ hy hj) (.cons (key _ _ _ _ hx hk) ((mem_indices _ _).1 hr)))

/-- Blocks of one entry, and three axes: the pooled array is the array. -/
theorem pool_one (s0 s1 s2 : Nat) (ks : List Nat) (arr : Pt) :
    ∃ out, pooled [s0, s1, s2] (1 :: 1 :: 1 :: ks) arr = some out ∧ pooledShape [s0, s1, s2] (1 :: 1 :: 1 :: ks) = [s0, s1, s2] ∧ ∀ z y x, out [z, y, x] = arr [z, y, x] := by
  refine ⟨_, rfl, by simp [pooledShape], fun z y x => ?_⟩
  simp [blockSum, indices]

theorem map_sub_sum {β : Type} (l : List β) (f g : β → ℝ) : (l.map fun a => f a - g a).sum = (l.map f).sum - (l.map g).sum := by
  induction l with
  | nil => simp
  | cons a l ih => simp only [List.map_cons, List.sum_cons, ih]; ring

theorem sq_sum_le {β : Type} (l : List β) (f : β → ℝ) : (l.map f).sum ^ 2 ≤ l.length * (l.map fun a => f a ^ 2).sum := by
  rcases Nat.eq_zero_or_pos l.length with h | h
  · rw [List.eq_nil_of_length_eq_zero h]
    simp
  · have hpos : (0 : ℝ) < l.length := Nat.cast_pos.2 h
    have h1 := SphereMetric.sum_dev (l.map f) ((l.map f).sum / l.length)
    have h2 : 0 ≤ ((l.map f).map fun a => (a - (l.map f).sum / l.length) ^ 2).sum := List.sum_nonneg fun v hv => by
      obtain ⟨i, -, rfl⟩ := List.mem_map.1 hv
      positivity
    rw [h1, List.map_map, List.length_map] at h2
    have h3 : ((fun a => a ^ 2) ∘ f) = fun a => f a ^ 2 := rfl
    rw [h3] at h2
    generalize (l.map f).sum = S at *
    generalize (l.map fun a => f a ^ 2).sum = Q at *
    have h4 : Q - 2 * (S / l.length) * S + l.length * (S / l.length) ^ 2 = (l.length * Q - S ^ 2) / l.length := by
      field_simp
      ring
    rw [h4] at h2
    by_contra hc
    push Not at hc
    have : (l.length * Q - S ^ 2) / (l.length : ℝ) < 0 := div_neg_of_neg_of_pos (by linarith) hpos
    linarith

/-- Pooling brings arrays closer: the distance of the pooled arrays is at most that of the arrays, divided by the square root of the number of entries of a block. -/
theorem pool_contracts (s0 s1 s2 k0 k1 k2 : Nat) (rest ks : List Nat) (a b p q : Pt) (hr : ∀ s ∈ rest, 0 < s)
    (hp : pooled (s0 :: s1 :: s2 :: rest) (k0 :: k1 :: k2 :: ks) a = some p) (hq : pooled (s0 :: s1 :: s2 :: rest) (k0 :: k1 :: k2 :: ks) b = some q) :
    norm [s0 / k0, s1 / k1, s2 / k2] (fun e => p e - q e) * Real.sqrt (k0 * k1 * k2 * rest.prod : ℕ) ≤ norm (s0 :: s1 :: s2 :: rest) fun e => a e - b e := by
  have hk : ¬ (k0 = 0 ∨ k1 = 0 ∨ k2 = 0) := by
    intro hk
    rw [pooled, pool, if_pos hk] at hp
    cases hp
  have hrp : 0 < rest.prod := by
    apply Nat.pos_of_ne_zero
    intro h0
    rw [List.prod_eq_zero_iff] at h0
    exact absurd (hr 0 h0) (by omega)
  set V : ℕ := k0 * k1 * k2 * rest.prod with hV
  have hVpos : (0 : ℝ) < V := by
    rw [Nat.cast_pos]
    have h0 : 0 < k0 := by omega
    have h1 : 0 < k1 := by omega
    have h2 : 0 < k2 := by omega
    positivity
  -- the square of the difference, at each pooled entry
  obtain ⟨sq, hsq⟩ : ∃ o, pooled (s0 :: s1 :: s2 :: rest) (k0 :: k1 :: k2 :: ks) (fun e => (a e - b e) ^ 2) = some o := by
    rw [pooled, pool, if_neg hk]
    exact ⟨_, rfl⟩
  have htot := pool_total_partial s0 s1 s2 k0 k1 k2 rest ks _ sq hr hsq
  have hentry : ∀ e ∈ indices [s0 / k0, s1 / k1, s2 / k2], (p e - q e) ^ 2 ≤ sq e := by
    rw [pooled, pool, if_neg hk] at hp hq hsq
    have hp := Option.some.inj hp
    have hq := Option.some.inj hq
    have hsq := Option.some.inj hsq
    subst hp hq hsq
    intro e he
    obtain ⟨z, y, x, hz, hy, hx, rfl⟩ := mem_three he
    show (blockSum k0 k1 k2 rest a z y x / (V : ℝ) - blockSum k0 k1 k2 rest b z y x / (V : ℝ)) ^ 2 ≤ blockSum k0 k1 k2 rest (fun e => (a e - b e) ^ 2) z y x / (V : ℝ)
    have hb : ∀ arr : Pt, blockSum k0 k1 k2 rest arr z y x = ((indices (k0 :: k1 :: k2 :: rest)).map fun e => arr (match e with
        | a :: b :: c :: r => (z * k0 + a) :: (y * k1 + b) :: (x * k2 + c) :: r
        | _ => [])).sum := by
      intro arr
      rw [indices_three]
      rfl
    rw [hb, hb, hb, ← sub_div, ← map_sub_sum]
    have := sq_sum_le (indices (k0 :: k1 :: k2 :: rest)) fun e => a (match e with
        | a :: b :: c :: r => (z * k0 + a) :: (y * k1 + b) :: (x * k2 + c) :: r
        | _ => []) - b (match e with
        | a :: b :: c :: r => (z * k0 + a) :: (y * k1 + b) :: (x * k2 + c) :: r
        | _ => [])
    rw [indices_length] at this
    have hV2 : (k0 :: k1 :: k2 :: rest).prod = V := by
      simp only [List.prod_cons, hV, mul_assoc]
    rw [hV2] at this
    rw [div_pow, div_le_div_iff₀ (by positivity) hVpos]
    nlinarith
  have h1 : sumsq [s0 / k0, s1 / k1, s2 / k2] (fun e => p e - q e) ≤ ((indices [s0 / k0, s1 / k1, s2 / k2]).map sq).sum := List.sum_le_sum hentry
  have h2 : ((indices (s0 / k0 * k0 :: s1 / k1 * k1 :: s2 / k2 * k2 :: rest)).map fun e => (a e - b e) ^ 2).sum ≤ sumsq (s0 :: s1 :: s2 :: rest) fun e => a e - b e := by
    rw [sumsq, indices_three, indices_three]
    have hsub : ∀ s k : Nat, Finset.range (s / k * k) ⊆ Finset.range s := fun s k => Finset.range_subset_range.2 (Nat.div_mul_le_self s k)
    have hnn : ∀ i j k : Nat, 0 ≤ ((indices rest).map fun r => (a (i :: j :: k :: r) - b (i :: j :: k :: r)) ^ 2).sum := fun i j k => List.sum_nonneg fun v hv => by
      obtain ⟨r, -, rfl⟩ := List.mem_map.1 hv
      positivity
    refine (Finset.sum_le_sum_of_subset_of_nonneg (hsub s0 k0) fun i _ _ => Finset.sum_nonneg fun j _ => Finset.sum_nonneg fun k _ => hnn i j k).trans ?_
    refine Finset.sum_le_sum fun i _ => ?_
    refine (Finset.sum_le_sum_of_subset_of_nonneg (hsub s1 k1) fun j _ _ => Finset.sum_nonneg fun k _ => hnn i j k).trans ?_
    refine Finset.sum_le_sum fun j _ => ?_
    exact Finset.sum_le_sum_of_subset_of_nonneg (hsub s2 k2) fun k _ _ => hnn i j k
  rw [show norm (s0 :: s1 :: s2 :: rest) (fun e => a e - b e) = Real.sqrt (sumsq (s0 :: s1 :: s2 :: rest) fun e => a e - b e) from rfl,
    show norm [s0 / k0, s1 / k1, s2 / k2] (fun e => p e - q e) = Real.sqrt (sumsq [s0 / k0, s1 / k1, s2 / k2] fun e => p e - q e) from rfl,
    ← Real.sqrt_mul (sumsq_nonneg _ _)]
  apply Real.sqrt_le_sqrt
  calc _ ≤ ((indices [s0 / k0, s1 / k1, s2 / k2]).map sq).sum * V := mul_le_mul_of_nonneg_right h1 hVpos.le
    _ = _ := htot
    _ ≤ _ := h2

/-! ### The choice of the points -/

theorem retry_fold (dist : Pt → ℝ) (l : List Pt) : ∀ p : Pt, (l.foldl (retry dist) (p, dist p)).2 = dist (l.foldl (retry dist) (p, dist p)).1 ∧
    (l.foldl (retry dist) (p, dist p)).1 ∈ p :: l ∧ ∀ q ∈ p :: l, dist q ≤ dist (l.foldl (retry dist) (p, dist p)).1 := by
  induction l with
  | nil => intro p; simp
  | cons q l ih =>
    intro p
    rw [List.foldl_cons]
    by_cases h : dist q > dist p
    · rw [show retry dist (p, dist p) q = (q, dist q) from if_pos h]
      obtain ⟨h1, h2, h3⟩ := ih q
      refine ⟨h1, List.mem_cons_of_mem _ h2, ?_⟩
      intro r hr
      rcases List.mem_cons.1 hr with rfl | hr
      · exact h.le.trans (h3 q List.mem_cons_self)
      · exact h3 r hr
    · rw [show retry dist (p, dist p) q = (p, dist p) from if_neg h]
      obtain ⟨h1, h2, h3⟩ := ih p
      refine ⟨h1, ?_, ?_⟩
      · rcases List.mem_cons.1 h2 with h2 | h2
        · rw [h2]; exact List.mem_cons_self
        · exact List.mem_cons_of_mem _ (List.mem_cons_of_mem _ h2)
      · intro r hr
        rcases List.mem_cons.1 hr with rfl | hr
        · exact h3 _ List.mem_cons_self
        · rcases List.mem_cons.1 hr with rfl | hr
          · exact (not_lt.1 h).trans (h3 p List.mem_cons_self)
          · exact h3 r (List.mem_cons_of_mem _ hr)

/-- The distance of two points after pooling. -/
noncomputable def gap (shape kernel : List Nat) (p q : Pt) : ℝ :=
  norm (pooledShape shape kernel) fun e => (pooled shape kernel p).getD (fun _ => 0) e - (pooled shape kernel q).getD (fun _ => 0) e

/-- The sizes of the blocks are usable: three axes at least, and no empty block. -/
def Sized (shape kernel : List Nat) : Prop := ∃ s0 s1 s2 rest k0 k1 k2 ks, shape = s0 :: s1 :: s2 :: rest ∧ kernel = k0 :: k1 :: k2 :: ks ∧ 0 < k0 ∧ 0 < k1 ∧ 0 < k2

theorem pooled_some {shape kernel : List Nat} (h : Sized shape kernel) (p : Pt) : pooled shape kernel p = some ((pooled shape kernel p).getD fun _ => 0) := by
  obtain ⟨s0, s1, s2, rest, k0, k1, k2, ks, rfl, rfl, h0, h1, h2⟩ := h
  rw [pooled, pool, if_neg (by omega)]
  rfl

/-- The smallest of the distances to the points before, that the loop compares. -/
theorem near_spec {shape kernel : List Nat} (h : Sized shape kernel) (x : List Pt) (hx : x ≠ []) (p : Pt) :
    ∃ v, (pooled shape kernel p).bind (nearestOld shape kernel (x.map fun q => (pooled shape kernel q).getD fun _ => 0)) = some v ∧
      (∃ q ∈ x, v = gap shape kernel p q) ∧ ∀ q ∈ x, v ≤ gap shape kernel p q := by
  rw [pooled_some h p, Option.bind_some, nearestOld, List.map_map]
  obtain ⟨v, hv⟩ := minimum_some (x.map ((fun o => norm (pooledShape shape kernel) fun e => (pooled shape kernel p).getD (fun _ => 0) e - o e) ∘
    fun q => (pooled shape kernel q).getD fun _ => 0)) (by simpa using hx)
  obtain ⟨h1, h2⟩ := minimum_spec _ _ hv
  refine ⟨v, hv, ?_, ?_⟩
  · obtain ⟨q, hq, rfl⟩ := List.mem_map.1 h1
    exact ⟨q, hq, rfl⟩
  · intro q hq
    exact h2 _ (List.mem_map.2 ⟨q, hq, rfl⟩)

theorem choose_spec {shape kernel : List Nat} (h : Sized shape kernel) (x : List Pt) (first : Pt) (others : List Pt) :
    ∃ c, c = choose (fun p => (pooled shape kernel p).bind (nearestOld shape kernel (x.map fun q => (pooled shape kernel q).getD fun _ => 0)))
        (x.map fun q => (pooled shape kernel q).getD fun _ => 0) first others ∧ c ∈ first :: others ∧
      (x = [] → c = first) ∧ (x ≠ [] → ∀ q ∈ first :: others, ∃ y ∈ x, ∀ z ∈ x, gap shape kernel q y ≤ gap shape kernel c z) := by
  refine ⟨_, rfl, ?_, ?_, ?_⟩
  · rw [choose]
    split
    · exact List.mem_cons_self
    · exact (retry_fold _ others first).2.1
  · intro hx
    rw [choose, if_pos (by rw [hx]; rfl)]
  · intro hx q hq
    rw [choose, if_neg (by simpa using hx)]
    have h3 := (retry_fold (fun p => ((pooled shape kernel p).bind (nearestOld shape kernel (x.map fun q => (pooled shape kernel q).getD fun _ => 0))).getD 0)
      others first).2.2 q hq
    set c := (others.foldl (retry fun p => ((pooled shape kernel p).bind (nearestOld shape kernel (x.map fun q => (pooled shape kernel q).getD fun _ => 0))).getD 0)
      (first, ((pooled shape kernel first).bind (nearestOld shape kernel (x.map fun q => (pooled shape kernel q).getD fun _ => 0))).getD 0)).1 with hc
    obtain ⟨v, hv, ⟨y, hy, hvy⟩, -⟩ := near_spec h x hx q
    obtain ⟨w, hw, -, hwz⟩ := near_spec h x hx c
    simp only [hv, hw, Option.getD_some] at h3
    exact ⟨y, hy, fun z hz => hvy ▸ h3.trans (hwz z hz)⟩

theorem loop_spec {shape kernel : List Nat} (h : Sized shape kernel) (draws : List (Pt × List Pt)) : ∀ x : List Pt,
    ∃ ys : List Pt, loop shape kernel draws (x.map fun q => (pooled shape kernel q).getD fun _ => 0) x = some (x ++ ys) ∧ ys.length = draws.length ∧
      ∀ (k : Nat) (first : Pt) (others : List Pt), draws[k]? = some (first, others) → ∃ c, ys[k]? = some c ∧ c ∈ first :: others ∧
        (x ++ ys.take k = [] → c = first) ∧
        (x ++ ys.take k ≠ [] → ∀ q ∈ first :: others, ∃ y ∈ x ++ ys.take k, ∀ z ∈ x ++ ys.take k, gap shape kernel q y ≤ gap shape kernel c z) := by
  induction draws with
  | nil => intro x; exact ⟨[], by rw [loop, List.append_nil], rfl, fun k f o hk => by simp at hk⟩
  | cons d draws ih =>
    obtain ⟨first, others⟩ := d
    intro x
    obtain ⟨c, hc, hm, h0, h1⟩ := choose_spec h x first others
    rw [loop, pooled_some h first]
    simp only
    rw [← hc]
    have hold : (x.map fun q => (pooled shape kernel q).getD fun _ => 0) ++ (pooled shape kernel c).toList =
        (x ++ [c]).map fun q => (pooled shape kernel q).getD fun _ => 0 := by
      rw [List.map_append, pooled_some h c]
      rfl
    rw [hold]
    obtain ⟨ys, he, hl, hs⟩ := ih (x ++ [c])
    refine ⟨c :: ys, by rw [he, List.append_assoc]; rfl, by simp [hl], ?_⟩
    intro k f o hk
    cases k with
    | zero =>
      cases hk
      refine ⟨c, rfl, hm, ?_, ?_⟩
      · intro hx
        exact h0 (by simpa using hx)
      · intro hx
        rw [List.take_zero, List.append_nil] at hx ⊢
        exact h1 hx
    | succ k =>
      obtain ⟨c', e1, e2, e3, e4⟩ := hs k f o hk
      have hsh : x ++ [c] ++ ys.take k = x ++ (c :: ys).take (k + 1) := by rw [List.take_succ_cons, List.append_assoc]; rfl
      rw [hsh] at e3 e4
      exact ⟨c', e1, e2, e3, e4⟩

/-- `max_pooling` with usable blocks: as many points as asked for, each the direction of one of its draws; the first one is the first draw, and each of the others is
a draw whose pooled distance to the nearest of the points before is the largest among its draws. The distances are those of the draws before they are normalized. -/
theorem max_pooling_partial (shape : List Nat) (conv : Option (List Nat)) (draws : List (Pt × List Pt)) (again : Nat → Pt) (hd : draws ≠ []) (h : Sized shape (kernelOf shape conv)) :
    ∃ (ys out : List Pt), maxPooling shape conv draws again = some out ∧ out.length = draws.length ∧ ys.length = draws.length ∧
      ∀ (k : Nat) (first : Pt) (others : List Pt), draws[k]? = some (first, others) → ∃ c, ys[k]? = some c ∧ out[k]? = some (unit shape (again k) c) ∧
        c ∈ first :: others ∧ (k = 0 → c = first) ∧
        (k ≠ 0 → ∀ q ∈ first :: others, ∃ y ∈ ys.take k, ∀ z ∈ ys.take k, gap shape (kernelOf shape conv) q y ≤ gap shape (kernelOf shape conv) c z) := by
  obtain ⟨ys, he, hl, hs⟩ := loop_spec h draws []
  rw [List.nil_append] at he
  have hne : ys ≠ [] := by
    intro h0
    rw [h0] at hl
    exact hd (List.eq_nil_of_length_eq_zero hl.symm)
  refine ⟨ys, normalize shape again ys, ?_, by rw [normalize_length, hl], hl, ?_⟩
  · rw [List.map_nil] at he
    rw [maxPooling, he]
    simp only [if_neg hne]
  · intro k first others hk
    obtain ⟨c, e1, e2, e3, e4⟩ := hs k first others hk
    rw [List.nil_append] at e3 e4
    refine ⟨c, e1, ?_, e2, ?_, ?_⟩
    · rw [normalize_get, e1]
      rfl
    · intro h0
      exact e3 (by rw [h0]; rfl)
    · intro h0
      apply e4
      intro h1
      have := congrArg List.length h1
      rw [List.length_take, List.length_nil] at this
      have := List.length_pos_of_ne_nil hne
      omega

/-- The points are on the sphere if the draws are not zero. -/
theorem max_pooling_unit (shape : List Nat) (conv : Option (List Nat)) (draws : List (Pt × List Pt)) (again : Nat → Pt) (hd : draws ≠ []) (h : Sized shape (kernelOf shape conv))
    (hpos : ∀ d ∈ draws, ∀ q ∈ d.1 :: d.2, 0 < norm shape q) : ∃ out, maxPooling shape conv draws again = some out ∧ ∀ p ∈ out, norm shape p = 1 := by
  obtain ⟨ys, out, he, hl, -, hs⟩ := max_pooling_partial shape conv draws again hd h
  refine ⟨out, he, fun p hp => ?_⟩
  obtain ⟨k, hk⟩ := List.getElem?_of_mem hp
  have hlt : k < draws.length := by rw [← hl]; exact (List.getElem?_eq_some_iff.1 hk).1
  obtain ⟨c, -, e2, e3, -⟩ := hs k draws[k].1 draws[k].2 (by rw [List.getElem?_eq_getElem hlt])
  rw [hk] at e2
  rw [Option.some.inj e2]
  exact norm_unit _ _ _ (Or.inl (hpos _ (List.getElem_mem hlt) c e3))

/-- With less than three axes, `max_pooling` fails. -/
theorem max_pooling_axes (shape : List Nat) (conv : Option (List Nat)) (draws : List (Pt × List Pt)) (again : Nat → Pt)
    (h : shape.length < 3 ∨ ∃ c, conv = some c ∧ c.length < 2) : maxPooling shape conv draws again = none := by
  cases draws with
  | nil => rfl
  | cons d draws =>
    obtain ⟨first, others⟩ := d
    have : pooled shape (kernelOf shape conv) first = none := by
      rw [pooled, pool_axes]
      · rfl
      · rcases h with h | ⟨c, rfl, hc⟩
        · exact Or.inl h
        · right
          simp only [kernelOf, List.length_cons]
          omega
    rw [maxPooling, loop, this]

/-- A block larger than an axis leaves no pooled entry: all distances are zero, no later draw replaces the first one, and the points are purely random. -/
theorem small_shape_random (shape : List Nat) (conv : Option (List Nat)) (draws : List (Pt × List Pt)) (again : Nat → Pt) (hd : draws ≠ []) (h : Sized shape (kernelOf shape conv))
    (hbig : 0 ∈ pooledShape shape (kernelOf shape conv)) : maxPooling shape conv draws again = some (normalize shape again (draws.map Prod.fst)) := by
  have hempty : ∀ l : List Nat, 0 ∈ l → indices l = [] := by
    intro l hl
    have := indices_length l
    rw [List.prod_eq_zero hl] at this
    exact List.eq_nil_of_length_eq_zero this
  have hfold : ∀ (l : List Pt) (f : Pt → ℝ) (p : Pt), (∀ q, f q = 0) → l.foldl (retry f) (p, f p) = (p, f p) := by
    intro l f p hf
    induction l with
    | nil => rfl
    | cons q l ih => rw [List.foldl_cons, retry, if_neg (by rw [hf q]; simp [hf p]), ih]
  have key : ∀ (draws : List (Pt × List Pt)) (x : List Pt),
      loop shape (kernelOf shape conv) draws (x.map fun q => (pooled shape (kernelOf shape conv) q).getD fun _ => 0) x = some (x ++ draws.map Prod.fst) := by
    intro draws
    induction draws with
    | nil => intro x; rw [loop, List.map_nil, List.append_nil]
    | cons d draws ih =>
      obtain ⟨first, others⟩ := d
      intro x
      rw [loop, pooled_some h first]
      have hc : choose (fun p => (pooled shape (kernelOf shape conv) p).bind (nearestOld shape (kernelOf shape conv)
          (x.map fun q => (pooled shape (kernelOf shape conv) q).getD fun _ => 0)))
          (x.map fun q => (pooled shape (kernelOf shape conv) q).getD fun _ => 0) first others = first := by
        rw [choose]
        split
        · rfl
        · rename_i hx
          rw [hfold]
          intro q
          obtain ⟨v, hv, ⟨y, -, hy⟩, -⟩ := near_spec h x (by simpa using hx) q
          rw [hv, hy, gap, Sphere.norm, hempty _ hbig]
          simp
      simp only [hc]
      have hold : (x.map fun q => (pooled shape (kernelOf shape conv) q).getD fun _ => 0) ++ (pooled shape (kernelOf shape conv) first).toList =
          (x ++ [first]).map fun q => (pooled shape (kernelOf shape conv) q).getD fun _ => 0 := by
        rw [List.map_append, pooled_some h first]
        rfl
      rw [hold, ih, List.append_assoc]
      rfl
  have := key draws []
  rw [List.map_nil, List.nil_append] at this
  rw [maxPooling, this]
  have hne : draws.map Prod.fst ≠ [] := by simpa using hd
  simp only [if_neg hne]

/-- `max_small_pooling` on an image of three channels with a side shorter than eight. -/
example (draws : List (Pt × List Pt)) (again : Nat → Pt) (hd : draws ≠ []) :
    maxPooling [3, 7, 64] (some [8, 8]) draws again = some (normalize [3, 7, 64] again (draws.map Prod.fst)) :=
  small_shape_random _ _ _ _ hd ⟨3, 7, 64, [], 1, 8, 8, [], rfl, rfl, by norm_num, by norm_num, by norm_num⟩ (by simp [pooledShape, kernelOf])

/-- The default blocks: an eighth of each axis, also of the first one, whose blocks have the size one if and only if it is shorter than 16. -/
theorem default_kernel (s : Nat) (r : List Nat) : ∃ k ks, kernelOf (s :: r) none = k :: ks ∧ (k = 1 ↔ s < 16) ∧ 0 < k ∧ k ≤ max 1 s := by
  refine ⟨max 1 (s / 8), r.map fun s => max 1 (s / 8), rfl, ?_, ?_, ?_⟩ <;> omega

/-- With blocks of one entry and three axes, the distances are those of the draws. -/
theorem without_pooling (s0 s1 s2 : Nat) (p q : Pt) :
    gap [s0, s1, s2] (kernelOf [s0, s1, s2] (some [1, 1])) p q = norm [s0, s1, s2] fun e => p e - q e := by
  obtain ⟨p', hp, hs, hp'⟩ := pool_one s0 s1 s2 [] p
  obtain ⟨q', hq, -, hq'⟩ := pool_one s0 s1 s2 [] q
  rw [gap, show kernelOf [s0, s1, s2] (some [1, 1]) = [1, 1, 1] from rfl, hp, hq, hs]
  apply norm_congr
  intro e he
  obtain ⟨z, y, x, -, -, -, rfl⟩ := mem_three he
  rw [Option.getD_some, Option.getD_some, hp', hq']

/-- The distances are those of the draws, not those of the points: there are draws for which the second point is the first one, though another draw was opposite to it. -/
theorem not_dispersed : ∃ (first second other : Pt) (again : Nat → Pt) (p : Pt), 0 < norm [1, 1, 1] first ∧ 0 < norm [1, 1, 1] second ∧ 0 < norm [1, 1, 1] other ∧
    (∃ a b, maxPooling [1, 1, 1] none [(first, []), (second, [other])] again = some [a, b] ∧ a = p ∧ b = p) ∧
    unit [1, 1, 1] (again 1) second = fun e => -p e := by
  have hn : ∀ a : ℝ, norm [1, 1, 1] (fun _ => a) = |a| := by
    intro a
    simp [Sphere.norm, indices, Real.sqrt_sq_eq_abs]
  have hu : ∀ a : ℝ, 0 < a → unit [1, 1, 1] (fun _ => 0) (fun _ => a) = fun _ => 1 := by
    intro a ha
    rw [unit, hn, abs_of_pos ha, if_pos ha]
    exact funext fun e => div_self ha.ne'
  refine ⟨fun _ => 1, fun _ => -1 / 2, fun _ => 3, fun _ _ => 0, fun _ => 1, by rw [hn]; norm_num, by rw [hn]; norm_num, by rw [hn]; norm_num, ⟨fun _ => 1, fun _ => 1, ?_, rfl, rfl⟩, ?_⟩
  · have hs : Sized [1, 1, 1] (kernelOf [1, 1, 1] none) := ⟨1, 1, 1, [], 1, 1, 1, [], rfl, rfl, by norm_num, by norm_num, by norm_num⟩
    obtain ⟨ys, out, he, hl, hyl, hspec⟩ := max_pooling_partial [1, 1, 1] none [(fun _ => 1, []), (fun _ => -1 / 2, [fun _ => 3])] (fun _ _ => 0) (by simp) hs
    obtain ⟨c0, y0, o0, m0, f0, -⟩ := hspec 0 _ _ rfl
    obtain ⟨c1, y1, o1, m1, -, f1⟩ := hspec 1 _ _ rfl
    have hc0 := f0 rfl
    subst hc0
    have hgap : ∀ a b : ℝ, gap [1, 1, 1] (kernelOf [1, 1, 1] none) (fun _ => a) (fun _ => b) = |a - b| := by
      intro a b
      rw [show kernelOf [1, 1, 1] none = kernelOf [1, 1, 1] (some [1, 1]) from rfl, without_pooling, hn]
    have htake : ys.take 1 = [fun _ => 1] := by
      cases ys with
      | nil => cases y0
      | cons a l => rw [List.take_succ_cons, List.take_zero]; exact congrArg (· :: []) (Option.some.inj y0)
    have hc1 : c1 = fun _ => 3 := by
      rcases List.mem_cons.1 m1 with h | h
      · exfalso
        obtain ⟨y, hy, hz⟩ := f1 (by norm_num) (fun _ => 3) (by simp)
        rw [htake, List.mem_singleton] at hy
        have := hz (fun _ => 1) (by rw [htake]; exact List.mem_singleton.2 rfl)
        rw [hy, h, hgap, hgap] at this
        norm_num [abs_le] at this
      · exact List.mem_singleton.1 h
    subst hc1
    rw [he]
    congr 1
    match out, hl, o0, o1 with
    | [a, b], _, o0, o1 =>
      have ha := Option.some.inj o0
      have hb := Option.some.inj o1
      rw [ha, hb, hu 1 (by norm_num), hu 3 (by norm_num)]
  · have h2 := hn (-1 / 2)
    rw [unit, h2, if_pos (by norm_num)]
    exact funext fun e => by norm_num

end NG.Pooling
