/-
The searches for point sets of `nevergrad/common/sphere.py` (C118).
-/
import Verif.Props.Sphere

set_option linter.unusedSectionVars false

namespace NG.Sphere

section
variable {β R : Type} [LinearOrder R]

theorem foldl_min_le (l : List R) : ∀ a, l.foldl min a ≤ a ∧ ∀ b ∈ l, l.foldl min a ≤ b := by
  induction l with
  | nil => intro a; simp
  | cons c l ih =>
    intro a
    rw [List.foldl_cons]
    obtain ⟨h1, h2⟩ := ih (min a c)
    refine ⟨h1.trans (min_le_left _ _), ?_⟩
    intro b hb
    rcases List.mem_cons.1 hb with rfl | hb
    · exact h1.trans (min_le_right _ _)
    · exact h2 b hb

theorem foldl_min_mem (l : List R) : ∀ a, l.foldl min a = a ∨ l.foldl min a ∈ l := by
  induction l with
  | nil => intro a; simp
  | cons c l ih =>
    intro a
    rw [List.foldl_cons]
    rcases ih (min a c) with h | h
    · rcases min_choice a c with h1 | h1
      · rw [h1] at h ⊢; exact Or.inl h
      · rw [h1] at h ⊢; rw [h]; exact Or.inr List.mem_cons_self
    · exact Or.inr (List.mem_cons_of_mem _ h)

theorem minimum_spec (l : List R) (m : R) (h : minimum l = some m) : m ∈ l ∧ ∀ b ∈ l, m ≤ b := by
  cases l with
  | nil => cases h
  | cons a l =>
    have := Option.some.inj h
    subst this
    obtain ⟨h1, h2⟩ := foldl_min_le l a
    refine ⟨?_, ?_⟩
    · rcases foldl_min_mem l a with h3 | h3
      · rw [h3]; exact List.mem_cons_self
      · exact List.mem_cons_of_mem _ h3
    · intro b hb
      rcases List.mem_cons.1 hb with rfl | hb
      · exact h1
      · exact h2 b hb

theorem minimum_some (l : List R) (h : l ≠ []) : ∃ m, minimum l = some m := by
  cases l with
  | nil => exact absurd rfl h
  | cons a l => exact ⟨_, rfl⟩

theorem best_fold (score : β → R) (l : List β) : ∀ a,
    (l.foldl (fun b c => if score b < score c then c else b) a ∈ a :: l) ∧
      ∀ b ∈ a :: l, score b ≤ score (l.foldl (fun b c => if score b < score c then c else b) a) := by
  induction l with
  | nil => intro a; simp
  | cons c l ih =>
    intro a
    rw [List.foldl_cons]
    by_cases h : score a < score c
    · rw [if_pos h]
      obtain ⟨h1, h2⟩ := ih c
      refine ⟨List.mem_cons_of_mem _ h1, ?_⟩
      intro b hb
      rcases List.mem_cons.1 hb with rfl | hb
      · exact h.le.trans (h2 c List.mem_cons_self)
      · exact h2 b hb
    · rw [if_neg h]
      obtain ⟨h1, h2⟩ := ih a
      refine ⟨?_, ?_⟩
      · rcases List.mem_cons.1 h1 with h3 | h3
        · rw [h3]; exact List.mem_cons_self
        · exact List.mem_cons_of_mem _ (List.mem_cons_of_mem _ h3)
      · intro b hb
        rcases List.mem_cons.1 hb with rfl | hb
        · exact h2 _ List.mem_cons_self
        · rcases List.mem_cons.1 hb with rfl | hb
          · exact (not_lt.1 h).trans (h2 a List.mem_cons_self)
          · exact h2 b (List.mem_cons_of_mem _ hb)

theorem bestOf_spec (score : β → R) (l : List β) (h : l ≠ []) : ∃ b, bestOf score l = some b ∧ b ∈ l ∧ ∀ c ∈ l, score c ≤ score b := by
  cases l with
  | nil => exact absurd rfl h
  | cons a l => exact ⟨_, rfl, (best_fold score l a).1, (best_fold score l a).2⟩

theorem mapM_pairs (f : β → Option R) (l : List β) (h : ∀ y ∈ l, ∃ d, f y = some d) :
    ∃ r, (l.mapM fun y => (f y).map fun d => (y, d)) = some r ∧ r.map Prod.fst = l ∧ ∀ e ∈ r, f e.1 = some e.2 := by
  induction l with
  | nil => exact ⟨[], rfl, rfl, by simp⟩
  | cons a l ih =>
    obtain ⟨r, hr, h1, h2⟩ := ih fun y hy => h y (List.mem_cons_of_mem _ hy)
    obtain ⟨d, hd⟩ := h a List.mem_cons_self
    refine ⟨(a, d) :: r, ?_, by rw [List.map_cons, h1], ?_⟩
    · rw [List.mapM_cons, hd, hr]
      rfl
    · intro e he
      rcases List.mem_cons.1 he with rfl | he
      · exact hd
      · exact h2 e he

/-! ### Dispersion -/

/-- The point of the batch with the largest distance to the points. -/
theorem best_round (dist : β → β → R) (x : List β) (hx : x ≠ []) (batch : List β) (hb : batch ≠ []) (last : Option β) :
    ∃ y d, greedyPoint dist x [batch] last = some y ∧ y ∈ batch ∧ nearest dist x y = some d ∧ ∀ z ∈ batch, ∃ e, nearest dist x z = some e ∧ e ≤ d := by
  have hdef : ∀ y ∈ batch, ∃ d, nearest dist x y = some d := fun y _ => minimum_some _ (by simpa using hx)
  obtain ⟨r, hr, h1, h2⟩ := mapM_pairs (nearest dist x) batch hdef
  have hrn : r ≠ [] := by
    rintro rfl
    exact hb h1.symm
  obtain ⟨b, hb1, hb2, hb3⟩ := bestOf_spec (fun e : β × R => e.2) r hrn
  refine ⟨b.1, b.2, ?_, by rw [← h1]; exact List.mem_map_of_mem hb2, h2 b hb2, ?_⟩
  · rw [greedyPoint, List.foldl_cons, List.foldl_nil, hr]
    simp only [hb1, Option.map_some]
  · intro z hz
    rw [← h1] at hz
    obtain ⟨e, he, rfl⟩ := List.mem_map.1 hz
    exact ⟨e.2, h2 e he, hb3 e he⟩

/-- `greedy_dispersion` keeps the best point of the last batch only: the batches before do not count. -/
theorem greedy_last (dist : β → β → R) (x : List β) (hx : x ≠ []) (rounds : List (List β)) (batch : List β) (last : Option β) :
    greedyPoint dist x (rounds ++ [batch]) last = greedyPoint dist x [batch] none := by
  obtain ⟨r, hr, -, -⟩ := mapM_pairs (nearest dist x) batch fun y _ => minimum_some _ (by simpa using hx)
  rw [greedyPoint, List.foldl_append, List.foldl_cons, List.foldl_nil, greedyPoint, List.foldl_cons, List.foldl_nil, hr]

/-- So that a point farther from the others than the kept one may be forgotten. -/
theorem greedy_not_best : ∃ (x : List ℤ) (rounds : List (List ℤ)) (y z : ℤ), greedyPoint (fun a b => |a - b|) x rounds none = some y ∧ z ∈ rounds.flatten ∧
    nearest (fun a b => |a - b|) x z = some 10 ∧ nearest (fun a b => |a - b|) x y = some 1 :=
  ⟨[0], [[10, 3], [1, 0]], 1, 10, by decide, by decide, by decide, by decide⟩

/-- As many points as asked, the first one being the first draw. -/
theorem greedy_spec (dist : β → β → R) (rounds : List (List (List β))) (h : ∀ r ∈ rounds, ∃ s b, r = s ++ [b] ∧ b ≠ []) : ∀ last (x : List β), x ≠ [] →
    ∃ out, greedyLoop dist rounds last x = some (x ++ out) ∧ out.length = rounds.length ∧ ∀ y ∈ out, y ∈ rounds.flatten.flatten := by
  induction rounds with
  | nil => intro last x _; exact ⟨[], by simp [greedyLoop], rfl, by simp⟩
  | cons r rounds ih =>
    intro last x hx
    obtain ⟨s, b, rfl, hb⟩ := h r List.mem_cons_self
    obtain ⟨y, d, hy, hmem, -⟩ := best_round dist x hx b hb none
    obtain ⟨out, h1, h2, h3⟩ := ih (fun r hr => h r (List.mem_cons_of_mem _ hr)) (some y) (x ++ [y]) (by simp)
    refine ⟨y :: out, ?_, by rw [List.length_cons, List.length_cons, h2], ?_⟩
    · rw [greedyLoop, greedy_last dist x hx s b last, hy]
      simp only []
      rw [h1, List.append_assoc]
      rfl
    · intro z hz
      rcases List.mem_cons.1 hz with rfl | hz
      · simp only [List.flatten_cons, List.flatten_append, List.mem_append]
        left
        right
        simpa using hmem
      · rw [List.flatten_cons, List.flatten_append, List.mem_append]
        exact Or.inr (h3 z hz)

theorem mem_eraseIdx_of {x : List β} {j i : Nat} {b : β} (h : x[i]? = some b) (hij : i ≠ j) : b ∈ x.eraseIdx j := by
  rw [List.mem_iff_getElem?]
  rcases Nat.lt_or_ge i j with hlt | hge
  · exact ⟨i, by rw [List.getElem?_eraseIdx_of_lt hlt]; exact h⟩
  · refine ⟨i - 1, ?_⟩
    rw [List.getElem?_eraseIdx_of_ge (by omega), show i - 1 + 1 = i by omega]
    exact h

theorem of_mem_eraseIdx {x : List β} {j : Nat} {b : β} (h : b ∈ x.eraseIdx j) : ∃ i, i ≠ j ∧ x[i]? = some b := by
  obtain ⟨k, hk⟩ := List.mem_iff_getElem?.1 h
  rcases Nat.lt_or_ge k j with hlt | hge
  · rw [List.getElem?_eraseIdx_of_lt hlt] at hk
    exact ⟨k, by omega, hk⟩
  · rw [List.getElem?_eraseIdx_of_ge hge] at hk
    exact ⟨k + 1, by omega, hk⟩

/-- All pairs of points are at a distance of at least `r`. -/
def Apart (dist : β → β → R) (r : R) (x : List β) : Prop := ∀ (i j : Nat) (a b : β), x[i]? = some a → x[j]? = some b → i ≠ j → r ≤ dist a b

theorem step_spec (dist : β → β → R) (hsym : ∀ a b, dist a b = dist b a) (x : List β) (hx : 2 ≤ x.length) (j : Nat) (hj : j < x.length) (draws : List β) :
    ∃ y, disperseStep dist x j draws = some (x.set j y) ∧ (x[j]? = some y ∨ y ∈ draws) ∧
      (∃ d, nearestOther dist x j y = some d ∧ (∀ z, x[j]? = some z ∨ z ∈ draws → ∃ e, nearestOther dist x j z = some e ∧ e ≤ d)) ∧
      ∀ r, Apart dist r x → Apart dist r (x.set j y) := by
  have hxj : x[j]? = some x[j] := List.getElem?_eq_getElem hj
  have hne : x.eraseIdx j ≠ [] := by
    intro h
    have := List.length_eraseIdx_of_lt hj
    rw [h] at this
    simp at this
    omega
  obtain ⟨r, hr, h1, h2⟩ := mapM_pairs (nearestOther dist x j) (x[j] :: draws) fun y _ => minimum_some _ (by simpa using hne)
  have hrn : r ≠ [] := by
    rintro rfl
    cases h1
  obtain ⟨b, hb1, hb2, hb3⟩ := bestOf_spec (fun e : β × R => e.2) r hrn
  have hbmem : b.1 ∈ x[j] :: draws := by rw [← h1]; exact List.mem_map_of_mem hb2
  have hbest : ∀ z ∈ x[j] :: draws, ∃ e, nearestOther dist x j z = some e ∧ e ≤ b.2 := by
    intro z hz
    rw [← h1] at hz
    obtain ⟨e, he, rfl⟩ := List.mem_map.1 hz
    exact ⟨e.2, h2 e he, hb3 e he⟩
  refine ⟨b.1, ?_, ?_, ⟨b.2, h2 b hb2, ?_⟩, ?_⟩
  · rw [disperseStep, hxj]
    simp only []
    rw [hr]
    simp only [hb1, Option.map_some]
  · rcases List.mem_cons.1 hbmem with h | h
    · exact Or.inl (by rw [h]; exact hxj)
    · exact Or.inr h
  · intro z hz
    apply hbest
    rcases hz with hz | hz
    · rw [hxj] at hz
      rw [Option.some.inj hz]
      exact List.mem_cons_self
    · exact List.mem_cons_of_mem _ hz
  · intro q hq
    obtain ⟨e, he, heb⟩ := hbest x[j] List.mem_cons_self
    have hqe : q ≤ e := by
      obtain ⟨hm, -⟩ := minimum_spec _ _ he
      obtain ⟨c, hc, hce⟩ := List.mem_map.1 hm
      obtain ⟨i, hij, hi⟩ := of_mem_eraseIdx hc
      rw [← hce]
      exact hq j i x[j] c hxj hi (Ne.symm hij)
    have hall : ∀ i a, i ≠ j → x[i]? = some a → q ≤ dist b.1 a := by
      intro i a hij hi
      have := (minimum_spec _ _ (h2 b hb2)).2 (dist b.1 a) (List.mem_map_of_mem (mem_eraseIdx_of hi hij))
      exact (hqe.trans heb).trans this
    intro i k a c hi hk hik
    by_cases h3 : i = j
    · subst h3
      rw [List.getElem?_set_self hj] at hi
      rw [List.getElem?_set_ne hik] at hk
      rw [← Option.some.inj hi]
      exact hall k c (Ne.symm hik) hk
    · rw [List.getElem?_set_ne (Ne.symm h3)] at hi
      by_cases h4 : k = j
      · subst h4
        rw [List.getElem?_set_self hj] at hk
        rw [← Option.some.inj hk, hsym]
        exact hall i a h3 hi
      · rw [List.getElem?_set_ne (Ne.symm h4)] at hk
        exact hq i k a c hi hk hik

/-- `dispersion`, from two points on: as many points, each one a point of the start or a draw, and the smallest distance between two points never gets smaller. -/
theorem disperse_spec_partial (dist : β → β → R) (hsym : ∀ a b, dist a b = dist b a) (steps : List (Nat × List β)) : ∀ x : List β, 2 ≤ x.length →
    (∀ s ∈ steps, s.1 < x.length) →
    ∃ y, disperse dist steps x = some y ∧ y.length = x.length ∧ (∀ b ∈ y, b ∈ x ∨ ∃ s ∈ steps, b ∈ s.2) ∧ ∀ r, Apart dist r x → Apart dist r y := by
  induction steps with
  | nil => intro x _ _; exact ⟨x, rfl, rfl, fun b hb => Or.inl hb, fun r h => h⟩
  | cons s steps ih =>
    intro x hx hs
    obtain ⟨b, h1, h2, -, h4⟩ := step_spec dist hsym x hx s.1 (hs s List.mem_cons_self) s.2
    obtain ⟨y, h5, h6, h7, h8⟩ := ih (x.set s.1 b) (by rw [List.length_set]; exact hx) fun t ht => by rw [List.length_set]; exact hs t (List.mem_cons_of_mem _ ht)
    refine ⟨y, ?_, by rw [h6, List.length_set], ?_, fun r hr => h8 r (h4 r hr)⟩
    · obtain ⟨j, draws⟩ := s
      rw [disperse, h1]
      exact h5
    · intro c hc
      rcases h7 c hc with h | ⟨t, ht, hct⟩
      · rcases List.mem_or_eq_of_mem_set h with h | rfl
        · exact Or.inl h
        · rcases h2 with h2 | h2
          · exact Or.inl (List.mem_of_getElem? h2)
          · exact Or.inr ⟨s, List.mem_cons_self, h2⟩
      · exact Or.inr ⟨t, List.mem_cons_of_mem _ ht, hct⟩

/-- With a single point, the first replacement takes the smallest of no distance: an error. -/
theorem disperse_single (dist : β → β → R) (a : β) (draws : List β) (steps : List (Nat × List β)) : disperse dist ((0, draws) :: steps) [a] = none := rfl

end

/-! ### Covering -/

/-- The sum of the products of the entries. -/
noncomputable def dot (shape : List Nat) (x y : Pt) : ℝ := ((indices shape).map fun i => x i * y i).sum

theorem sumsq_lin (shape : List Nat) (a b : ℝ) (x y : Pt) :
    sumsq shape (fun i => a * x i + b * y i) = a ^ 2 * sumsq shape x + 2 * a * b * dot shape x y + b ^ 2 * sumsq shape y := by
  simp only [sumsq, dot]
  induction indices shape with
  | nil => simp
  | cons i l ih =>
    simp only [List.map_cons, List.sum_cons, ih]
    ring

theorem dot_lin (shape : List Nat) (a b : ℝ) (x y z : Pt) : dot shape (fun i => a * x i + b * y i) z = a * dot shape x z + b * dot shape y z := by
  simp only [dot]
  induction indices shape with
  | nil => simp
  | cons i l ih =>
    simp only [List.map_cons, List.sum_cons, ih]
    ring

theorem dot_self (shape : List Nat) (x : Pt) : dot shape x x = sumsq shape x := by
  simp only [dot, sumsq, pow_two]

theorem norm_sub_sq (shape : List Nat) (t x : Pt) : norm shape (fun i => t i - x i) ^ 2 = sumsq shape t - 2 * dot shape t x + sumsq shape x := by
  rw [norm_sq]
  have := sumsq_lin shape 1 (-1) t x
  have h2 : (fun i => t i - x i) = fun i => 1 * t i + -1 * x i := funext fun i => by ring
  rw [h2, this]
  ring

theorem dot_bounds (shape : List Nat) (x t : Pt) (hx : norm shape x = 1) (ht : norm shape t = 1) : -1 ≤ dot shape x t ∧ dot shape x t ≤ 1 := by
  have h1 : sumsq shape x = 1 := by rw [← norm_sq, hx]; norm_num
  have h2 : sumsq shape t = 1 := by rw [← norm_sq, ht]; norm_num
  have h3 := sumsq_nonneg shape fun i => 1 * x i + 1 * t i
  have h4 := sumsq_nonneg shape fun i => 1 * x i + -1 * t i
  rw [sumsq_lin, h1, h2] at h3 h4
  constructor <;> linarith

theorem dot_comm (shape : List Nat) (x y : Pt) : dot shape x y = dot shape y x := by
  simp only [dot, mul_comm]

theorem slerp (c e N : ℝ) (hc : -1 ≤ c) (hc1 : c ≤ 1) (he : 0 ≤ e) (he1 : e ≤ 1) (hN : 0 < N) (hN2 : N ^ 2 = (1 - e) ^ 2 + 2 * (1 - e) * e * c + e ^ 2) :
    c ≤ ((1 - e) * c + e) / N := by
  rw [le_div_iff₀ hN]
  have hN1 : N ≤ 1 := by
    by_contra h
    push Not at h
    nlinarith [mul_nonneg (mul_nonneg (sub_nonneg.2 he1) he) (sub_nonneg.2 hc1)]
  have hup : c ≤ (1 - e) * c + e := by nlinarith
  rcases le_or_gt 0 c with h | h
  · nlinarith
  · rcases le_or_gt 0 ((1 - e) * c + e) with h2 | h2
    · nlinarith
    · have hsq : ((1 - e) * c + e) ^ 2 ≤ (c * N) ^ 2 := by
        rw [mul_pow, hN2]
        have : c ^ 2 * ((1 - e) ^ 2 + 2 * (1 - e) * e * c + e ^ 2) - ((1 - e) * c + e) ^ 2 = (1 - c ^ 2) * e * (-e - 2 * ((1 - e) * c)) := by ring
        have h3 : 0 ≤ 1 - c ^ 2 := by nlinarith
        have h4 : 0 ≤ -e - 2 * ((1 - e) * c) := by linarith
        have := mul_nonneg (mul_nonneg h3 he) h4
        linarith
      have h5 : c * N < 0 := mul_neg_of_neg_of_pos h hN
      nlinarith

/-- The moved point is on the sphere and not farther from the target. -/
theorem move_closer (shape : List Nat) (again : Pt) (rate : ℝ) (h0 : 0 ≤ rate) (h1 : rate ≤ 1) (t x : Pt) (hx : norm shape x = 1) (ht : norm shape t = 1)
    (ha : 0 < norm shape again) :
    norm shape (coverMove shape again rate t x) = 1 ∧
      norm shape (fun i => t i - coverMove shape again rate t x i) ≤ norm shape (fun i => t i - x i) := by
  have hu : norm shape (coverMove shape again rate t x) = 1 := norm_unit shape again _ (Or.inr ha)
  refine ⟨hu, ?_⟩
  have hx1 : sumsq shape x = 1 := by rw [← norm_sq, hx]; norm_num
  have ht1 : sumsq shape t = 1 := by rw [← norm_sq, ht]; norm_num
  have hu1 : sumsq shape (coverMove shape again rate t x) = 1 := by rw [← norm_sq, hu]; norm_num
  obtain ⟨hb1, hb2⟩ := dot_bounds shape x t hx ht
  obtain ⟨hb3, hb4⟩ := dot_bounds shape (coverMove shape again rate t x) t hu ht
  have key : dot shape x t ≤ dot shape (coverMove shape again rate t x) t := by
    have hmix : (fun i => x i + rate * (t i - x i)) = fun i => (1 - rate) * x i + rate * t i := funext fun i => by ring
    by_cases hn : 0 < norm shape fun i => x i + rate * (t i - x i)
    · have hd : dot shape (coverMove shape again rate t x) t = ((1 - rate) * dot shape x t + rate) / norm shape fun i => x i + rate * (t i - x i) := by
        have hcm : coverMove shape again rate t x = fun i => ((1 - rate) * x i + rate * t i) / norm shape fun i => (1 - rate) * x i + rate * t i := by
          rw [coverMove, unit, if_pos hn, hmix]
          exact funext fun i => by rw [show x i + rate * (t i - x i) = (1 - rate) * x i + rate * t i by ring]
        rw [hcm, hmix]
        have : (fun i => ((1 - rate) * x i + rate * t i) / norm shape fun i => (1 - rate) * x i + rate * t i)
            = fun i => (norm shape fun i => (1 - rate) * x i + rate * t i)⁻¹ * ((1 - rate) * x i + rate * t i) + 0 * x i := funext fun i => by
          rw [div_eq_inv_mul]; ring
        rw [this, dot_lin, dot_lin, dot_self, ht1, div_eq_inv_mul]
        ring
      rw [hd]
      apply slerp _ _ _ hb1 hb2 h0 h1 hn
      rw [hmix, norm_sq, sumsq_lin, hx1, ht1]
      ring
    · have hz : sumsq shape (fun i => (1 - rate) * x i + rate * t i) = 0 := by
        have : norm shape (fun i => x i + rate * (t i - x i)) = 0 := le_antisymm (not_lt.1 hn) (norm_nonneg _ _)
        rw [hmix] at this
        rw [← norm_sq, this]
        norm_num
      rw [sumsq_lin, hx1, ht1] at hz
      have : dot shape x t ≤ -1 := by
        by_contra hc
        push Not at hc
        rcases eq_or_lt_of_le h0 with h | h
        · rw [← h] at hz; norm_num at hz
        · rcases eq_or_lt_of_le h1 with h' | h'
          · rw [h'] at hz; norm_num at hz
          · have h5 : 0 < (1 - rate) * rate * (dot shape x t + 1) := mul_pos (mul_pos (by linarith) h) (by linarith)
            nlinarith [sq_nonneg ((1 - rate) - rate)]
      linarith
  have hle : norm shape (fun i => t i - coverMove shape again rate t x i) ^ 2 ≤ norm shape (fun i => t i - x i) ^ 2 := by
    rw [norm_sub_sq, norm_sub_sq, hx1, hu1, dot_comm shape t, dot_comm shape t]
    linarith
  exact (sq_le_sq₀ (norm_nonneg _ _) (norm_nonneg _ _)).1 hle

theorem nearestIndex_spec {R : Type} [LinearOrder R] (d : Nat → R) (k : Nat) :
    (nearestIndex d k = none → k = 0) ∧ ∀ i, nearestIndex d k = some i → i < k ∧ ∀ j, j < k → d i ≤ d j := by
  induction k with
  | zero => simp [nearestIndex]
  | succ k ih =>
    refine ⟨?_, ?_⟩
    · intro h
      rw [nearestIndex] at h
      split at h
      · cases h
      · split at h <;> cases h
    · intro i h
      rw [nearestIndex] at h
      split at h
      · rename_i h1
        have := ih.1 h1
        subst this
        have := Option.some.inj h
        subst this
        refine ⟨by omega, ?_⟩
        intro j hj
        rw [show j = 0 by omega]
      · rename_i i' h1
        obtain ⟨h2, h3⟩ := ih.2 i' h1
        split at h
        · rename_i h4
          have := Option.some.inj h
          subst this
          refine ⟨by omega, ?_⟩
          intro j hj
          rcases Nat.lt_succ_iff_lt_or_eq.1 hj with h5 | rfl
          · exact h4.le.trans (h3 j h5)
          · exact le_rfl
        · rename_i h4
          have := Option.some.inj h
          subst this
          refine ⟨by omega, ?_⟩
          intro j hj
          rcases Nat.lt_succ_iff_lt_or_eq.1 hj with h5 | rfl
          · exact h3 j h5
          · exact not_lt.1 h4

/-- One pass of `covering`: the point nearest to the target gets nearer on the sphere, and the other points stay. -/
theorem cover_step (shape : List Nat) (again : Pt) (rate : ℝ) (h0 : 0 ≤ rate) (h1 : rate ≤ 1) (t : Pt) (x : List Pt) (hx : ∀ p ∈ x, norm shape p = 1) (hne : x ≠ [])
    (ht : norm shape t = 1) (ha : 0 < norm shape again) :
    ∃ (k : Nat) (p q : Pt), x[k]? = some p ∧ coverStep shape again rate t x = x.set k q ∧ norm shape q = 1 ∧
      (∀ r ∈ x, norm shape (fun i => t i - p i) ≤ norm shape (fun i => t i - r i)) ∧ norm shape (fun i => t i - q i) ≤ norm shape (fun i => t i - p i) := by
  rw [coverStep]
  obtain ⟨hs1, hs2⟩ := nearestIndex_spec (fun k => norm shape fun i => t i - (x[k]?.getD fun _ => 0) i) x.length
  cases hk : nearestIndex (fun k => norm shape fun i => t i - (x[k]?.getD fun _ => 0) i) x.length with
  | none => exact absurd (List.eq_nil_of_length_eq_zero (hs1 hk)) hne
  | some k =>
    obtain ⟨hlt, hmin⟩ := hs2 k hk
    have hget : x[k]?.getD (fun _ => 0) = x[k] := by rw [List.getElem?_eq_getElem hlt]; rfl
    obtain ⟨h2, h3⟩ := move_closer shape again rate h0 h1 t x[k] (hx _ (List.getElem_mem hlt)) ht ha
    refine ⟨k, x[k], coverMove shape again rate t x[k], List.getElem?_eq_getElem hlt, by simp only [hget], h2, ?_, h3⟩
    intro r hr
    obtain ⟨j, hj, rfl⟩ := List.getElem_of_mem hr
    have := hmin j hj
    rw [hget, List.getElem?_eq_getElem hj] at this
    exact this

/-! ### Jittered sampling -/

section
variable {β : Type}

/-- The default blocks of `jittered` are lost: it always fails. -/
theorem jittered_default (n : Nat) (draws : Nat → β) (fuel : Nat) : jittered n none draws fuel = none := rfl

/-- The invariant of the classes: distinct classes, each one with its points, and not empty. -/
def Classes (cls : β → Nat) (d : List (Nat × List β)) : Prop := (d.map Prod.fst).Nodup ∧ ∀ e ∈ d, e.2 ≠ [] ∧ ∀ y ∈ e.2, cls y = e.1

theorem any_iff (d : List (Nat × List β)) (c : Nat) : d.any (fun e => e.1 == c) = true ↔ c ∈ d.map Prod.fst := by
  rw [List.any_eq_true, List.mem_map]
  constructor
  · rintro ⟨e, he, h⟩
    exact ⟨e, he, by simpa using h⟩
  · rintro ⟨e, he, h⟩
    exact ⟨e, he, by simpa using h⟩

theorem addTo_classes (cls : β → Nat) (d : List (Nat × List β)) (h : Classes cls d) (y : β) : Classes cls (addTo d (cls y) y) := by
  rw [addTo]
  split
  · refine ⟨?_, ?_⟩
    · have : (d.map fun e => if e.1 = cls y then (e.1, e.2 ++ [y]) else e).map Prod.fst = d.map Prod.fst := by
        rw [List.map_map]
        apply List.map_congr_left
        intro e _
        simp only [Function.comp]
        split <;> rfl
      rw [this]
      exact h.1
    · intro e he
      obtain ⟨f, hf, rfl⟩ := List.mem_map.1 he
      obtain ⟨h1, h2⟩ := h.2 f hf
      split
      · rename_i h3
        refine ⟨by simp, ?_⟩
        intro z hz
        rcases List.mem_append.1 hz with hz | hz
        · exact h2 z hz
        · rw [List.mem_singleton] at hz
          rw [hz, h3]
      · exact ⟨h1, h2⟩
  · rename_i h1
    rw [any_iff] at h1
    refine ⟨?_, ?_⟩
    · rw [List.map_append, List.nodup_append]
      refine ⟨h.1, by simp, ?_⟩
      intro a ha b hb hab
      simp only [List.map_cons, List.map_nil, List.mem_singleton] at hb
      rw [hab, hb] at ha
      exact h1 ha
    · intro e he
      rcases List.mem_append.1 he with he | he
      · exact h.2 e he
      · rw [List.mem_singleton] at he
        subst he
        exact ⟨by simp, by simp⟩

theorem fold_classes (cls : β → Nat) (draws : Nat → β) (l : List Nat) : ∀ d, Classes cls d → Classes cls (l.foldl (fun d i => addTo d (cls (draws i)) (draws i)) d) := by
  induction l with
  | nil => intro d h; exact h
  | cons i l ih => intro d h; exact ih _ (addTo_classes cls d h _)

theorem first_classes (cls : β → Nat) (draws : Nat → β) (m : Nat) : Classes cls (firstDraws cls draws m) :=
  fold_classes cls draws _ [] ⟨by simp, by simp⟩

theorem min_fold (d : List (Nat × List β)) : ∀ m, d.foldl (fun m e => min m e.2.length) m ≤ m ∧ ∀ e ∈ d, d.foldl (fun m e => min m e.2.length) m ≤ e.2.length := by
  induction d with
  | nil => intro m; simp
  | cons a d ih =>
    intro m
    rw [List.foldl_cons]
    obtain ⟨h1, h2⟩ := ih (min m a.2.length)
    refine ⟨h1.trans (Nat.min_le_left _ _), ?_⟩
    intro e he
    rcases List.mem_cons.1 he with rfl | he
    · exact h1.trans (Nat.min_le_right _ _)
    · exact h2 e he

theorem wait_spec (n : Nat) (cls : β → Nat) (draws : Nat → β) (fuel : Nat) : ∀ next minNum d dd, Classes cls d → waitLoop n cls draws fuel next minNum d = some (some dd) →
    Classes cls dd ∧ dd ≠ [] ∧ ∀ e ∈ dd, n ≤ e.2.length * dd.length := by
  induction fuel with
  | zero => intro _ _ _ _ _ h; cases h
  | succ f ih =>
    intro next minNum d dd hd h
    rw [waitLoop] at h
    split at h
    · cases h
    · rename_i h1
      split at h
      · exact ih _ _ _ _ (addTo_classes cls d hd _) h
      · rename_i h2
        have := Option.some.inj (Option.some.inj h)
        subst this
        refine ⟨hd, fun h3 => h1 (by rw [h3]; rfl), ?_⟩
        intro e he
        have := (min_fold d minNum).2 e he
        exact (not_lt.1 h2).trans (Nat.mul_le_mul_right _ this)

theorem takePass_all (n num : Nat) (d : List (Nat × List β)) : ∀ x : List β, x.length + num * d.length ≤ n → (∀ e ∈ d, num ≤ e.2.length) →
    takePass n num d x = (d.map fun e => (e.1, e.2.drop num), x ++ d.flatMap fun e => e.2.take num) := by
  induction d with
  | nil => intro x _ _; simp [takePass]
  | cons e d ih =>
    intro x h hd
    obtain ⟨c, l⟩ := e
    have hl := hd (c, l) List.mem_cons_self
    simp only [takePass]
    rw [List.length_cons, Nat.mul_succ] at h
    have hx : (if x.length < n then x ++ l.take num else x) = x ++ l.take num := by
      split
      · rfl
      · have : num = 0 := by omega
        rw [this, List.take_zero, List.append_nil]
    rw [hx, ih _ (by rw [List.length_append, List.length_take]; simp only [] at hl; omega) fun f hf => hd f (List.mem_cons_of_mem _ hf)]
    simp [List.flatMap_cons]

theorem takePass_one (n : Nat) (d : List (Nat × List β)) : ∀ x : List β, x.length ≤ n → n - x.length ≤ d.length → (∀ e ∈ d, 1 ≤ e.2.length) →
    (takePass n 1 d x).2 = x ++ (d.take (n - x.length)).flatMap fun e => e.2.take 1 := by
  induction d with
  | nil => intro x _ _ _; simp [takePass]
  | cons e d ih =>
    intro x h1 h2 hd
    obtain ⟨c, l⟩ := e
    have hl : 1 ≤ l.length := hd (c, l) List.mem_cons_self
    simp only [takePass]
    rcases Nat.lt_or_ge x.length n with h | h
    · rw [if_pos h]
      have hlen : (x ++ l.take 1).length = x.length + 1 := by rw [List.length_append, List.length_take]; omega
      rw [List.length_cons] at h2
      rw [ih _ (by omega) (by omega) fun f hf => hd f (List.mem_cons_of_mem _ hf), hlen, show n - x.length = (n - (x.length + 1)) + 1 by omega, List.take_succ_cons]
      simp [List.flatMap_cons]
    · rw [if_neg (by omega)]
      have : ∀ (d : List (Nat × List β)), (takePass n 1 d x).2 = x := by
        intro d
        induction d with
        | nil => rfl
        | cons e d ih2 =>
          obtain ⟨c, l⟩ := e
          simp only [takePass]
          rw [if_neg (by omega)]
          exact ih2
      rw [this, show n - x.length = 0 by omega]
      simp

theorem count_class (cls : β → Nat) (d : List (Nat × List β)) (hd : (d.map Prod.fst).Nodup) (f : Nat × List β → List β) (hf : ∀ e ∈ d, ∀ y ∈ f e, cls y = e.1)
    (num : Nat) (hnum : ∀ e ∈ d, (f e).length = num) (c : Nat) :
    (d.flatMap f).countP (fun y => decide (cls y = c)) = if c ∈ d.map Prod.fst then num else 0 := by
  induction d with
  | nil => simp
  | cons e d ih =>
    rw [List.map_cons, List.nodup_cons] at hd
    rw [List.flatMap_cons, List.countP_append, ih hd.2 (fun g hg => hf g (List.mem_cons_of_mem _ hg)) fun g hg => hnum g (List.mem_cons_of_mem _ hg)]
    by_cases h : e.1 = c
    · have h1 : (f e).countP (fun y => decide (cls y = c)) = num := by
        rw [← hnum e List.mem_cons_self, List.countP_eq_length]
        intro y hy
        rw [hf e List.mem_cons_self y hy, h]
        simp
      rw [h1, if_neg (by rw [← h]; exact hd.1), if_pos (by rw [List.map_cons, h]; exact List.mem_cons_self), Nat.add_zero]
    · have h1 : (f e).countP (fun y => decide (cls y = c)) = 0 := by
        rw [List.countP_eq_zero]
        intro y hy
        rw [hf e List.mem_cons_self y hy]
        simpa using h
      rw [h1, Nat.zero_add]
      by_cases h2 : c ∈ d.map Prod.fst
      · rw [if_pos h2, if_pos (by rw [List.map_cons]; exact List.mem_cons_of_mem _ h2)]
      · rw [if_neg h2, if_neg]
        rw [List.map_cons, List.mem_cons]
        rintro (h3 | h3)
        · exact h h3.symm
        · exact h2 h3

theorem takeLoop_done (n fuel : Nat) (d : List (Nat × List β)) (x : List β) (h : n ≤ x.length) : takeLoop n fuel d x = x := by
  cases fuel with
  | zero => rfl
  | succ f => rw [takeLoop, if_neg (by omega)]

theorem flatMap_len (d : List (Nat × List β)) (f : Nat × List β → List β) (k : Nat) (h : ∀ e ∈ d, (f e).length = k) : (d.flatMap f).length = d.length * k := by
  rw [List.length_flatMap, List.map_congr_left h, List.map_const', List.sum_replicate, smul_eq_mul]

theorem take_balanced (cls : β → Nat) (n : Nat) (d : List (Nat × List β)) (hd : Classes cls d) (hne : d ≠ []) (hbig : ∀ e ∈ d, n ≤ e.2.length * d.length) :
    (takeLoop n (n + 1) d []).length = n ∧ ∀ c, (takeLoop n (n + 1) d []).countP (fun y => decide (cls y = c)) ≤ n / d.length + 1 ∧
      (c ∈ d.map Prod.fst → n / d.length ≤ (takeLoop n (n + 1) d []).countP (fun y => decide (cls y = c))) := by
  have hK : 0 < d.length := List.length_pos_of_ne_nil hne
  generalize hKd : d.length = K at *
  have hq : ∀ e ∈ d, n / K ≤ e.2.length := fun e he => Nat.div_le_of_le_mul (by rw [Nat.mul_comm]; exact hbig e he)
  have hq1 : n % K ≠ 0 → ∀ e ∈ d, n / K + 1 ≤ e.2.length := by
    intro hr e he
    have h1 := hbig e he
    have h2 := Nat.div_add_mod n K
    by_contra hc
    have h3 : e.2.length ≤ n / K := by omega
    have h4 : e.2.length * K ≤ n / K * K := Nat.mul_le_mul_right _ h3
    have h5 : n / K * K = K * (n / K) := Nat.mul_comm _ _
    omega
  have hdm := Nat.div_add_mod n K
  have hmod := Nat.mod_lt n hK
  have last : ∀ (f : Nat) (d' : List (Nat × List β)) (x : List β), Classes cls d' → d'.map Prod.fst = d.map Prod.fst → x.length ≤ n → n - x.length < K → d'.length = K →
      takeLoop n (f + 1) d' x = x ++ (d'.take (n - x.length)).flatMap fun e => e.2.take 1 := by
    intro f d' x hd' _ hx hlt hlen
    rw [takeLoop]
    have hone : ∀ e ∈ d', 1 ≤ e.2.length := fun e he => List.length_pos_of_ne_nil (hd'.2 e he).1
    split
    · simp only []
      rw [hlen, Nat.div_eq_of_lt hlt, show max 1 0 = 1 from rfl]
      have h2 := takePass_one n d' x hx (by omega) hone
      rw [takeLoop_done n f _ _ (by
        rw [h2, List.length_append, flatMap_len _ _ 1 (fun e he => by
          rw [List.length_take]
          have := hone e (List.mem_of_mem_take he)
          omega), List.length_take]
        omega)]
      exact h2
    · rw [show n - x.length = 0 by omega]
      simp
  have hcount1 : ∀ (d' : List (Nat × List β)) (m c : Nat), Classes cls d' → ((d'.take m).flatMap fun e => e.2.take 1).countP (fun y => decide (cls y = c)) ≤ 1 := by
    intro d' m c hd'
    have hnd : ((d'.take m).map Prod.fst).Nodup := by
      rw [List.map_take]
      exact hd'.1.sublist (List.take_sublist _ _)
    rw [count_class cls (d'.take m) hnd _ (fun e he y hy => (hd'.2 e (List.mem_of_mem_take he)).2 y (List.mem_of_mem_take hy)) 1
      (fun e he => by
        rw [List.length_take]
        have := List.length_pos_of_ne_nil (hd'.2 e (List.mem_of_mem_take he)).1
        omega)]
    split <;> omega
  rcases Nat.lt_or_ge n K with hnK | hnK
  · -- fewer points than classes
    have h0 : n / K = 0 := Nat.div_eq_of_lt hnK
    have heq := last n d [] hd rfl (by simp) (by simpa using hnK) hKd
    rw [heq, List.nil_append, List.length_nil, Nat.sub_zero, h0]
    refine ⟨?_, fun c => ⟨by simpa using hcount1 d n c hd, fun _ => Nat.zero_le _⟩⟩
    rw [flatMap_len _ _ 1 (fun e he => by
      rw [List.length_take]
      have := List.length_pos_of_ne_nil (hd.2 e (List.mem_of_mem_take he)).1
      omega), List.length_take]
    omega
  · -- a first pass with the same number of points in all classes
    have hqpos : 1 ≤ n / K := (Nat.one_le_div_iff hK).2 hnK
    have hpass := takePass_all n (n / K) d [] (by rw [hKd, List.length_nil, Nat.zero_add, Nat.mul_comm]; omega) hq
    have hflen : (d.flatMap fun e => e.2.take (n / K)).length = K * (n / K) := by
      rw [flatMap_len _ _ (n / K) (fun e he => by rw [List.length_take]; have := hq e he; omega), hKd]
    have hstart : takeLoop n (n + 1) d [] = takeLoop n n (d.map fun e => (e.1, e.2.drop (n / K))) (d.flatMap fun e => e.2.take (n / K)) := by
      rw [takeLoop, if_pos (by simp; omega)]
      simp only [List.length_nil, Nat.sub_zero]
      rw [hKd, Nat.max_eq_right hqpos, hpass, List.nil_append]
    have hc1 : ∀ c, (d.flatMap fun e => e.2.take (n / K)).countP (fun y => decide (cls y = c)) = if c ∈ d.map Prod.fst then n / K else 0 :=
      count_class cls d hd.1 _ (fun e he y hy => (hd.2 e he).2 y (List.mem_of_mem_take hy)) (n / K) (fun e he => by rw [List.length_take]; have := hq e he; omega)
    by_cases hr : n % K = 0
    · rw [hstart, takeLoop_done n _ _ _ (by rw [hflen]; omega)]
      refine ⟨by rw [hflen]; omega, fun c => ?_⟩
      rw [hc1 c]
      refine ⟨by split <;> omega, fun hc => by rw [if_pos hc]⟩
    · have hd' : Classes cls (d.map fun e => (e.1, e.2.drop (n / K))) := by
        refine ⟨?_, ?_⟩
        · rw [List.map_map]
          exact hd.1
        · intro e he
          obtain ⟨g, hg, rfl⟩ := List.mem_map.1 he
          refine ⟨?_, fun y hy => (hd.2 g hg).2 y (List.mem_of_mem_drop hy)⟩
          intro hnil
          have h1 : (g.2.drop (n / K)).length = 0 := by
            have : g.2.drop (n / K) = [] := hnil
            rw [this]; rfl
          rw [List.length_drop] at h1
          have := hq1 hr g hg
          omega
      obtain ⟨n', rfl⟩ : ∃ n', n = n' + 1 := ⟨n - 1, by omega⟩
      have heq := last n' (d.map fun e => (e.1, e.2.drop ((n' + 1) / K))) (d.flatMap fun e => e.2.take ((n' + 1) / K)) hd' (by rw [List.map_map]; rfl)
        (by rw [hflen]; omega) (by rw [hflen]; omega) (by rw [List.length_map, hKd])
      rw [hstart, heq]
      refine ⟨?_, fun c => ?_⟩
      · have hl2 := flatMap_len ((d.map fun e => (e.1, e.2.drop ((n' + 1) / K))).take (n' + 1 - (d.flatMap fun e => e.2.take ((n' + 1) / K)).length))
          (fun e => e.2.take 1) 1 (fun e he => by
          rw [List.length_take]
          have := List.length_pos_of_ne_nil (hd'.2 e (List.mem_of_mem_take he)).1
          omega)
        rw [List.length_append, hl2, List.length_take, List.length_map, hflen, hKd]
        omega
      · rw [List.countP_append, hc1 c]
        have := hcount1 (d.map fun e => (e.1, e.2.drop ((n' + 1) / K))) (n' + 1 - (d.flatMap fun e => e.2.take ((n' + 1) / K)).length) c hd'
        refine ⟨by split <;> omega, fun hc => by rw [if_pos hc]; omega⟩

/-- When `jittered` ends with given blocks: as many points, and the numbers of points of two of their classes differ by one at most. -/
theorem jittered_balanced (n : Nat) (cls : β → Nat) (draws : Nat → β) (fuel : Nat) (x : List β) (h : jittered n (some cls) draws fuel = some x) :
    x.length = n ∧ ∀ y ∈ x, ∀ z ∈ x, x.countP (fun w => decide (cls w = cls y)) ≤ x.countP (fun w => decide (cls w = cls z)) + 1 := by
  simp only [jittered] at h
  split at h
  · rename_i d hw
    obtain ⟨h1, h2, h3⟩ := wait_spec n cls draws fuel _ _ _ d (first_classes cls draws _) hw
    obtain ⟨h4, h5⟩ := take_balanced cls n d h1 h2 h3
    rw [if_pos h4] at h
    have := Option.some.inj h
    subst this
    refine ⟨h4, ?_⟩
    intro y hy z hz
    have hy' := (h5 (cls y)).1
    by_cases hz' : cls z ∈ d.map Prod.fst
    · have := (h5 (cls z)).2 hz'
      omega
    · rcases Nat.lt_or_ge n d.length with hn | hn
      · rw [Nat.div_eq_of_lt hn] at hy'
        have : 0 < (takeLoop n (n + 1) d []).countP (fun w => decide (cls w = cls z)) := List.countP_pos_iff.2 ⟨z, hz, by simp⟩
        omega
      · exfalso
        -- the points come from the classes
        have hsub : ∀ (f : Nat) (d' : List (Nat × List β)) (x' : List β), (∀ e ∈ d', (∀ w ∈ e.2, cls w ∈ d.map Prod.fst)) → (∀ w ∈ x', cls w ∈ d.map Prod.fst) →
            ∀ w ∈ takeLoop n f d' x', cls w ∈ d.map Prod.fst := by
          have hp : ∀ (num : Nat) (d' : List (Nat × List β)) (x' : List β), (∀ e ∈ d', (∀ w ∈ e.2, cls w ∈ d.map Prod.fst)) → (∀ w ∈ x', cls w ∈ d.map Prod.fst) →
              (∀ e ∈ (takePass n num d' x').1, ∀ w ∈ e.2, cls w ∈ d.map Prod.fst) ∧ ∀ w ∈ (takePass n num d' x').2, cls w ∈ d.map Prod.fst := by
            intro num d'
            induction d' with
            | nil => intro x' _ hx'; exact ⟨by simp [takePass], hx'⟩
            | cons e d' ih =>
              intro x' hd' hx'
              obtain ⟨c, l⟩ := e
              simp only [takePass]
              have hx2 : ∀ w ∈ (if x'.length < n then x' ++ l.take num else x'), cls w ∈ d.map Prod.fst := by
                intro w hw
                split at hw
                · rcases List.mem_append.1 hw with hw | hw
                  · exact hx' w hw
                  · exact hd' (c, l) List.mem_cons_self w (List.mem_of_mem_take hw)
                · exact hx' w hw
              obtain ⟨h6, h7⟩ := ih _ (fun e he => hd' e (List.mem_cons_of_mem _ he)) hx2
              refine ⟨?_, h7⟩
              intro e he
              rcases List.mem_cons.1 he with rfl | he
              · intro w hw
                exact hd' (c, l) List.mem_cons_self w (List.mem_of_mem_drop hw)
              · exact h6 e he
          intro f
          induction f with
          | zero => intro d' x' _ hx'; exact hx'
          | succ f ih =>
            intro d' x' hd' hx'
            rw [takeLoop]
            split
            · obtain ⟨h6, h7⟩ := hp (max 1 ((n - x'.length) / d'.length)) d' x' hd' hx'
              exact ih _ _ h6 h7
            · exact hx'
        exact hz' (hsub (n + 1) d [] (fun e he w hw => by rw [(h1.2 e he).2 w hw]; exact List.mem_map_of_mem he) (by simp) z hz)
  · cases h

theorem addTo_length (d : List (Nat × List β)) (c : Nat) (y : β) : (addTo d c y).map Prod.fst = if c ∈ d.map Prod.fst then d.map Prod.fst else d.map Prod.fst ++ [c] := by
  rw [addTo]
  by_cases h : c ∈ d.map Prod.fst
  · rw [if_pos ((any_iff d c).2 h), if_pos h, List.map_map]
    apply List.map_congr_left
    intro e _
    simp only [Function.comp]
    split <;> rfl
  · rw [if_neg (fun h1 => h ((any_iff d c).1 h1)), if_neg h, List.map_append]
    rfl

theorem wait_stuck (n K : Nat) (cls : β → Nat) (hK : ∀ y, cls y < K) (draws : Nat → β) (fuel : Nat) : ∀ next minNum d, Classes cls d → (∃ e ∈ d, True) →
    (∀ e ∈ d, e.1 < K) → minNum * K < n → waitLoop n cls draws fuel next minNum d = none := by
  induction fuel with
  | zero => intro _ _ _ _ _ _ _; rfl
  | succ f ih =>
    intro next minNum d hd hne hb hm
    rw [waitLoop]
    have hpos : d.length ≠ 0 := by
      obtain ⟨e, he, -⟩ := hne
      intro h
      rw [List.eq_nil_of_length_eq_zero h] at he
      cases he
    rw [if_neg hpos]
    have hle : d.length ≤ K := by
      have h1 : (d.map Prod.fst) ⊆ List.range K := by
        intro c hc
        obtain ⟨e, he, rfl⟩ := List.mem_map.1 hc
        exact List.mem_range.2 (hb e he)
      have := (hd.1.subperm h1).length_le
      simpa using this
    have hmin := (min_fold d minNum).1
    have hlt : d.foldl (fun m e => min m e.2.length) minNum * d.length < n :=
      lt_of_le_of_lt (Nat.mul_le_mul hmin hle) hm
    rw [if_pos hlt]
    apply ih
    · exact addTo_classes cls d hd _
    · have : (addTo d (cls (draws next)) (draws next)).map Prod.fst ≠ [] := by
        rw [addTo_length]
        split
        · intro h
          apply hpos
          have := congrArg List.length h
          simpa using this
        · simp
      cases hcase : addTo d (cls (draws next)) (draws next) with
      | nil => rw [hcase] at this; exact absurd rfl this
      | cons e l => exact ⟨e, List.mem_cons_self, trivial⟩
    · intro e he
      have hmem : e.1 ∈ (addTo d (cls (draws next)) (draws next)).map Prod.fst := List.mem_map_of_mem he
      rw [addTo_length] at hmem
      split at hmem
      · obtain ⟨g, hg, hgc⟩ := List.mem_map.1 hmem
        rw [← hgc]
        exact hb g hg
      · rcases List.mem_append.1 hmem with h | h
        · obtain ⟨g, hg, hgc⟩ := List.mem_map.1 h
          rw [← hgc]
          exact hb g hg
        · rw [List.mem_singleton] at h
          rw [h]
          exact hK _
    · exact lt_of_le_of_lt (Nat.mul_le_mul_right _ hmin) hm

theorem first_count (cls : β → Nat) (draws : Nat → β) (m : Nat) :
    (∀ e ∈ firstDraws cls draws m, e.2.length = (List.range m).countP fun i => decide (cls (draws i) = e.1)) ∧
      ∀ c, c ∈ (firstDraws cls draws m).map Prod.fst ↔ 0 < (List.range m).countP fun i => decide (cls (draws i) = c) := by
  induction m with
  | zero => simp [firstDraws]
  | succ m ih =>
    obtain ⟨h1, h2⟩ := ih
    have hs : firstDraws cls draws (m + 1) = addTo (firstDraws cls draws m) (cls (draws m)) (draws m) := by
      rw [firstDraws, List.range_succ, List.foldl_append]
      rfl
    have hc : ∀ c, ((List.range (m + 1)).countP fun i => decide (cls (draws i) = c)) = ((List.range m).countP fun i => decide (cls (draws i) = c)) + if cls (draws m) = c then 1 else 0 := by
      intro c
      rw [List.range_succ, List.countP_append, List.countP_cons, List.countP_nil, Nat.zero_add]
      simp only [decide_eq_true_eq]
    refine ⟨?_, ?_⟩
    · intro e he
      rw [hs, addTo] at he
      split at he
      · obtain ⟨g, hg, rfl⟩ := List.mem_map.1 he
        by_cases h3 : g.1 = cls (draws m)
        · rw [if_pos h3, hc, if_pos h3.symm, List.length_append, List.length_singleton, h1 g hg]
        · rw [if_neg h3, hc, if_neg (Ne.symm h3), h1 g hg, Nat.add_zero]
      · rename_i h3
        rcases List.mem_append.1 he with he | he
        · have h4 : e.1 ≠ cls (draws m) := by
            intro h5
            exact h3 ((any_iff _ _).2 (by rw [← h5]; exact List.mem_map_of_mem he))
          rw [hc, if_neg (Ne.symm h4), h1 e he, Nat.add_zero]
        · rw [List.mem_singleton] at he
          subst he
          have h5 : ¬ (0 < (List.range m).countP fun i => decide (cls (draws i) = cls (draws m))) := fun h => h3 ((any_iff _ _).2 ((h2 _).2 h))
          rw [hc, if_pos rfl, List.length_singleton]
          simp only [] at h5 ⊢
          omega
    · intro c
      rw [hs, addTo_length, hc]
      by_cases h3 : cls (draws m) ∈ (firstDraws cls draws m).map Prod.fst
      · rw [if_pos h3, h2]
        have := (h2 _).1 h3
        by_cases h4 : cls (draws m) = c
        · rw [if_pos h4, ← h4]
          omega
        · rw [if_neg h4, Nat.add_zero]
      · rw [if_neg h3, List.mem_append, List.mem_singleton, h2]
        by_cases h4 : cls (draws m) = c
        · rw [if_pos h4]
          constructor
          · intro _; omega
          · intro _; exact Or.inr h4.symm
        · rw [if_neg h4, Nat.add_zero]
          constructor
          · rintro (h | h)
            · exact h
            · exact absurd h.symm h4
          · exact Or.inl

/-- The loop of `jittered` never ends when a class of the first draws is too small for the number of classes there are: more draws do not help, since the smallest
number of points of a class is never computed again from scratch. -/
theorem jittered_stuck (n K : Nat) (cls : β → Nat) (hK : ∀ y, cls y < K) (draws : Nat → β) (c : Nat)
    (h1 : 0 < (List.range (Nat.sqrt n * n)).countP fun i => decide (cls (draws i) = c))
    (h2 : ((List.range (Nat.sqrt n * n)).countP fun i => decide (cls (draws i) = c)) * K < n) (fuel : Nat) :
    jittered n (some cls) draws fuel = none := by
  obtain ⟨h3, h4⟩ := first_count cls draws (Nat.sqrt n * n)
  obtain ⟨e, he, hec⟩ := List.mem_map.1 ((h4 c).2 h1)
  have hd := first_classes cls draws (Nat.sqrt n * n)
  have hb : ∀ e ∈ firstDraws cls draws (Nat.sqrt n * n), e.1 < K := by
    intro e he
    obtain ⟨hne, hall⟩ := hd.2 e he
    obtain ⟨y, hy⟩ := List.exists_mem_of_ne_nil _ hne
    rw [← hall y hy]
    exact hK y
  have hlen : e.2.length * K < n := by rw [h3 e he, hec]; exact h2
  have hw : waitLoop n cls draws fuel (Nat.sqrt n * n) 10000000 (firstDraws cls draws (Nat.sqrt n * n)) = none := by
    cases fuel with
    | zero => rfl
    | succ f =>
      -- the first pass bounds the smallest number by the one of the class
      have hmin := (min_fold (firstDraws cls draws (Nat.sqrt n * n)) 10000000).2 e he
      have := wait_stuck n K cls hK draws (f + 1) (Nat.sqrt n * n) ((firstDraws cls draws (Nat.sqrt n * n)).foldl (fun m e => min m e.2.length) 10000000)
        (firstDraws cls draws (Nat.sqrt n * n)) hd ⟨e, he, trivial⟩ hb (lt_of_le_of_lt (Nat.mul_le_mul_right _ hmin) hlen)
      rw [waitLoop] at this ⊢
      have hidem : ∀ (d : List (Nat × List β)) (m : Nat), d.foldl (fun m e => min m e.2.length) (d.foldl (fun m e => min m e.2.length) m) = d.foldl (fun m e => min m e.2.length) m := by
        intro d m
        have hge : ∀ (l : List (Nat × List β)) (v : Nat), (∀ e ∈ l, v ≤ e.2.length) → l.foldl (fun m e => min m e.2.length) v = v := by
          intro l
          induction l with
          | nil => intro v _; rfl
          | cons a l ih =>
            intro v hv
            rw [List.foldl_cons, Nat.min_eq_left (hv a List.mem_cons_self)]
            exact ih v fun e he => hv e (List.mem_cons_of_mem _ he)
        exact hge d _ (min_fold d m).2
      simp only [hidem] at this
      exact this
  simp only [jittered]
  rw [hw]

end

/-! ### Metrics and random search -/

/-- `metric_half` is between zero and one quarter. -/
theorem half_bounds (shape : List Nat) (x ys : List Pt) (hx : x ≠ []) (hy : ys ≠ []) : 0 ≤ metricHalf shape x ys ∧ metricHalf shape x ys ≤ 1 / 4 := by
  have hyl : (0 : ℝ) < ys.length := Nat.cast_pos.2 (List.length_pos_of_ne_nil hy)
  have hxl : (0 : ℝ) < x.length := Nat.cast_pos.2 (List.length_pos_of_ne_nil hx)
  have key : ∀ y : Pt, 0 ≤ ((((x.filter fun p => open Classical in decide (0 < ((indices shape).map fun i => p i * y i).sum)).length : ℝ) / x.length - 0.5) ^ 2) ∧
      ((((x.filter fun p => open Classical in decide (0 < ((indices shape).map fun i => p i * y i).sum)).length : ℝ) / x.length - 0.5) ^ 2) ≤ 1 / 4 := by
    intro y
    refine ⟨by positivity, ?_⟩
    have h1 : ((x.filter fun p => open Classical in decide (0 < ((indices shape).map fun i => p i * y i).sum)).length : ℝ) ≤ x.length := by
      exact_mod_cast List.length_filter_le _ _
    have h2 : ((x.filter fun p => open Classical in decide (0 < ((indices shape).map fun i => p i * y i).sum)).length : ℝ) / x.length ≤ 1 := (div_le_one hxl).2 h1
    have h3 : 0 ≤ ((x.filter fun p => open Classical in decide (0 < ((indices shape).map fun i => p i * y i).sum)).length : ℝ) / x.length := by positivity
    generalize ((x.filter fun p => open Classical in decide (0 < ((indices shape).map fun i => p i * y i).sum)).length : ℝ) / x.length = v at *
    norm_num
    nlinarith
  rw [metricHalf]
  refine ⟨?_, ?_⟩
  · apply div_nonneg _ hyl.le
    apply List.sum_nonneg
    intro v hv
    obtain ⟨y, -, rfl⟩ := List.mem_map.1 hv
    exact (key y).1
  · rw [div_le_iff₀ hyl]
    refine (List.sum_le_card_nsmul _ (1 / 4) ?_).trans ?_
    · intro v hv
      obtain ⟨y, -, rfl⟩ := List.mem_map.1 hv
      exact (key y).2
    · rw [List.length_map, nsmul_eq_mul]
      linarith

section
variable {β R : Type} [LinearOrder R]

theorem maximum_spec (l : List R) (m : R) (h : maximum l = some m) : m ∈ l ∧ ∀ b ∈ l, b ≤ m := by
  have key : ∀ (l : List R) a, (l.foldl max a = a ∨ l.foldl max a ∈ l) ∧ a ≤ l.foldl max a ∧ ∀ b ∈ l, b ≤ l.foldl max a := by
    intro l
    induction l with
    | nil => intro a; simp
    | cons c l ih =>
      intro a
      rw [List.foldl_cons]
      obtain ⟨h1, h2, h3⟩ := ih (max a c)
      refine ⟨?_, (le_max_left _ _).trans h2, ?_⟩
      · rcases h1 with h1 | h1
        · rcases max_choice a c with h4 | h4
          · rw [h4] at h1 ⊢; exact Or.inl h1
          · rw [h4] at h1 ⊢; rw [h1]; exact Or.inr List.mem_cons_self
        · exact Or.inr (List.mem_cons_of_mem _ h1)
      · intro b hb
        rcases List.mem_cons.1 hb with rfl | hb
        · exact (le_max_right _ _).trans h2
        · exact h3 b hb
  cases l with
  | nil => cases h
  | cons a l =>
    have := Option.some.inj h
    subst this
    obtain ⟨h1, h2, h3⟩ := key l a
    refine ⟨?_, ?_⟩
    · rcases h1 with h1 | h1
      · rw [h1]; exact List.mem_cons_self
      · exact List.mem_cons_of_mem _ h1
    · intro b hb
      rcases List.mem_cons.1 hb with rfl | hb
      · exact h2
      · exact h3 b hb

end

/-- `metric_pack` is the largest product of two distinct points, or zero if it is negative: it does not tell apart the sets whose points are all more than a right
angle apart. -/
theorem pack_spec (shape : List Nat) (x : List Pt) (hx : x ≠ []) :
    ∃ m, metricPack shape x = some m ∧ 0 ≤ m ∧ (∀ (i j : Nat) (p q : Pt), x[i]? = some p → x[j]? = some q → i ≠ j → dot shape p q ≤ m) ∧
      (m = 0 ∨ ∃ (i j : Nat) (p q : Pt), x[i]? = some p ∧ x[j]? = some q ∧ i ≠ j ∧ m = dot shape p q) := by
  have hlen := List.length_pos_of_ne_nil hx
  have hmem : ∀ i j, i < x.length → j < x.length → (if i = j then (0 : ℝ) else ((indices shape).map fun k => (x[i]?.getD fun _ => 0) k * (x[j]?.getD fun _ => 0) k).sum) ∈
      ((List.range x.length).flatMap fun i => (List.range x.length).map fun j =>
        if i = j then (0 : ℝ) else ((indices shape).map fun k => (x[i]?.getD fun _ => 0) k * (x[j]?.getD fun _ => 0) k).sum) := by
    intro i j hi hj
    exact List.mem_flatMap.2 ⟨i, List.mem_range.2 hi, List.mem_map.2 ⟨j, List.mem_range.2 hj, rfl⟩⟩
  cases hm : metricPack shape x with
  | none =>
    exfalso
    rw [metricPack] at hm
    cases hl : ((List.range x.length).flatMap fun i => (List.range x.length).map fun j =>
        if i = j then (0 : ℝ) else ((indices shape).map fun k => (x[i]?.getD fun _ => 0) k * (x[j]?.getD fun _ => 0) k).sum) with
    | nil =>
      have := hmem 0 0 hlen hlen
      rw [hl] at this
      cases this
    | cons a l => rw [hl] at hm; cases hm
  | some m =>
    obtain ⟨h1, h2⟩ := maximum_spec _ _ hm
    refine ⟨m, rfl, ?_, ?_, ?_⟩
    · have := h2 _ (hmem 0 0 hlen hlen)
      rwa [if_pos rfl] at this
    · intro i j p q hp hq hij
      have hi : i < x.length := (List.getElem?_eq_some_iff.1 hp).1
      have hj : j < x.length := (List.getElem?_eq_some_iff.1 hq).1
      have := h2 _ (hmem i j hi hj)
      rw [if_neg hij, hp, hq] at this
      exact this
    · obtain ⟨i, hi, hmi⟩ := List.mem_flatMap.1 h1
      obtain ⟨j, hj, rfl⟩ := List.mem_map.1 hmi
      by_cases hij : i = j
      · exact Or.inl (if_pos hij)
      · rw [List.mem_range] at hi hj
        refine Or.inr ⟨i, j, x[i], x[j], List.getElem?_eq_getElem hi, List.getElem?_eq_getElem hj, hij, ?_⟩
        rw [if_neg hij, List.getElem?_eq_getElem hi, List.getElem?_eq_getElem hj]
        rfl

/-- `metric_riesz_avg` of a single point is `nan`. -/
theorem riesz_single (x : List Pt) (hx : x.length = 1) (energy : Pt → Pt → ℝ) : metricRiesz x energy = none := by
  simp [metricRiesz, hx]

section
variable {β R : Type} [LinearOrder R]

theorem rs_fold (metric : β → Option R) (tries : Nat → β) (k : Nat) :
    (∀ m x, (List.range k).foldl (fun b i => rsStep metric b (tries i)) none = some (m, x) →
      (∃ i, i < k ∧ x = tries i ∧ metric x = some m) ∧ ∀ i, i < k → ∀ m', metric (tries i) = some m' → m ≤ m') ∧
    ((List.range k).foldl (fun b i => rsStep metric b (tries i)) none = none → ∀ i, i < k → metric (tries i) = none) := by
  induction k with
  | zero => simp
  | succ k ih =>
    rw [List.range_succ, List.foldl_append, List.foldl_cons, List.foldl_nil]
    obtain ⟨ih1, ih2⟩ := ih
    generalize hb : (List.range k).foldl (fun b i => rsStep metric b (tries i)) none = b at *
    refine ⟨?_, ?_⟩
    · intro m x h
      rw [rsStep] at h
      split at h
      · rename_i hmk
        obtain ⟨⟨i, hi, h1, h2⟩, h3⟩ := ih1 m x h
        refine ⟨⟨i, by omega, h1, h2⟩, ?_⟩
        intro j hj m' hm'
        rcases Nat.lt_succ_iff_lt_or_eq.1 hj with hj | rfl
        · exact h3 j hj m' hm'
        · rw [hmk] at hm'; cases hm'
      · rename_i mk hmk
        split at h
        · simp only [Option.some.injEq, Prod.mk.injEq] at h
          obtain ⟨rfl, rfl⟩ := h
          refine ⟨⟨k, by omega, rfl, hmk⟩, ?_⟩
          intro j hj m' hm'
          rcases Nat.lt_succ_iff_lt_or_eq.1 hj with hj | rfl
          · rw [ih2 rfl j hj] at hm'; cases hm'
          · rw [hmk] at hm'; exact (Option.some.inj hm').le
        · rename_i m1 x1
          obtain ⟨⟨i, hi, h1, h2⟩, h3⟩ := ih1 m1 x1 rfl
          split at h
          · rename_i hlt
            simp only [Option.some.injEq, Prod.mk.injEq] at h
            obtain ⟨rfl, rfl⟩ := h
            refine ⟨⟨k, by omega, rfl, hmk⟩, ?_⟩
            intro j hj m' hm'
            rcases Nat.lt_succ_iff_lt_or_eq.1 hj with hj | rfl
            · exact hlt.le.trans (h3 j hj m' hm')
            · rw [hmk] at hm'; exact (Option.some.inj hm').le
          · rename_i hlt
            simp only [Option.some.injEq, Prod.mk.injEq] at h
            obtain ⟨rfl, rfl⟩ := h
            refine ⟨⟨i, by omega, h1, h2⟩, ?_⟩
            intro j hj m' hm'
            rcases Nat.lt_succ_iff_lt_or_eq.1 hj with hj | rfl
            · exact h3 j hj m' hm'
            · rw [hmk] at hm'
              rw [← Option.some.inj hm']
              exact not_lt.1 hlt
    · intro h
      rw [rsStep] at h
      split at h
      · rename_i hmk
        intro i hi
        rcases Nat.lt_succ_iff_lt_or_eq.1 hi with hi | rfl
        · exact ih2 h i hi
        · exact hmk
      · split at h
        · cases h
        · split at h <;> cases h

/-- The random search gives the best of the tried points. -/
theorem rs_best (metric : β → Option R) (tries : Nat → β) (passes fuel : Nat) (x : β) (h : rs metric tries passes fuel = some x) :
    ∃ m k, metric x = some m ∧ x = tries k ∧ ∀ i, i < passes → ∀ m', metric (tries i) = some m' → m ≤ m' := by
  obtain ⟨h1, h2⟩ := rs_fold metric tries passes
  simp only [rs] at h
  generalize hb : (List.range passes).foldl (fun b i => rsStep metric b (tries i)) none = b at *
  cases b with
  | some e =>
    obtain ⟨m, y⟩ := e
    obtain ⟨⟨i, -, h3, h4⟩, h5⟩ := h1 m y rfl
    have hxy : y = x := by
      cases fuel <;> exact Option.some.inj h
    subst hxy
    exact ⟨m, i, h4, h3, h5⟩
  | none =>
    have hnone := h2 rfl
    have key : ∀ f k, rs.more metric tries f k none = some x → ∃ m j, metric x = some m ∧ x = tries j := by
      intro f
      induction f with
      | zero => intro k h; cases h
      | succ f ih =>
        intro k h
        rw [rs.more] at h
        cases hmk : metric (tries k) with
        | none =>
          rw [rsStep, hmk] at h
          exact ih (k + 1) h
        | some m =>
          rw [rsStep, hmk] at h
          have hx : tries k = x := by
            cases f <;> exact Option.some.inj h
          exact ⟨m, k, by rw [← hx]; exact hmk, hx.symm⟩
    obtain ⟨m, j, h3, h4⟩ := key fuel passes h
    refine ⟨m, j, h3, h4, ?_⟩
    intro i hi m' hm'
    rw [hnone i hi] at hm'
    cases hm'

/-- It ends as soon as some metric is a number. -/
theorem rs_defined (metric : β → Option R) (tries : Nat → β) (h : ∀ i, ∃ m, metric (tries i) = some m) (passes fuel : Nat) (hp : 0 < passes + fuel) :
    ∃ x, rs metric tries passes fuel = some x := by
  obtain ⟨-, h2⟩ := rs_fold metric tries passes
  simp only [rs]
  generalize (List.range passes).foldl (fun b i => rsStep metric b (tries i)) none = b at *
  cases b with
  | some e =>
    obtain ⟨m, y⟩ := e
    exact ⟨y, by cases fuel <;> rfl⟩
  | none =>
    have : passes = 0 := by
      by_contra hc
      obtain ⟨m, hm⟩ := h 0
      rw [h2 rfl 0 (by omega)] at hm
      cases hm
    subst this
    obtain ⟨f, rfl⟩ : ∃ f, fuel = f + 1 := ⟨fuel - 1, by omega⟩
    obtain ⟨m, hm⟩ := h 0
    refine ⟨tries 0, ?_⟩
    rw [rs.more, rsStep, hm]
    cases f <;> rfl

/-- It never ends when the metric is always `nan`. -/
theorem rs_nan (metric : β → Option R) (tries : Nat → β) (h : ∀ i, metric (tries i) = none) (passes fuel : Nat) : rs metric tries passes fuel = none := by
  obtain ⟨h1, -⟩ := rs_fold metric tries passes
  simp only [rs]
  generalize (List.range passes).foldl (fun b i => rsStep metric b (tries i)) none = b at *
  cases b with
  | some e =>
    obtain ⟨m, y⟩ := e
    obtain ⟨⟨i, -, h3, h4⟩, -⟩ := h1 m y rfl
    rw [h3, h i] at h4
    cases h4
  | none =>
    have key : ∀ f k, rs.more metric tries f k none = none := by
      intro f
      induction f with
      | zero => intro k; rfl
      | succ f ih =>
        intro k
        rw [rs.more, rsStep, h k]
        exact ih (k + 1)
    exact key fuel passes

end

/-- The random searches with the energies of Riesz never end for a single point. -/
theorem rs_riesz_single (energy : Pt → Pt → ℝ) (tries : Nat → List Pt) (h : ∀ i, (tries i).length = 1) (passes fuel : Nat) :
    rs (fun x => metricRiesz x energy) tries passes fuel = none :=
  rs_nan _ tries (fun i => riesz_single (tries i) (h i) energy) passes fuel

/-! ### Cases -/

/-- Three numbers spread by two replacements. -/
example : disperse (fun a b : ℤ => |a - b|) [(1, [5, -7]), (0, [1, 20])] [0, 1, 10] = some [20, -7, 10] := by decide

example : jittered 5 (some fun y : Nat => y % 2) (fun i => if i < 7 then 2 * i else 2 * i + 1) 3 = some [0, 2, 15, 17, 4] := by
  have h : Nat.sqrt 5 = 2 := (Nat.eq_sqrt.2 (by decide)).symm
  rw [jittered, h]
  decide

/-- One odd number in the first 27 draws: the loop for nine points never ends. -/
example (fuel : Nat) : jittered 9 (some fun y : Nat => y % 2) (fun i => if i = 0 then 1 else 2 * i) fuel = none := by
  have h : Nat.sqrt 9 = 3 := (Nat.eq_sqrt.2 (by decide)).symm
  exact jittered_stuck 9 2 _ (fun y => Nat.mod_lt y (by decide)) _ 1 (by rw [h]; decide) (by rw [h]; decide) fuel

example : rs (fun y : Nat => if y % 2 = 0 then some (y % 7) else none) (fun i => 3 * i + 1) 5 2 = some 10 := by decide

end NG.Sphere
