import Verif.Model.Neural
import Mathlib.Tactic.Ring
import Mathlib.Algebra.BigOperators.Fin
import Mathlib.Tactic.FieldSimp
import Mathlib.Tactic.Linarith
import Mathlib.Tactic.Positivity
import Mathlib.Tactic.NormNum

/-!
# C158: the actions of neural agents and their evaluation
-/

namespace NG.Neural

/-! ## Probabilities -/

theorem sumExp_pos (l : List ℝ) (h : l ≠ []) : 0 < (l.map fun b : ℝ => Real.exp b).sum := by
  apply List.sum_pos
  · intro x hx
    obtain ⟨b, _, rfl⟩ := List.mem_map.1 hx
    exact Real.exp_pos b
  · simpa using h

private theorem sum_div (l : List ℝ) (c : ℝ) : (l.map fun a : ℝ => a / c).sum = l.sum / c := by
  induction l with
  | nil => simp
  | cons a l ih => simp only [List.map_cons, List.sum_cons, ih]; ring

/-- The probabilities of the actions are positive and sum to one. -/
theorem softmax_spec (l : List ℝ) (h : l ≠ []) :
    (softmax l).length = l.length ∧ (∀ p ∈ softmax l, 0 < p) ∧ (softmax l).sum = 1 := by
  have hs := sumExp_pos l h
  refine ⟨by simp [softmax], ?_, ?_⟩
  · intro p hp
    obtain ⟨a, _, rfl⟩ := List.mem_map.1 hp
    have := Real.exp_pos a
    positivity
  · have : softmax l = (l.map fun b : ℝ => Real.exp b).map fun a : ℝ => a / (l.map fun b : ℝ => Real.exp b).sum := by
      simp [softmax, List.map_map, Function.comp_def]
    rw [this, sum_div]
    exact div_self hs.ne'

/-- The ratio of two probabilities is the exponential of the difference of the outputs. -/
theorem softmax_ratio (l : List ℝ) (i j : Nat) (a b : ℝ) (ha : l[i]? = some a) (hb : l[j]? = some b) :
    ∃ p q, (softmax l)[i]? = some p ∧ (softmax l)[j]? = some q ∧ p = Real.exp (a - b) * q := by
  refine ⟨_, _, by simp [softmax, ha]; rfl, by simp [softmax, hb]; rfl, ?_⟩
  rw [Real.exp_sub]
  have := Real.exp_pos b
  field_simp

/-! ## The largest entry -/

/-- The index of the first largest entry. -/
def FirstMax (l : List ℝ) (k : Nat) : Prop :=
  ∃ a, l[k]? = some a ∧ (∀ b ∈ l, b ≤ a) ∧ ∀ i b, i < k → l[i]? = some b → b < a

private theorem argmaxFrom_spec (l : List ℝ) : ∀ (pre : List ℝ) (best : ℝ) (k : Nat),
    pre[k]? = some best → (∀ b ∈ pre, b ≤ best) → (∀ i b, i < k → pre[i]? = some b → b < best) →
    FirstMax (pre ++ l) (argmaxFrom best k pre.length l) := by
  induction l with
  | nil => intro pre best k h1 h2 h3; rw [List.append_nil]; exact ⟨best, h1, h2, h3⟩
  | cons a l ih =>
    intro pre best k h1 h2 h3
    have hk : k < pre.length := (List.getElem?_eq_some_iff.1 h1).1
    have e : pre ++ a :: l = (pre ++ [a]) ++ l := by simp
    have el : pre.length + 1 = (pre ++ [a]).length := by simp
    unfold argmaxFrom
    split
    · rename_i hlt
      rw [e, el]
      refine ih (pre ++ [a]) a pre.length (by simp) ?_ ?_
      · intro b hb
        rcases List.mem_append.1 hb with hb | hb
        · exact (h2 b hb).trans hlt.le
        · rw [List.mem_singleton.1 hb]
      · intro i b hi hb
        rw [List.getElem?_append_left hi] at hb
        exact (h2 b (List.mem_of_getElem? hb)).trans_lt hlt
    · rename_i hlt
      rw [e, el]
      refine ih (pre ++ [a]) best k (by rw [List.getElem?_append_left hk]; exact h1) ?_ ?_
      · intro b hb
        rcases List.mem_append.1 hb with hb | hb
        · exact h2 b hb
        · rw [List.mem_singleton.1 hb]; exact not_lt.1 hlt
      · intro i b hi hb
        rw [List.getElem?_append_left (hi.trans hk)] at hb
        exact h3 i b hi hb

theorem argmax_spec (l : List ℝ) (h : l ≠ []) : FirstMax l (argmax l) := by
  cases l with
  | nil => exact absurd rfl h
  | cons a l =>
    have := argmaxFrom_spec l [a] a 0 (by simp) (by simp) (by intro i b hi; omega)
    simpa [argmax] using this

theorem firstMax_unique (l : List ℝ) (i j : Nat) (hi : FirstMax l i) (hj : FirstMax l j) : i = j := by
  obtain ⟨a, ha, hal, hai⟩ := hi
  obtain ⟨b, hb, hbl, hbi⟩ := hj
  rcases lt_trichotomy i j with h | h | h
  · have h1 := hbi i a h ha
    have h2 := hal b (List.mem_of_getElem? hb)
    linarith
  · exact h
  · have h1 := hai j b h hb
    have h2 := hbl a (List.mem_of_getElem? ha)
    linarith

/-- A strictly increasing function does not change the index of the first largest entry. -/
theorem argmax_map (f : ℝ → ℝ) (hf : StrictMono f) (l : List ℝ) (h : l ≠ []) : argmax (l.map f) = argmax l := by
  refine firstMax_unique (l.map f) _ _ (argmax_spec _ (by simpa using h)) ?_
  obtain ⟨a, h1, h2, h3⟩ := argmax_spec l h
  refine ⟨f a, by simp [h1], ?_, ?_⟩
  · intro b hb
    obtain ⟨c, hc, rfl⟩ := List.mem_map.1 hb
    exact hf.monotone (h2 c hc)
  · intro i b hi hb
    rw [List.getElem?_map] at hb
    obtain ⟨c, hc, rfl⟩ := Option.map_eq_some_iff.1 hb
    exact hf (h3 i c hi hc)

/-- A deterministic agent takes the first action with the largest output: no other choice, and no draw. -/
theorem act_deterministic (outputs : List ℝ) (h : outputs ≠ []) (u : ℝ) (k : Nat) :
    act true outputs u = k ↔ FirstMax outputs k := by
  have hs := sumExp_pos outputs h
  have e : act true outputs u = argmax outputs := by
    simp only [act, if_true, softmax]
    refine argmax_map _ ?_ outputs h
    intro a b hab
    exact div_lt_div_of_pos_right (Real.exp_lt_exp.2 hab) hs
  rw [e]
  constructor
  · rintro rfl; exact argmax_spec outputs h
  · exact fun hk => firstMax_unique outputs _ _ (argmax_spec outputs h) hk

/-- Adding the same number to all the outputs, or multiplying them by a positive number, changes no action of a deterministic agent; adding the
same number does not change the probabilities either. -/
theorem act_invariant (outputs : List ℝ) (h : outputs ≠ []) (c s : ℝ) (hs : 0 < s) (u v : ℝ) :
    act true (outputs.map fun a : ℝ => s * a + c) u = act true outputs v ∧
    softmax (outputs.map fun a : ℝ => a + c) = softmax outputs ∧
    act false (outputs.map fun a : ℝ => a + c) u = act false outputs u := by
  have h2 : softmax (outputs.map fun a : ℝ => a + c) = softmax outputs := by
    have hsum : ∀ l : List ℝ, ((l.map fun a : ℝ => a + c).map fun b : ℝ => Real.exp b).sum
        = Real.exp c * (l.map fun b : ℝ => Real.exp b).sum := by
      intro l
      induction l with
      | nil => simp
      | cons a l ih =>
        simp only [List.map_cons, List.sum_cons, ih, Real.exp_add]; ring
    unfold softmax
    rw [hsum, List.map_map]
    refine List.map_congr_left fun a _ => ?_
    have := sumExp_pos outputs h
    have := Real.exp_pos c
    simp only [Function.comp_apply, Real.exp_add]
    field_simp
  refine ⟨?_, h2, by simp only [act, h2]⟩
  have h1 := (act_deterministic outputs h v (act true outputs v)).1 rfl
  rw [act_deterministic _ (by simpa using h)]
  obtain ⟨a, e1, e2, e3⟩ := h1
  refine ⟨s * a + c, by simp [e1], ?_, ?_⟩
  · intro b hb
    obtain ⟨d, hd, rfl⟩ := List.mem_map.1 hb
    have := mul_le_mul_of_nonneg_left (e2 d hd) hs.le
    linarith
  · intro i b hi hb
    rw [List.getElem?_map] at hb
    obtain ⟨d, hd, rfl⟩ := Option.map_eq_some_iff.1 hb
    have := mul_lt_mul_of_pos_left (e3 i d hi hd) hs
    linarith

/-! ## Draws -/

/-- A drawn action is `i` exactly for the draws between the sum of the probabilities before `i` and this sum with that of `i`: an interval with
the length of the probability of `i`. -/
theorem sample_spec (l : List ℝ) : ∀ (u : ℝ) (i : Nat), (∀ p ∈ l, 0 < p) → 0 ≤ u → u < l.sum →
    (sample l u = i ↔ (l.take i).sum ≤ u ∧ u < (l.take (i + 1)).sum) := by
  induction l with
  | nil => intro u i _ h0 h1; simp at h1; linarith
  | cons p l ih =>
    intro u i hp h0 h1
    have hpos := hp p (by simp)
    have hl : ∀ q ∈ l, 0 < q := fun q hq => hp q (by simp [hq])
    unfold sample
    split
    · rename_i hu
      cases i with
      | zero => simp [h0, hu]
      | succ i =>
        refine iff_of_false (by omega) ?_
        rintro ⟨h, _⟩
        have : 0 ≤ (l.take i).sum := List.sum_nonneg fun x hx => (hl x (List.mem_of_mem_take hx)).le
        simp only [List.take_succ_cons, List.sum_cons] at h
        linarith
    · rename_i hu
      cases i with
      | zero =>
        refine iff_of_false (by omega) ?_
        rintro ⟨_, h⟩
        simp at h
        exact hu h
      | succ i =>
        rw [Nat.add_right_cancel_iff, ih (u - p) i hl (by linarith) (by simp at h1; linarith)]
        simp only [List.take_succ_cons, List.sum_cons]
        constructor
        · rintro ⟨a, b⟩; exact ⟨by linarith, by linarith⟩
        · rintro ⟨a, b⟩; exact ⟨by linarith, by linarith⟩

private theorem sample_lt (l : List ℝ) : ∀ u : ℝ, u < l.sum → l ≠ [] → sample l u < l.length := by
  induction l with
  | nil => intro u _ h; exact absurd rfl h
  | cons p l ih =>
    intro u hu _
    unfold sample
    split
    · simp
    · rename_i hp
      simp only [List.sum_cons] at hu
      have hne : l ≠ [] := by
        rintro rfl
        simp at hu
        exact hp hu
      have := ih (u - p) (by linarith) hne
      simp only [List.length_cons]; omega

/-- The action is one of the actions of the environment. -/
theorem act_valid (deterministic : Bool) (outputs : List ℝ) (h : outputs ≠ []) (u : ℝ) (hu : u < 1) :
    act deterministic outputs u < outputs.length := by
  cases deterministic with
  | true =>
    obtain ⟨a, ha, _⟩ := (act_deterministic outputs h u _).1 rfl
    exact (List.getElem?_eq_some_iff.1 ha).1
  | false =>
    obtain ⟨h1, _, h3⟩ := softmax_spec outputs h
    have := sample_lt (softmax outputs) u (by rw [h3]; exact hu) (by
      intro e; rw [e] at h3; simp at h3)
    rw [h1] at this
    simpa [act] using this

/-! ## Networks -/

/-- The weights and biases are bounded by 10, each row has `n` weights. -/
def Bounded (n : Nat) (l : Linear) : Prop :=
  (∀ r ∈ l.weight, r.length = n ∧ ∀ w ∈ r, |w| ≤ 10) ∧ ∀ b ∈ l.bias, |b| ≤ 10

private theorem dot_bound (M : ℝ) (hM : 0 ≤ M) : ∀ (r x : List ℝ), (∀ w ∈ r, |w| ≤ 10) → (∀ a ∈ x, |a| ≤ M) →
    |dot r x| ≤ 10 * M * r.length := by
  intro r
  induction r with
  | nil => intro x _ _; simp [dot]
  | cons w r ih =>
    intro x hr hx
    cases x with
    | nil => simp [dot]; positivity
    | cons a x =>
      have h1 := ih x (fun v hv => hr v (by simp [hv])) (fun v hv => hx v (by simp [hv]))
      have h2 : |w * a| ≤ 10 * M := by
        rw [abs_mul]
        exact mul_le_mul (hr w (by simp)) (hx a (by simp)) (abs_nonneg _) (by norm_num)
      have e : dot (w :: r) (a :: x) = w * a + dot r x := by simp [dot]
      rw [e]
      refine (abs_add_le _ _).trans ?_
      push_cast [List.length_cons]
      linarith

/-- The outputs of a layer with weights within `[-10, 10]` are bounded by a number that does not depend on the weights. -/
theorem linear_bound (l : Linear) (n : Nat) (hl : Bounded n l) (x : List ℝ) (M : ℝ) (hM : 0 ≤ M)
    (hx : ∀ a ∈ x, |a| ≤ M) : ∀ y ∈ l.run x, |y| ≤ 10 * M * n + 10 := by
  intro y hy
  unfold Linear.run at hy
  obtain ⟨i, hi, rfl⟩ := List.mem_iff_getElem.1 hy
  rw [List.getElem_zipWith]
  have hr := hl.1 _ (List.getElem_mem (l := l.weight) (n := i) (by simp at hi; omega))
  have hb := hl.2 _ (List.getElem_mem (l := l.bias) (n := i) (by simp at hi; omega))
  have := dot_bound M hM _ x hr.2 hx
  rw [hr.1] at this
  exact (abs_add_le _ _).trans (by linarith)

private theorem relu_bound (x : List ℝ) (M : ℝ) (hx : ∀ a ∈ x, |a| ≤ M) : ∀ y ∈ relu x, |y| ≤ M := by
  intro y hy
  obtain ⟨a, ha, rfl⟩ := List.mem_map.1 hy
  refine le_trans ?_ (hx a ha)
  rcases le_total a 0 with h | h
  · rw [max_eq_right h]; simp
  · rw [max_eq_left h]

/-- The outputs of the dense network are bounded for all weights within their bounds. -/
theorem denseNet_bound (lin1 lin2 lin3 head : Linear) (n : Nat) (h1 : Bounded n lin1) (h2 : Bounded 16 lin2)
    (h3 : Bounded 16 lin3) (h4 : Bounded 16 head) (obs : List ℝ) (M : ℝ) (hM : 0 ≤ M) (hx : ∀ a ∈ obs, |a| ≤ M) :
    ∀ y ∈ denseNet lin1 lin2 lin3 head obs, |y| ≤ 160 ^ 3 * (10 * M * n + 10) + 257610 := by
  have b1 := relu_bound _ _ (linear_bound lin1 n h1 obs M hM hx)
  have p1 : 0 ≤ 10 * M * n + 10 := by positivity
  have b2 := relu_bound _ _ (linear_bound lin2 16 h2 _ _ p1 b1)
  have p2 : 0 ≤ 10 * (10 * M * n + 10) * (16 : Nat) + 10 := by positivity
  have b3 := relu_bound _ _ (linear_bound lin3 16 h3 _ _ p2 b2)
  have p3 : 0 ≤ 10 * (10 * (10 * M * n + 10) * (16 : Nat) + 10) * (16 : Nat) + 10 := by positivity
  have b4 := linear_bound head 16 h4 _ _ p3 b3
  intro y hy
  refine (b4 y hy).trans (le_of_eq ?_)
  push_cast
  ring

/-- A linear layer is affine, and the dense network without biases is positively homogeneous: the scale of the observations does not
change the action of a deterministic agent. -/
def unbiased (l : Linear) : Prop := ∀ b ∈ l.bias, b = 0

private theorem dot_scale (s : ℝ) : ∀ (r x : List ℝ), dot r (x.map fun a : ℝ => s * a) = s * dot r x := by
  intro r
  induction r with
  | nil => intro x; simp [dot]
  | cons w r ih =>
    intro x
    cases x with
    | nil => simp [dot]
    | cons a x =>
      have := ih x
      simp only [dot, List.map_cons, List.zipWith_cons_cons, List.sum_cons] at this ⊢
      rw [this]; ring

private theorem run_scale (l : Linear) (hl : unbiased l) (s : ℝ) (x : List ℝ) :
    l.run (x.map fun a : ℝ => s * a) = (l.run x).map fun a : ℝ => s * a := by
  unfold Linear.run
  rw [List.map_zipWith]
  obtain ⟨w, b⟩ := l
  simp only [unbiased] at hl ⊢
  induction w generalizing b with
  | nil => simp
  | cons r w ih =>
    cases b with
    | nil => simp
    | cons c b =>
      have hc : c = 0 := hl c (by simp)
      rw [List.zipWith_cons_cons, List.zipWith_cons_cons, ih b (fun d hd => hl d (by simp [hd])), dot_scale, hc]
      simp

private theorem relu_scale (s : ℝ) (hs : 0 < s) (x : List ℝ) :
    relu (x.map fun a : ℝ => s * a) = (relu x).map fun a : ℝ => s * a := by
  unfold relu
  rw [List.map_map, List.map_map]
  refine List.map_congr_left fun a _ => ?_
  simp only [Function.comp_apply]
  rcases le_total a 0 with h | h
  · rw [max_eq_right h, max_eq_right (by nlinarith)]; simp
  · rw [max_eq_left h, max_eq_left (by positivity)]

theorem denseNet_homogeneous (lin1 lin2 lin3 head : Linear) (h1 : unbiased lin1) (h2 : unbiased lin2) (h3 : unbiased lin3)
    (h4 : unbiased head) (obs : List ℝ) (s : ℝ) (hs : 0 < s)
    (hne : denseNet lin1 lin2 lin3 head obs ≠ []) (u v : ℝ) :
    denseNet lin1 lin2 lin3 head (obs.map fun a : ℝ => s * a) = (denseNet lin1 lin2 lin3 head obs).map (fun a : ℝ => s * a) ∧
    act true (denseNet lin1 lin2 lin3 head (obs.map fun a : ℝ => s * a)) u = act true (denseNet lin1 lin2 lin3 head obs) v := by
  have e : denseNet lin1 lin2 lin3 head (obs.map fun a : ℝ => s * a) = (denseNet lin1 lin2 lin3 head obs).map fun a : ℝ => s * a := by
    unfold denseNet
    simp only [run_scale _ h1, run_scale _ h2, run_scale _ h3, run_scale _ h4, relu_scale s hs]
  refine ⟨e, ?_⟩
  rw [e]
  have := (act_invariant (denseNet lin1 lin2 lin3 head obs) hne 0 s hs u v).1
  simpa using this

/-- The output `j` of a layer: the sum of the products of the weights and the inputs, and the bias. -/
theorem linear_spec (l : Linear) (x : List ℝ) (j : Nat) (r : List ℝ) (b : ℝ) (hr : l.weight[j]? = some r) (hb : l.bias[j]? = some b)
    (hl : r.length = x.length) :
    (l.run x)[j]? = some ((∑ i : Fin x.length, r[i]'(by omega) * x[i]) + b) := by
  have hd : ∀ (r x : List ℝ) (hl : r.length = x.length), dot r x = ∑ i : Fin x.length, r[i]'(by omega) * x[i] := by
    intro r
    induction r with
    | nil => intro x hl; cases x with
      | nil => simp [dot]
      | cons a x => simp at hl
    | cons w r ih =>
      intro x hl
      cases x with
      | nil => simp at hl
      | cons a x =>
        have e : dot (w :: r) (a :: x) = w * a + dot r x := by simp [dot]
        rw [e, ih x (by simpa using hl)]
        exact (Fin.sum_univ_succ (n := x.length) fun i : Fin (x.length + 1) => (w :: r)[i.1]'(by simp at hl ⊢; omega) * (a :: x)[i.1]).symm
  unfold Linear.run
  rw [List.getElem?_zipWith, hr, hb, ← hd r x hl]

/-- The layer has no weight but zero. -/
def Zero (l : Linear) : Prop := ∀ r ∈ l.weight, ∀ w ∈ r, w = 0

private theorem zero_run (l : Linear) (hl : Zero l) (x y : List ℝ) : l.run x = l.run y := by
  have hd : ∀ (r x : List ℝ), (∀ w ∈ r, w = 0) → dot r x = 0 := by
    intro r
    induction r with
    | nil => intro x _; simp [dot]
    | cons w r ih =>
      intro x h
      cases x with
      | nil => simp [dot]
      | cons a x =>
        have e : dot (w :: r) (a :: x) = w * a + dot r x := by simp [dot]
        rw [e, ih x (fun v hv => h v (by simp [hv])), h w (by simp)]; simp
  unfold Linear.run
  apply List.ext_getElem?
  intro i
  rw [List.getElem?_zipWith, List.getElem?_zipWith]
  cases hw : l.weight[i]? with
  | none => rfl
  | some r =>
    have := hl r (List.mem_of_getElem? hw)
    cases l.bias[i]? with
    | none => rfl
    | some b => simp only [hd r x this, hd r y this]

/-- All four layers are used, one after the other: if one of them has only zero weights, the outputs do not depend on the observation. -/
theorem bottleneck (lin1 lin2 lin3 head : Linear) (h : Zero lin1 ∨ Zero lin2 ∨ Zero lin3 ∨ Zero head) (x y : List ℝ) :
    denseNet lin1 lin2 lin3 head x = denseNet lin1 lin2 lin3 head y := by
  unfold denseNet
  rcases h with h | h | h | h
  · simp only [zero_run lin1 h x y]
  · simp only [zero_run lin2 h (relu (lin1.run x)) (relu (lin1.run y))]
  · simp only [zero_run lin3 h (relu (lin2.run (relu (lin1.run x)))) (relu (lin2.run (relu (lin1.run y))))]
  · exact zero_run head h _ _

/-! ## Evaluation -/

private theorem total_spec (post : ℝ → ℝ) : ∀ (l : List Play) (s : ℝ), total post l = some s →
    ∃ vs : List ℝ, l.map (compute post) = vs.map some ∧ s = vs.sum := by
  intro l
  induction l with
  | nil => intro s h; simp [total] at h; exact ⟨[], by simp, by simp [h.symm]⟩
  | cons p l ih =>
    intro s h
    unfold total at h
    split at h
    · rename_i a b ha hb
      obtain ⟨vs, e1, e2⟩ := ih b hb
      simp only [Option.some.injEq] at h
      exact ⟨a :: vs, by simp [ha, e1], by rw [← h, e2]; simp⟩
    · cases h

private theorem total_none (post : ℝ → ℝ) : ∀ l : List Play, total post l = none ↔ Play.otherError ∈ l := by
  intro l
  induction l with
  | nil => simp [total]
  | cons p l ih =>
    unfold total
    cases p with
    | otherError => simp [compute]
    | reward r =>
      cases ht : total post l with
      | none => simp [compute, ih.1 ht]
      | some b =>
        have : Play.otherError ∉ l := fun h => by rw [ih.2 h] at ht; cases ht
        simp [compute, this]
    | runtimeError =>
      cases ht : total post l with
      | none => simp [compute, ih.1 ht]
      | some b =>
        have : Play.otherError ∉ l := fun h => by rw [ih.2 h] at ht; cases ht
        simp [compute, this]

/-- The evaluation is the mean of the values of at least one play, and so between bounds of these; it raises exactly when a play raises something else
than a `RuntimeError`. -/
theorem evaluation_spec (post : ℝ → ℝ) (budget repetitions : Nat) (plays : Nat → Play) :
    (evaluation post budget repetitions plays = none ↔ ∃ i < max 1 (budget / repetitions), plays i = .otherError) ∧
    ∀ v, evaluation post budget repetitions plays = some v →
      ∃ vs : List ℝ, vs.length = max 1 (budget / repetitions) ∧
        (∀ i < max 1 (budget / repetitions), compute post (plays i) = vs[i]?) ∧ v * vs.length = vs.sum ∧
        ∀ a b : ℝ, (∀ x ∈ vs, a ≤ x ∧ x ≤ b) → a ≤ v ∧ v ≤ b := by
  have hpos : 0 < max 1 (budget / repetitions) := by omega
  constructor
  · unfold evaluation
    simp only [Option.map_eq_none_iff, total_none, List.mem_map, List.mem_range]
  · intro v hv
    unfold evaluation at hv
    obtain ⟨s, hs, rfl⟩ := Option.map_eq_some_iff.1 hv
    obtain ⟨vs, e1, rfl⟩ := total_spec post _ s hs
    have hl : vs.length = max 1 (budget / repetitions) := by
      have := congrArg List.length e1
      simpa using this.symm
    have hn : (0 : ℝ) < ((max 1 (budget / repetitions) : Nat) : ℝ) := by exact_mod_cast hpos
    have hbound : ∀ (l : List ℝ) (a b : ℝ), (∀ x ∈ l, a ≤ x ∧ x ≤ b) → a * l.length ≤ l.sum ∧ l.sum ≤ b * l.length := by
      intro l a b
      induction l with
      | nil => intro _; simp
      | cons x l ih =>
        intro h
        have h1 := h x (by simp)
        have h2 := ih fun y hy => h y (by simp [hy])
        push_cast [List.length_cons, List.sum_cons]
        constructor <;> linarith
    refine ⟨vs, hl, ?_, by rw [hl]; field_simp, ?_⟩
    · intro i hi
      have := congrArg (fun l => l[i]?) e1
      simp only [List.getElem?_map, List.getElem?_range hi, Option.map_some] at this
      cases hvi : vs[i]? with
      | none =>
        have := List.getElem?_eq_none_iff.1 hvi
        omega
      | some x => rw [hvi] at this; simpa using this
    · intro a b h
      have := hbound vs a b h
      rw [hl] at this
      exact ⟨by rw [le_div_iff₀ hn]; exact this.1, by rw [div_le_iff₀ hn]; exact this.2⟩

/-- The statement that an agent that fails is not better than one that plays. -/
def FailureNotBetter : Prop := ∀ r : ℝ, ∀ a b, compute (fun x => -x) (.reward r) = some a → compute (fun x => -x) .runtimeError = some b → a ≤ b

/-- It is false: an agent whose play fails has the loss of a reward of zero, better than all the agents with a negative reward. -/
theorem failure_better : ¬ FailureNotBetter := by
  intro h
  have := h (-1) 1 0 (by simp [compute]) (by simp [compute])
  linarith

/-- It holds for rewards that are not negative. -/
theorem failure_not_better_partial (r : ℝ) (hr : 0 ≤ r) (a b : ℝ) (ha : compute (fun x => -x) (.reward r) = some a)
    (hb : compute (fun x => -x) .runtimeError = some b) : a ≤ b := by
  simp [compute] at ha hb
  linarith

/-! ## Cases -/

example : act true [1, 3, 3, 2] 0 = 1 :=
  (act_deterministic _ (by simp) 0 1).2 ⟨3, by simp, by norm_num, by
    intro i b hi hb
    have : i = 0 := by omega
    subst this
    simp at hb; rw [← hb]; norm_num⟩

example : sample [1 / 2, 1 / 4, 1 / 4] (3 / 5) = 1 :=
  (sample_spec [1 / 2, 1 / 4, 1 / 4] (3 / 5) 1 (by norm_num) (by norm_num) (by norm_num)).2 (by norm_num)

example : denseNet ⟨[[1, -1]], [0]⟩ ⟨[[2]], [1]⟩ ⟨[[1]], [0]⟩ ⟨[[1], [-1]], [0, 5]⟩ [3, 1] = [5, 0] := by
  norm_num [denseNet, Linear.run, relu, dot]

example : evaluation (fun x => -x) 1000 500 (fun i => if i = 0 then .reward 3 else .runtimeError) = some (-3 / 2) := by
  norm_num [evaluation, List.range_succ, total, compute]

end NG.Neural
