/-
C150: what the losses of the image problems measure, which images can be reached, and when an attack has worked.
-/
import Verif.Model.Images
import Mathlib.Tactic.Linarith
import Mathlib.Tactic.Ring
import Mathlib.Tactic.FieldSimp
import Mathlib.Tactic.Positivity
import Mathlib.Tactic.NormNum
import Mathlib.Algebra.Order.Field.Rat
import Mathlib.Algebra.BigOperators.Group.List.Basic

namespace NG.Images

section
variable {R : Type} [Field R] [LinearOrder R] [IsStrictOrderedRing R]

/-- Specification: the pixels agree with the shape of the image. -/
def WF (x : Img R) : Prop := x.px.length = x.h * x.w ∧ ∀ p ∈ x.px, p.length = x.c

omit [Field R] [LinearOrder R] [IsStrictOrderedRing R] in
theorem flat_length (x : Img R) (h : WF x) : x.flat.length = x.h * x.w * x.c := by
  have : ∀ l : List (List R), (∀ p ∈ l, p.length = x.c) → l.flatten.length = l.length * x.c := by
    intro l hl
    induction l with
    | nil => simp
    | cons a l ih =>
      rw [List.flatten_cons, List.length_append, ih (fun p hp => hl p (List.mem_cons_of_mem _ hp)), hl a (by simp), List.length_cons]
      ring
  rw [Img.flat, this x.px h.2, h.1]

omit [Field R] [LinearOrder R] [IsStrictOrderedRing R] in
theorem flatten_inj (c : Nat) (hc : 0 < c) : ∀ a b : List (List R), (∀ p ∈ a, p.length = c) → (∀ p ∈ b, p.length = c) →
    a.flatten = b.flatten → a = b := by
  intro a
  induction a with
  | nil =>
    intro b _ hb h
    cases b with
    | nil => rfl
    | cons p b =>
      exfalso
      have hp := hb p (by simp)
      have := congrArg List.length h
      simp at this
      omega
  | cons p a ih =>
    intro b ha hb h
    cases b with
    | nil =>
      exfalso
      have hp := ha p (by simp)
      have := congrArg List.length h
      rw [List.flatten_cons, List.length_append] at this
      simp only [List.flatten_nil, List.length_nil] at this
      omega
    | cons q b =>
      have hp := ha p (by simp)
      have hq := hb q (by simp)
      rw [List.flatten_cons, List.flatten_cons] at h
      obtain ⟨h1, h2⟩ := List.append_inj h (by rw [hp, hq])
      rw [h1, ih b (fun p hp => ha p (List.mem_cons_of_mem _ hp)) (fun p hp => hb p (List.mem_cons_of_mem _ hp)) h2]

theorem zip_sum_nonneg (f : R → R → R) (hf : ∀ a b, 0 ≤ f a b) : ∀ x y : List R, 0 ≤ (List.zipWith f x y).sum := by
  intro x
  induction x with
  | nil => intro y; simp
  | cons a x ih =>
    intro y
    cases y with
    | nil => simp
    | cons b y =>
      rw [List.zipWith_cons_cons, List.sum_cons]
      exact add_nonneg (hf a b) (ih y)

theorem zip_sum_zero (f : R → R → R) (hf : ∀ a b, 0 ≤ f a b) (h0 : ∀ a b, f a b = 0 ↔ a = b) : ∀ x y : List R, x.length = y.length →
    ((List.zipWith f x y).sum = 0 ↔ x = y) := by
  intro x
  induction x with
  | nil => intro y h; cases y with
    | nil => simp
    | cons b y => simp at h
  | cons a x ih =>
    intro y h
    cases y with
    | nil => simp at h
    | cons b y =>
      rw [List.zipWith_cons_cons, List.sum_cons, List.cons.injEq, ← h0 a b, ← ih y (by simpa using h)]
      have h1 := hf a b
      have h2 := zip_sum_nonneg f hf x y
      constructor
      · intro h3; constructor <;> linarith
      · rintro ⟨h3, h4⟩; rw [h3, h4, add_zero]

omit [Field R] [LinearOrder R] [IsStrictOrderedRing R] in
theorem sameImage (x r : Img R) (hs : sameShape x r) (hx : WF x) (hr : WF r) (h : x.flat = r.flat) (hc : 0 < r.c) : x = r := by
  obtain ⟨h1, h2, h3⟩ := hs
  have : x.px = r.px := flatten_inj r.c hc _ _ (fun p hp => by rw [hx.2 p hp, h3]) hr.2 h
  cases x; cases r; simp_all

/-- **C150.** The two distances accept exactly the images of the shape of the reference, are never negative, and are zero exactly for the reference. -/
theorem distances (r x : Img R) (hr : WF r) (hx : WF x) (hc : 0 < r.c) :
    ((sumAbs r x).isSome ↔ x.h = r.h ∧ x.w = r.w ∧ x.c = r.c) ∧ ((sumSq r x).isSome ↔ x.h = r.h ∧ x.w = r.w ∧ x.c = r.c) ∧
      (∀ v, sumAbs r x = some v → 0 ≤ v) ∧ (∀ v, sumSq r x = some v → 0 ≤ v) ∧
      (sumAbs r x = some 0 ↔ x = r) ∧ (sumSq r x = some 0 ↔ x = r) := by
  have hA : ∀ a b : R, 0 ≤ |a - b| := fun a b => abs_nonneg _
  have hS : ∀ a b : R, 0 ≤ (a - b) ^ 2 := fun a b => sq_nonneg _
  have hA0 : ∀ a b : R, |a - b| = 0 ↔ a = b := fun a b => by rw [abs_eq_zero, sub_eq_zero]
  have hS0 : ∀ a b : R, (a - b) ^ 2 = 0 ↔ a = b := fun a b => by rw [sq_eq_zero_iff, sub_eq_zero]
  have key : ∀ f : R → R → R, (∀ a b, 0 ≤ f a b) → (∀ a b, f a b = 0 ↔ a = b) →
      ((if sameShape x r then some ((List.zipWith f x.flat r.flat).sum) else none : Option R) = some 0 ↔ x = r) := by
    intro f hf h0
    constructor
    · intro h
      split at h
      next hs =>
        have hl : x.flat.length = r.flat.length := by rw [flat_length x hx, flat_length r hr, hs.1, hs.2.1, hs.2.2]
        exact sameImage x r hs hx hr ((zip_sum_zero f hf h0 _ _ hl).1 (Option.some.inj h)) hc
      next => cases h
    · rintro rfl
      rw [if_pos ⟨rfl, rfl, rfl⟩, (zip_sum_zero f hf h0 _ _ rfl).2 rfl]
  refine ⟨?_, ?_, ?_, ?_, key _ hA hA0, key _ hS hS0⟩
  · unfold sumAbs; split <;> simp_all
  · unfold sumSq; split <;> simp_all
  · intro v h
    unfold sumAbs at h
    split at h
    · cases h; exact zip_sum_nonneg _ hA _ _
    · cases h
  · intro v h
    unfold sumSq at h
    split at h
    · cases h; exact zip_sum_nonneg _ hS _ _
    · cases h

/-- **C150.** The sum of the absolute differences does not change when the image and the reference are exchanged, and satisfies the triangle inequality. -/
theorem abs_metric (x y z : Img R) (hx : WF x) (hy : WF y) (hz : WF z) (h1 : sameShape x y) (h2 : sameShape y z) :
    sumAbs x y = sumAbs y x ∧ ∃ a b c, sumAbs z x = some a ∧ sumAbs y x = some b ∧ sumAbs z y = some c ∧ a ≤ b + c := by
  have hzx : sameShape x z := ⟨h1.1.trans h2.1, h1.2.1.trans h2.2.1, h1.2.2.trans h2.2.2⟩
  have hyx : sameShape y x := ⟨h1.1.symm, h1.2.1.symm, h1.2.2.symm⟩
  have tri : ∀ a b c : List R, a.length = b.length → b.length = c.length →
      (List.zipWith (fun a b => |a - b|) a c).sum ≤ (List.zipWith (fun a b => |a - b|) a b).sum + (List.zipWith (fun a b => |a - b|) b c).sum := by
    intro a
    induction a with
    | nil => intro b c hb hc; cases b <;> cases c <;> simp_all
    | cons u a ih =>
      intro b c hb hc
      cases b with
      | nil => simp at hb
      | cons v b => cases c with
        | nil => simp at hc
        | cons w c =>
          simp only [List.zipWith_cons_cons, List.sum_cons]
          have := ih b c (by simpa using hb) (by simpa using hc)
          have := abs_sub_le u v w
          linarith
  constructor
  · unfold sumAbs
    rw [if_pos hyx, if_pos h1]
    congr 2
    rw [List.zipWith_comm]
    congr 1
    funext a b
    exact abs_sub_comm _ _
  · refine ⟨_, _, _, if_pos hzx, if_pos h1, if_pos h2, tri _ _ _ ?_ ?_⟩
    · rw [flat_length x hx, flat_length y hy, h1.1, h1.2.1, h1.2.2]
    · rw [flat_length z hz, flat_length y hy, h2.1, h2.2.1, h2.2.2]

/-- Witness: a 1×2 image with one different channel. -/
example : sumAbs (R := ℚ) ⟨1, 2, 3, [[10, 20, 30], [0, 0, 5]]⟩ ⟨1, 2, 3, [[10, 20, 30], [0, 7, 5]]⟩ = some 7 ∧
    sumSq (R := ℚ) ⟨1, 2, 3, [[10, 20, 30], [0, 0, 5]]⟩ ⟨1, 2, 3, [[10, 20, 30], [0, 7, 5]]⟩ = some 49 ∧
    sumAbs (R := ℚ) ⟨1, 2, 3, [[10, 20, 30], [0, 0, 5]]⟩ ⟨2, 1, 3, [[10, 20, 30], [0, 7, 5]]⟩ = none := by decide +kernel

/-- **C150.** The references that are accepted are those with values in the range of pixels and not only small values: a reference scaled to the unit
interval, or empty, is refused. -/
theorem reference_accepted (r : Img R) :
    (makeRef r = some r ↔ (∀ v ∈ r.flat, 0 ≤ v ∧ v ≤ 256) ∧ ∃ v ∈ r.flat, 3 < v) ∧ ((∀ v ∈ r.flat, v ≤ 1) → makeRef r = none) ∧ (makeRef r = none ∨ makeRef r = some r) := by
  unfold makeRef
  refine ⟨?_, ?_, ?_⟩
  · constructor
    · intro h
      split at h
      next hh => exact ⟨fun v hv => ⟨hh.2.1 v hv, hh.2.2.1 v hv⟩, hh.2.2.2⟩
      next => cases h
    · rintro ⟨h1, v, hv, h3⟩
      rw [if_pos]
      refine ⟨?_, fun v hv => (h1 v hv).1, fun v hv => (h1 v hv).2, v, hv, h3⟩
      intro h; rw [h] at hv; cases hv
  · intro h
    rw [if_neg]
    rintro ⟨_, _, _, v, hv, h3⟩
    have := h v hv
    linarith
  · split
    · exact Or.inr rfl
    · exact Or.inl rfl

/-! ### Histograms -/

omit [LinearOrder R] [IsStrictOrderedRing R] in
theorem sum_zip_sub : ∀ x y : List R, x.length = y.length → (List.zipWith (fun a b => a - b) x y).sum = x.sum - y.sum := by
  intro x
  induction x with
  | nil => intro y h; cases y <;> simp_all
  | cons a x ih =>
    intro y h
    cases y with
    | nil => simp at h
    | cons b y =>
      rw [List.zipWith_cons_cons, List.sum_cons, List.sum_cons, List.sum_cons, ih y (by simpa using h)]
      ring

omit [IsStrictOrderedRing R] in
/-- **C150.** What the difference of the histograms is: the difference of the total gray levels. -/
theorem histogram_is_brightness (r x : Img R) (hr : WF r) (hx : WF x) (hs : sameShape x r) (hc : x.c = 3) :
    histogram r x = some ((x.px.map List.sum).sum - (r.px.map List.sum).sum) := by
  unfold histogram gray
  rw [if_pos ⟨hs, hc⟩, sum_zip_sub]
  · rw [(List.perm_insertionSort _ _).sum_eq, (List.perm_insertionSort _ _).sum_eq]
  · rw [List.length_insertionSort, List.length_insertionSort, List.length_map, List.length_map, hx.1, hr.1, hs.1, hs.2.1]

omit [IsStrictOrderedRing R] in
/-- **C150, partial.** Images with the same gray levels have difference zero. Missing: the converse, and that the difference is not negative
(`histogram_not_a_distance`, `black_minimizes`). -/
theorem histogram_partial (r x : Img R) (hr : WF r) (hx : WF x) (hs : sameShape x r) (hc : x.c = 3)
    (h : (x.px.map List.sum).Perm (r.px.map List.sum)) : histogram r x = some 0 := by
  rw [histogram_is_brightness r x hr hx hs hc, h.sum_eq, sub_self]

theorem sum_nonneg' : ∀ l : List R, (∀ v ∈ l, 0 ≤ v) → 0 ≤ l.sum := by
  intro l
  induction l with
  | nil => intro _; simp
  | cons a l ih =>
    intro h
    rw [List.sum_cons]
    exact add_nonneg (h a (by simp)) (ih fun v hv => h v (List.mem_cons_of_mem _ hv))

/-- **C150, negative.** Whatever the reference, the best image for the difference of histograms is the black one. -/
theorem black_minimizes (r x : Img R) (hr : WF r) (hx : WF x) (hs : sameShape x r) (hc : x.c = 3) (h0 : ∀ v ∈ x.flat, 0 ≤ v) :
    ∃ b v, histogram r ⟨r.h, r.w, 3, List.replicate (r.h * r.w) [0, 0, 0]⟩ = some b ∧ histogram r x = some v ∧ b ≤ v ∧
      (makeRef r = some r → b < 0) := by
  have hrc : r.c = 3 := hs.2.2.symm.trans hc
  have hb : WF (⟨r.h, r.w, 3, List.replicate (r.h * r.w) [0, 0, 0]⟩ : Img R) := by
    refine ⟨by simp, ?_⟩
    intro p hp
    rw [List.eq_of_mem_replicate hp]; rfl
  have hz : ((List.replicate (r.h * r.w) [(0 : R), 0, 0]).map List.sum).sum = 0 := by simp
  refine ⟨_, _, histogram_is_brightness r _ hr hb ⟨rfl, rfl, hrc.symm⟩ rfl, histogram_is_brightness r x hr hx hs hc, ?_, ?_⟩
  · simp only [hz]
    have : 0 ≤ (x.px.map List.sum).sum := by
      apply sum_nonneg'
      intro v hv
      obtain ⟨p, hp, rfl⟩ := List.mem_map.1 hv
      exact sum_nonneg' p fun w hw => h0 w (List.mem_flatten.2 ⟨p, hp, hw⟩)
    linarith
  · intro h
    obtain ⟨h1, v, hv, h3⟩ := (reference_accepted r).1.1 h
    simp only [hz]
    have key : ∀ l : List R, (∀ v ∈ l, 0 ≤ v) → ∀ v ∈ l, v ≤ l.sum := by
      intro l
      induction l with
      | nil => intro _ v hv; cases hv
      | cons a l ih =>
        intro hl v hv
        rw [List.sum_cons]
        rcases List.mem_cons.1 hv with rfl | hv
        · have := sum_nonneg' l fun v hv => hl v (List.mem_cons_of_mem _ hv)
          linarith
        · have := ih (fun v hv => hl v (List.mem_cons_of_mem _ hv)) v hv
          have := hl a (by simp)
          linarith
    have e : (r.px.map List.sum).sum = r.flat.sum := by rw [Img.flat, List.sum_flatten]
    rw [e]
    have := key r.flat (fun v hv => (h1 v hv).1) v hv
    linarith

/-- **C150, negative.** Two images with different gray levels can have difference zero, and exchanging the roles changes the sign. -/
theorem histogram_not_a_distance :
    histogram (R := ℚ) ⟨1, 2, 3, [[10, 10, 10], [20, 20, 20]]⟩ ⟨1, 2, 3, [[0, 0, 0], [30, 30, 30]]⟩ = some 0 ∧
      histogram (R := ℚ) ⟨1, 1, 3, [[10, 10, 10]]⟩ ⟨1, 1, 3, [[1, 2, 3]]⟩ = some (-24) ∧
      histogram (R := ℚ) ⟨1, 1, 3, [[1, 2, 3]]⟩ ⟨1, 1, 3, [[10, 10, 10]]⟩ = some 24 := by decide +kernel

/-! ### Blur -/

/-- **C150.** The blur is never positive, only defined for three channels, and zero exactly when the Laplacian is the same everywhere. -/
theorem blur_nonpos (lap : Img R → List R) (x : Img R) :
    ((blurLoss lap x).isSome ↔ x.c = 3) ∧ (∀ v, blurLoss lap x = some v → v ≤ 0) ∧
      (lap x ≠ [] → x.c = 3 → (blurLoss lap x = some 0 ↔ ∃ c, ∀ v ∈ lap x, v = c)) := by
  have nn : ∀ (l : List R) (m : R), 0 ≤ (l.map fun a => (a - m) ^ 2).sum := by
    intro l m
    apply sum_nonneg'
    intro v hv
    obtain ⟨a, _, rfl⟩ := List.mem_map.1 hv
    exact sq_nonneg _
  refine ⟨?_, ?_, ?_⟩
  · unfold blurLoss; split <;> simp_all
  · intro v h
    unfold blurLoss at h
    split at h
    · cases h
      unfold variance
      have := div_nonneg (nn (lap x) ((lap x).sum / (lap x).length)) (Nat.cast_nonneg (α := R) (lap x).length)
      linarith
    · cases h
  · intro hne hc
    generalize hL : lap x = l at hne
    have hlen : (0 : R) < l.length := by exact_mod_cast List.length_pos_of_ne_nil hne
    unfold blurLoss
    rw [if_pos hc, hL]
    have hz : ∀ (l : List R) (m : R), (l.map fun a => (a - m) ^ 2).sum = 0 → ∀ v ∈ l, v = m := by
      intro l m
      induction l with
      | nil => intro _ v hv; cases hv
      | cons a l ih =>
        intro h v hv
        rw [List.map_cons, List.sum_cons] at h
        have h1 := sq_nonneg (a - m)
        have h2 := nn l m
        rcases List.mem_cons.1 hv with rfl | hv
        · have : (v - m) ^ 2 = 0 := by linarith
          exact sub_eq_zero.1 (pow_eq_zero_iff (two_ne_zero)|>.1 this)
        · exact ih (by linarith) v hv
    constructor
    · intro h
      have h1 : variance l = 0 := by have := Option.some.inj h; linarith
      unfold variance at h1
      rcases div_eq_zero_iff.1 h1 with h2 | h2
      · exact ⟨_, hz l _ h2⟩
      · linarith
    · rintro ⟨c, h⟩
      have e : l = List.replicate l.length c := List.eq_replicate_iff.2 ⟨rfl, h⟩
      have hs : l.sum = l.length * c := by
        conv_lhs => rw [e]
        simp
      have : variance l = 0 := by
        unfold variance
        have hm : l.sum / l.length = c := by rw [hs]; field_simp
        rw [hm]
        have : (l.map fun a => (a - c) ^ 2) = List.replicate l.length 0 := by
          conv_lhs => rw [e]
          simp
        rw [this]; simp
      rw [this, neg_zero]

example : blurLoss (R := ℚ) (fun x => x.flat) ⟨1, 1, 3, [[0, 3, 6]]⟩ = some (-6) ∧
    blurLoss (R := ℚ) (fun x => x.flat) ⟨1, 1, 1, [[3]]⟩ = none := by decide +kernel

/-! ### Generated images -/

/-- **C150.** Whatever the generator gives, the pixels are within the range of the parametrization of images, and the image has the shape of the output. -/
theorem pixels_range (b : Bool) (out : List (List R)) :
    (pixels b out).length = out.length ∧ (∀ p ∈ pixels b out, ∀ v ∈ p, 0 ≤ v ∧ v ≤ 25599 / 100) ∧
      ∀ (i : Nat) (p : List R), out[i]? = some p → ∃ q : List R, (pixels b out)[i]? = some q ∧ q.length = p.length := by
  have hv : ∀ v : R, 0 ≤ (min (max v (-1)) 1 + 1) * (25599 / 100) / 2 ∧ (min (max v (-1)) 1 + 1) * (25599 / 100) / 2 ≤ 25599 / 100 := by
    intro v
    have h1 : -1 ≤ min (max v (-1)) 1 := le_min (le_max_right _ _) (by linarith)
    have h2 : min (max v (-1)) 1 ≤ 1 := min_le_right _ _
    constructor <;> linarith
  refine ⟨by simp [pixels], ?_, ?_⟩
  · intro p hp v hvp
    simp only [pixels, List.mem_map] at hp
    obtain ⟨q, _, rfl⟩ := hp
    have : ∃ w ∈ q, (min (max w (-1)) 1 + 1) * (25599 / 100) / 2 = v := by
      split at hvp
      · simpa using hvp
      · simpa using hvp
    obtain ⟨w, _, rfl⟩ := this
    exact hv w
  · intro i p h
    have e : (pixels b out)[i]? = some (if b then (p.map fun v => (min (max v (-1)) 1 + 1) * (25599 / 100) / 2).reverse
        else p.map fun v => (min (max v (-1)) 1 + 1) * (25599 / 100) / 2) := by
      simp only [pixels, List.getElem?_map, h, Option.map_some]
    refine ⟨_, e, ?_⟩
    cases b <;> simp

/-- **C150.** Generator outputs inside [-1, 1] are not distorted: different outputs give different images, and the extreme outputs give black and white. With
the channels exchanged, the first channel of the image is the last one of the output. -/
theorem pixels_affine (p : List R) (hp : ∀ v ∈ p, -1 ≤ v ∧ v ≤ 1) :
    pixels false [p] = [p.map fun v => (v + 1) / 2 * (25599 / 100)] ∧ pixels true [p] = [(p.map fun v => (v + 1) / 2 * (25599 / 100)).reverse] := by
  have e : (p.map fun v => (min (max v (-1)) 1 + 1) * (25599 / 100) / 2) = p.map fun v => (v + 1) / 2 * (25599 / 100) := by
    apply List.map_congr_left
    intro v hv
    rw [max_eq_left (hp v hv).1, min_eq_left (hp v hv).2]
    ring
  simp [pixels, e]

example : pixels (R := ℚ) true [[-3, 0, 1]] = [[25599 / 100, 25599 / 200, 0]] ∧ pixels (R := ℚ) false [[-3, 0, 1]] = [[0, 25599 / 200, 25599 / 100]] := by decide +kernel

/-! ### The sequence of images from one latent vector to another -/

omit [Field R] [LinearOrder R] [IsStrictOrderedRing R] in
theorem zip_left (a b : List R) (h : a.length = b.length) (f : R → R → R) (hf : ∀ u v, f u v = u) : List.zipWith f a b = a := by
  induction a generalizing b with
  | nil => simp
  | cons u a ih => cases b with
    | nil => simp at h
    | cons v b => rw [List.zipWith_cons_cons, hf, ih b (by simpa using h)]

omit [Field R] [LinearOrder R] [IsStrictOrderedRing R] in
theorem zip_right (a b : List R) (h : a.length = b.length) (f : R → R → R) (hf : ∀ u v, f u v = v) : List.zipWith f a b = b := by
  induction a generalizing b with
  | nil => cases b <;> simp_all
  | cons u a ih => cases b with
    | nil => simp at h
    | cons v b => rw [List.zipWith_cons_cons, hf, ih b (by simpa using h)]

/-- **C150, negative.** The comment says that the first image is close to the initial vector and the last one to the target: it is the contrary. -/
theorem interpolate_ends (base target : List R) (h : base.length = target.length) (n : Nat) (hn : 1 < n) :
    interpolate base target 0 n = target ∧ interpolate base target (n - 1) n = base := by
  have h1 : (n : R) - 1 ≠ 0 := by
    have : (1 : R) < n := by exact_mod_cast hn
    linarith
  have h2 : ((n - 1 : Nat) : R) = (n : R) - 1 := by rw [Nat.cast_sub hn.le]; simp
  unfold interpolate
  rw [if_neg (by omega), if_neg (by omega)]
  constructor
  · apply zip_right _ _ h
    intro u v
    simp [h1]
  · apply zip_left _ _ h
    intro u v
    rw [h2]
    simp [h1]

/-- **C150.** Every image in between is at a weighted mean of the two, the weights being equally spaced. -/
theorem interpolate_mean (base target : List R) (k n : Nat) (hn : 1 < n) (hk : k < n) (i : Nat) (a b v : R)
    (ha : base[i]? = some a) (hb : target[i]? = some b) (hv : (interpolate base target k n)[i]? = some v) :
    v = b + (k : R) / ((n : R) - 1) * (a - b) ∧ min a b ≤ v ∧ v ≤ max a b := by
  have h1 : (0 : R) < (n : R) - 1 := by
    have : (1 : R) < n := by exact_mod_cast hn
    linarith
  unfold interpolate at hv
  rw [if_neg (by omega)] at hv
  simp only [List.getElem?_zipWith, ha, hb, Option.some.injEq] at hv
  have e : v = b + (k : R) / ((n : R) - 1) * (a - b) := by
    rw [← hv]
    field_simp
    ring
  refine ⟨e, ?_⟩
  have t0 : 0 ≤ (k : R) / ((n : R) - 1) := div_nonneg (Nat.cast_nonneg _) h1.le
  have t1 : (k : R) / ((n : R) - 1) ≤ 1 := by
    rw [div_le_one h1]
    have : (k : R) + 1 ≤ n := by exact_mod_cast hk
    linarith
  generalize (k : R) / ((n : R) - 1) = t at e t0 t1
  rw [e]
  rcases le_total a b with hab | hab
  · rw [min_eq_left hab, max_eq_right hab]
    constructor <;> nlinarith
  · rw [min_eq_right hab, max_eq_left hab]
    constructor <;> nlinarith

example : interpolate (R := ℚ) [0, 8] [10, 0] 1 5 = [15 / 2, 2] ∧ interpolate (R := ℚ) [0, 8] [10, 0] 0 1 = [10, 0] := by decide +kernel

/-- **C150.** How far an image may move: between 0 and 1, exactly nothing at both ends, the same at both sides; one half for a single image. -/
theorem movability_shape (num : Nat) (hn : 1 < num) (tot i : Nat) (ht : 1 < tot) (hi : i < tot) :
    (0 : R) ≤ movability num i tot ∧ (movability num i tot : R) ≤ 1 ∧ ((movability num i tot : R) = 0 ↔ i = 0 ∨ i = tot - 1) ∧
      (movability num (tot - 1 - i) tot : R) = movability num i tot := by
  have h1 : (0 : R) < (tot : R) - 1 := by
    have : (1 : R) < tot := by exact_mod_cast ht
    linarith
  have hi0 : (0 : R) ≤ i := Nat.cast_nonneg _
  have hi1 : (i : R) ≤ tot - 1 := by
    have : (i : R) + 1 ≤ tot := by exact_mod_cast hi
    linarith
  have form : ∀ j : Nat, (movability num j tot : R) = 4 * ((j : R) / (tot - 1)) * (1 - (j : R) / (tot - 1)) := by
    intro j
    unfold movability
    rw [if_pos hn]
    ring
  have hc : ((tot - 1 - i : Nat) : R) = (tot : R) - 1 - i := by
    rw [Nat.cast_sub (by omega), Nat.cast_sub (by omega)]; simp
  have t0 : 0 ≤ (i : R) / ((tot : R) - 1) := div_nonneg hi0 h1.le
  have t1 : (i : R) / ((tot : R) - 1) ≤ 1 := by rw [div_le_one h1]; exact hi1
  refine ⟨?_, ?_, ?_, ?_⟩
  · rw [form]
    have := sub_nonneg.2 t1
    positivity
  · rw [form]
    nlinarith [sq_nonneg ((i : R) / ((tot : R) - 1) - 1 / 2)]
  · rw [form]
    constructor
    · intro h
      rcases mul_eq_zero.1 h with h | h
      · left
        have : (i : R) / ((tot : R) - 1) = 0 := by linarith
        rcases div_eq_zero_iff.1 this with h | h
        · exact_mod_cast h
        · linarith
      · right
        have : (i : R) / ((tot : R) - 1) = 1 := by linarith
        rw [div_eq_one_iff_eq h1.ne'] at this
        have : ((i + 1 : Nat) : R) = tot := by push_cast; linarith
        have : i + 1 = tot := by exact_mod_cast this
        omega
    · rintro (rfl | rfl)
      · simp
      · have : ((tot - 1 : Nat) : R) = (tot : R) - 1 := by rw [Nat.cast_sub (by omega)]; simp
        rw [this, div_self h1.ne']; simp
  · rw [form, form, hc, sub_div, div_self h1.ne']
    ring

omit [LinearOrder R] [IsStrictOrderedRing R] in
/-- **C150.** A single image moves by one half. -/
theorem movability_single (num i tot : Nat) (h : num ≤ 1) : (movability num i tot : R) = 1 / 2 := by
  unfold movability
  rw [if_neg (by omega)]

example : (movability 2 5 20 : ℚ) = 280 / 361 := by decide +kernel

end

/-- **C150.** One image for one latent vector, ten for each of several. -/
theorem total_spec : total 0 = 0 ∧ total 1 = 1 ∧ ∀ n, 2 ≤ n → total n = 10 * n := by
  refine ⟨rfl, rfl, ?_⟩
  intro n h
  unfold total
  rw [if_neg (by omega)]

/-- **C150.** With a single image, the loss does not depend on the initial and the target vector. -/
theorem single_ignores_ends (loss : List ℝ → Option ℝ) (dim : Nat) (i1 t1 i2 t2 : List ℝ) (x : List (List ℝ)) :
    pganLoss loss 1 dim i1 t1 x = pganLoss loss 1 dim i2 t2 x := by
  simp [pganLoss, latent]

/-- **C150.** With several images, the first latent vector is the target and the last one the initial vector, whatever is optimized. -/
theorem ends_fixed (num dim : Nat) (hn : 1 < num) (initial target : List ℝ) (hl : initial.length = target.length) (x : List (List ℝ))
    (hx : ∀ i, i < num → ∃ row, x[i]? = some row ∧ row.length = target.length) :
    latent num dim initial target x 0 = target ∧ latent num dim initial target x (10 * num - 1) = initial := by
  have ht : total num = 10 * num := total_spec.2.2 num hn
  have zeros : ∀ i, i = 0 ∨ i = 10 * num - 1 → ∃ row : List ℝ, row.length = target.length ∧ moving num dim x i = row.map fun _ => 0 := by
    intro i hi
    have hb : i / 10 < num := by omega
    obtain ⟨row, h1, h2⟩ := hx (i / 10) hb
    refine ⟨row, h2, ?_⟩
    have hm := ((movability_shape (R := ℝ) num hn (10 * num) i (by omega) (by omega)).2.2.1).2 hi
    simp only [moving, if_neg (show ¬num < 2 by omega), h1, ht, hm, Option.getD_some]
    apply List.map_congr_left
    intro v _
    simp
  have add0 : ∀ (a row : List ℝ), a.length = row.length → List.zipWith (fun a b => a + b) a (row.map fun _ => 0) = a := by
    intro a
    induction a with
    | nil => simp
    | cons u a ih =>
      intro row h
      cases row with
      | nil => simp at h
      | cons v row =>
        rw [List.map_cons, List.zipWith_cons_cons, add_zero, ih row (by simpa using h)]
  constructor
  · obtain ⟨row, h1, h2⟩ := zeros 0 (Or.inl rfl)
    simp only [latent, if_neg (show num ≠ 1 by omega), h2, ht]
    rw [(interpolate_ends initial target hl (10 * num) (by omega)).1, add0 _ _ h1.symm]
  · obtain ⟨row, h1, h2⟩ := zeros (10 * num - 1) (Or.inr rfl)
    simp only [latent, if_neg (show num ≠ 1 by omega), h2, ht]
    rw [(interpolate_ends initial target hl (10 * num) (by omega)).2, add0 _ _ (by rw [hl, h1])]

theorem fold_sum (f : Nat → Option ℝ) (g : Nat → ℝ) (h : ∀ i, f i = some (g i)) : ∀ (l : List Nat) (a : ℝ),
    l.foldl (fun acc i => acc.bind fun s => (f i).map fun v => s + v) (some a) = some (a + (l.map g).sum) := by
  intro l
  induction l with
  | nil => intro a; simp
  | cons i l ih =>
    intro a
    rw [List.foldl_cons]
    simp only [h i, Option.bind_some, Option.map_some]
    rw [ih, List.map_cons, List.sum_cons, add_assoc]

/-- **C150.** The loss is the sum of the losses of all the images. -/
theorem pgan_sum (loss : List ℝ → ℝ) (num dim : Nat) (initial target : List ℝ) (x : List (List ℝ)) :
    pganLoss (fun z => some (loss z)) num dim initial target x =
      some (((List.range (if num = 1 then 1 else 10 * num)).map fun i => loss (latent num dim initial target x i)).sum) := by
  have ht : total num = if num = 1 then 1 else 10 * num := by
    unfold total
    split <;> split <;> omega
  unfold pganLoss
  rw [fold_sum _ (fun i => loss (latent num dim initial target x i)) (fun i => rfl), ht, zero_add]

theorem norm_nonneg' (x : List ℝ) : 0 ≤ norm x := Real.sqrt_nonneg _

theorem norm_smul (c : ℝ) (hc : 0 ≤ c) (x : List ℝ) : norm (x.map fun v => c * v) = c * norm x := by
  unfold norm
  have : ((x.map fun v => c * v).map fun v => v ^ 2).sum = c ^ 2 * (x.map fun v => v ^ 2).sum := by
    induction x with
    | nil => simp
    | cons a x ih =>
      simp only [List.map_cons, List.sum_cons, ih]
      ring
  rw [this, Real.sqrt_mul (sq_nonneg c), Real.sqrt_sq hc]

/-- **C150.** A single image stays in a ball: its latent vector is never longer than half the square root of the dimension. -/
theorem single_in_ball (dim : Nat) (initial target : List ℝ) (row : List ℝ) (xs : List (List ℝ)) :
    norm (latent 1 dim initial target (row :: xs) 0) ≤ Real.sqrt dim / 2 := by
  have hn := norm_nonneg' row
  have hd : (0 : ℝ) < 1 / 10 ^ 10 + norm row := by positivity
  have e : latent 1 dim initial target (row :: xs) 0 = row.map fun v => (Real.sqrt dim / 2 / (1 / 10 ^ 10 + norm row)) * v := by
    simp only [latent, moving, if_true]
    have : (movability 1 0 (total 1) : ℝ) = 1 / 2 := movability_single 1 0 _ le_rfl
    simp only [this]
    have : (if 1 < 2 then 1 else 10 : Nat) = 1 := rfl
    simp only [this, Nat.zero_div, List.getElem?_cons_zero, Option.getD_some]
    apply List.map_congr_left
    intro v _
    ring
  rw [e, norm_smul _ (by positivity), div_mul_eq_mul_div, div_le_iff₀ hd]
  have : 0 ≤ Real.sqrt dim / 2 := by positivity
  nlinarith

/-! ### Adversarial attacks -/

theorem zip_get {f : ℝ → ℝ → ℝ} {a b : List ℝ} {i : Nat} {v : ℝ} (h : (List.zipWith f a b)[i]? = some v) :
    ∃ p q, a[i]? = some p ∧ b[i]? = some q ∧ f p q = v := by
  rw [List.getElem?_zipWith] at h
  cases ha : a[i]? with
  | none => simp [ha] at h
  | some p => cases hb : b[i]? with
    | none => simp [ha, hb] at h
    | some q =>
      simp only [ha, hb, Option.some.injEq] at h
      exact ⟨p, q, rfl, rfl, h⟩

/-- **C150.** An attack always gives an image with values in the unit interval; when those of the attacked image are, no value moves by more than the attack
does, hence by more than the bound of the parametrization. -/
theorem attack_range (image x : List ℝ) (i : Nat) (v : ℝ) (h : (attacked image x)[i]? = some v) :
    0 ≤ v ∧ v ≤ 1 ∧ ∃ p d, image[i]? = some p ∧ x[i]? = some d ∧ (0 ≤ p → p ≤ 1 → |v - p| ≤ |d|) ∧
      ∀ ε, 0 ≤ p → p ≤ 1 → |d| ≤ ε → |v - p| ≤ ε := by
  obtain ⟨p, d, hp, hd, rfl⟩ := zip_get h
  have key : 0 ≤ p → p ≤ 1 → |min (max (p + d) 0) 1 - p| ≤ |d| := by
    intro h0 h1
    rw [abs_le]
    rcases le_total 0 d with h | h
    · rw [abs_of_nonneg h]
      constructor
      · have : p ≤ min (max (p + d) 0) 1 := le_min (le_max_of_le_left (by linarith)) h1
        linarith
      · have : min (max (p + d) 0) 1 ≤ p + d := (min_le_left _ _).trans (max_le le_rfl (by linarith))
        linarith
    · rw [abs_of_nonpos h]
      constructor
      · have : p + d ≤ min (max (p + d) 0) 1 := le_min (le_max_left _ _) (by linarith)
        linarith
      · have : min (max (p + d) 0) 1 ≤ p := (min_le_left _ _).trans (max_le (by linarith) h0)
        linarith
  exact ⟨le_min (le_max_right _ _) zero_le_one, min_le_right _ _, p, d, hp, hd, key, fun ε h0 h1 h2 => (key h0 h1).trans h2⟩

/-- **C150.** No attack leaves the image as it is. -/
theorem attack_zero (image : List ℝ) (h : ∀ v ∈ image, 0 ≤ v ∧ v ≤ 1) (x : List ℝ) (hx : x.length = image.length) (h0 : ∀ v ∈ x, v = 0) :
    attacked image x = image := by
  unfold attacked
  induction image generalizing x with
  | nil => simp
  | cons p image ih =>
    cases x with
    | nil => simp at hx
    | cons d x =>
      have hd := h0 d (by simp)
      have hp := h p (by simp)
      rw [List.zipWith_cons_cons, hd, add_zero, max_eq_left hp.1, min_eq_left hp.2,
        ih (fun v hv => h v (List.mem_cons_of_mem _ hv)) x (by simpa using hx) (fun v hv => h0 v (List.mem_cons_of_mem _ hv))]

theorem sum_exp_pos (out : List ℝ) : 0 ≤ (out.map Real.exp).sum := by
  induction out with
  | nil => simp
  | cons a l ih => rw [List.map_cons, List.sum_cons]; have := Real.exp_pos a; linarith

theorem exp_le_sum (out : List ℝ) (o : ℝ) (h : o ∈ out) : Real.exp o ≤ (out.map Real.exp).sum := by
  induction out with
  | nil => cases h
  | cons a l ih =>
    rw [List.map_cons, List.sum_cons]
    rcases List.mem_cons.1 h with rfl | h
    · have := sum_exp_pos l; linarith
    · have := ih h; have := Real.exp_pos a; linarith

theorem sum_exp_le (out : List ℝ) (m : ℝ) (h : ∀ o ∈ out, o ≤ m) : (out.map Real.exp).sum ≤ out.length * Real.exp m := by
  induction out with
  | nil => simp
  | cons a l ih =>
    rw [List.map_cons, List.sum_cons, List.length_cons]
    have h1 := ih fun o ho => h o (List.mem_cons_of_mem _ ho)
    have h2 := Real.exp_le_exp.2 (h a (by simp))
    push_cast
    linarith

/-- **C150.** The loss of a targeted attack is never negative, that of an untargeted one never positive, and they are opposite to each other. -/
theorem adv_sign (cl : List ℝ → List ℝ) (image x : List ℝ) (label : Nat) :
    (∀ v, advLoss cl image label true x = some v → 0 ≤ v ∧ advLoss cl image label false x = some (-v)) ∧
      (∀ v, advLoss cl image label false x = some v → v ≤ 0) ∧
      (∀ b, (advLoss cl image label b x).isSome ↔ label < (cl (attacked image x)).length) := by
  have nn : ∀ v, crossEntropy (cl (attacked image x)) label = some v → 0 ≤ v := by
    intro v h
    unfold crossEntropy at h
    cases ho : (cl (attacked image x))[label]? with
    | none => simp [ho] at h
    | some o =>
      simp only [ho, Option.map_some, Option.some.injEq] at h
      have h1 := exp_le_sum _ o (List.mem_of_getElem? ho)
      have h2 := Real.log_le_log (Real.exp_pos o) h1
      rw [Real.log_exp] at h2
      linarith
  refine ⟨?_, ?_, ?_⟩
  · intro v h
    unfold advLoss at *
    cases hc : crossEntropy (cl (attacked image x)) label with
    | none => simp [hc] at h
    | some c =>
      have := nn c hc
      simp only [hc, Option.map_some, Option.some.injEq, if_true, mul_one] at h
      subst h
      exact ⟨this, by simp⟩
  · intro v h
    unfold advLoss at *
    cases hc : crossEntropy (cl (attacked image x)) label with
    | none => simp [hc] at h
    | some c =>
      have := nn c hc
      simp [hc] at h
      linarith
  · intro b
    simp [advLoss, crossEntropy]

/-- The fold of `argmax` keeps the first largest value seen. -/
theorem argmax_fold (l : List ℝ) : ∀ (done : List ℝ) (k j : Nat) (m : ℝ), done.length = k + 1 → done[j]? = some m → (∀ v ∈ done, v ≤ m) →
    (∀ i v, i < j → done[i]? = some v → v < m) →
    ∃ k' j' m', l.foldl (fun (s : Nat × Nat × ℝ) v => if v > s.2.2 then (s.1 + 1, s.1 + 1, v) else (s.1 + 1, s.2.1, s.2.2)) (k, j, m) = (k', j', m') ∧
      (done ++ l)[j']? = some m' ∧ (∀ v ∈ done ++ l, v ≤ m') ∧ ∀ i v, i < j' → (done ++ l)[i]? = some v → v < m' := by
  induction l with
  | nil =>
    intro done k j m hk hj hm hf
    exact ⟨k, j, m, rfl, by simpa using hj, by simpa using hm, by simpa using hf⟩
  | cons a l ih =>
    intro done k j m hk hj hm hf
    rw [List.foldl_cons]
    have hjl : j < done.length := (List.getElem?_eq_some_iff.1 hj).1
    by_cases h : a > m
    · simp only [h, if_true]
      have := ih (done ++ [a]) (k + 1) (k + 1) a (by simp [hk]) (by rw [List.getElem?_append_right (by omega)]; simp [hk])
        (by
          intro v hv
          rcases List.mem_append.1 hv with hv | hv
          · exact (hm v hv).trans h.le
          · simp at hv; exact hv.le)
        (by
          intro i v hi hv
          rw [List.getElem?_append_left (by omega)] at hv
          exact (hm v (List.mem_of_getElem? hv)).trans_lt h)
      simpa using this
    · simp only [h, if_false]
      have := ih (done ++ [a]) (k + 1) j m (by simp [hk]) (by rw [List.getElem?_append_left hjl]; exact hj)
        (by
          intro v hv
          rcases List.mem_append.1 hv with hv | hv
          · exact hm v hv
          · simp at hv; rw [hv]; exact not_lt.1 h)
        (by
          intro i v hi hv
          rw [List.getElem?_append_left (by omega)] at hv
          exact hf i v hi hv)
      simpa using this

/-- **C150.** The predicted class is the first with the largest output. -/
theorem argmax_spec (out : List ℝ) (h : out ≠ []) :
    ∃ m, out[argmax out]? = some m ∧ (∀ v ∈ out, v ≤ m) ∧ ∀ i v, i < argmax out → out[i]? = some v → v < m := by
  cases out with
  | nil => exact absurd rfl h
  | cons a l =>
    obtain ⟨k', j', m', h1, h2, h3, h4⟩ := argmax_fold l [a] 0 0 a rfl rfl (by simp) (by omega)
    refine ⟨m', ?_⟩
    have : argmax (a :: l) = j' := by simp only [argmax, h1]
    rw [this]
    exact ⟨h2, h3, h4⟩

/-- **C150.** What is evaluated at the end, for an untargeted attack: zero exactly when another class than that of the image is predicted; for a targeted one,
exactly when the given class is. -/
theorem eval_spec (cl : List ℝ → List ℝ) (image x : List ℝ) (label : Nat) :
    (advEval cl image label false x = 0 ↔ argmax (cl (attacked image x)) ≠ label) ∧
      (advEval cl image label true x = 0 ↔ argmax (cl (attacked image x)) = label) ∧
      ∀ b, advEval cl image label b x = 0 ∨ advEval cl image label b x = 1 := by
  unfold advEval
  refine ⟨?_, ?_, ?_⟩
  · by_cases h : argmax (cl (attacked image x)) = label <;> simp [h]
  · by_cases h : argmax (cl (attacked image x)) = label <;> simp [h]
  · intro b
    dsimp only
    split <;> split <;> simp

theorem adv_value (cl : List ℝ → List ℝ) (image x : List ℝ) (label : Nat) (b : Bool) (v : ℝ) (h : advLoss cl image label b x = some v) :
    ∃ o, (cl (attacked image x))[label]? = some o ∧ v = (Real.log (((cl (attacked image x)).map Real.exp).sum) - o) * (if b then 1 else -1) := by
  unfold advLoss crossEntropy at h
  cases ho : (cl (attacked image x))[label]? with
  | none => simp [ho] at h
  | some o =>
    simp only [ho, Option.map_some, Option.some.injEq] at h
    exact ⟨o, rfl, h.symm⟩

/-- **C150.** An untargeted attack whose loss is below minus the logarithm of the number of classes has worked. -/
theorem untargeted_success (cl : List ℝ → List ℝ) (image x : List ℝ) (label : Nat) (v : ℝ) (h : advLoss cl image label false x = some v)
    (hv : v < -Real.log (cl (attacked image x)).length) : advEval cl image label false x = 0 := by
  rw [(eval_spec cl image x label).1]
  intro hp
  obtain ⟨o, ho, e⟩ := adv_value cl image x label false v h
  generalize cl (attacked image x) = out at hp hv ho e
  have hne : out ≠ [] := by rintro rfl; simp at ho
  obtain ⟨m, hm, hmax, _⟩ := argmax_spec out hne
  rw [hp, ho] at hm
  cases hm
  have h1 := sum_exp_le out o hmax
  have h2 := exp_le_sum out o (List.mem_of_getElem? ho)
  have hpos : 0 < (out.map Real.exp).sum := (Real.exp_pos o).trans_le h2
  have hl : (out.length : ℝ) ≠ 0 := by
    have := List.length_pos_of_ne_nil hne
    positivity
  have h3 := Real.log_le_log hpos h1
  rw [Real.log_mul hl (Real.exp_pos o).ne', Real.log_exp] at h3
  simp at e
  linarith

theorem two_exp_le (out : List ℝ) : ∀ (i j : Nat) (a b : ℝ), i < j → out[i]? = some a → out[j]? = some b →
    Real.exp a + Real.exp b ≤ (out.map Real.exp).sum := by
  induction out with
  | nil => intro i j a b _ h; simp at h
  | cons u l ih =>
    intro i j a b hij ha hb
    cases j with
    | zero => omega
    | succ j =>
      rw [List.getElem?_cons_succ] at hb
      rw [List.map_cons, List.sum_cons]
      cases i with
      | zero =>
        rw [List.getElem?_cons_zero] at ha
        cases ha
        have := exp_le_sum l b (List.mem_of_getElem? hb)
        linarith
      | succ i =>
        rw [List.getElem?_cons_succ] at ha
        have := ih i j a b (by omega) ha hb
        have := Real.exp_pos u
        linarith

/-- **C150.** A targeted attack whose loss is below the logarithm of two has worked, whatever the number of classes. -/
theorem targeted_success (cl : List ℝ → List ℝ) (image x : List ℝ) (label : Nat) (v : ℝ) (h : advLoss cl image label true x = some v)
    (hv : v < Real.log 2) : advEval cl image label true x = 0 := by
  rw [(eval_spec cl image x label).2.1]
  by_contra hp
  obtain ⟨o, ho, e⟩ := adv_value cl image x label true v h
  generalize cl (attacked image x) = out at hp ho e
  have hne : out ≠ [] := by rintro rfl; simp at ho
  obtain ⟨m, hm, hmax, _⟩ := argmax_spec out hne
  have hom : o ≤ m := hmax o (List.mem_of_getElem? ho)
  have h1 : 2 * Real.exp o ≤ (out.map Real.exp).sum := by
    have := Real.exp_le_exp.2 hom
    rcases Nat.lt_or_gt_of_ne hp with hlt | hlt
    · have := two_exp_le out _ _ _ _ hlt hm ho
      linarith
    · have := two_exp_le out _ _ _ _ hlt ho hm
      linarith
  have h3 := Real.log_le_log (by have := Real.exp_pos o; linarith) h1
  rw [Real.log_mul two_ne_zero (Real.exp_pos o).ne', Real.log_exp] at h3
  simp at e
  linarith

/-- **C150.** The attacks made from a data set are on images of it that are recognized, in its order, among the first hundred; none of these is left out; and
each starts unsolved. -/
theorem folder_spec (cl : List ℝ → List ℝ) (data : List (List ℝ × Nat)) :
    (folderFunctions cl data).length ≤ 100 ∧ (folderFunctions cl data).Sublist data ∧
      (∀ (i : Nat) (d : List ℝ × Nat), i < 100 → data[i]? = some d → argmax (cl d.1) = d.2 → d ∈ folderFunctions cl data) ∧
      ∀ d ∈ folderFunctions cl data, (∀ v ∈ d.1, 0 ≤ v ∧ v ≤ 1) → ∀ x : List ℝ, x.length = d.1.length → (∀ v ∈ x, v = 0) →
        advEval cl d.1 d.2 false x = 1 := by
  unfold folderFunctions
  refine ⟨?_, List.filter_sublist.trans (List.take_sublist _ _), ?_, ?_⟩
  · exact (List.length_filter_le _ _).trans (by rw [List.length_take]; exact min_le_left _ _)
  · intro i d hi hd he
    rw [List.mem_filter]
    refine ⟨?_, by simpa using he⟩
    apply List.mem_of_getElem? (i := i)
    rw [List.getElem?_take_of_lt hi, hd]
  · intro d hd hv x hx h0
    have he := (List.mem_filter.1 hd).2
    simp only [decide_eq_true_eq] at he
    unfold advEval
    rw [attack_zero d.1 hv x hx h0]
    simp [he]

/-- **C150, negative.** Without a folder the one image is black, though the documentation announces a random one; it always gives an attack. -/
theorem no_folder (cl : List ℝ → List ℝ) (size : Nat) :
    folderFunctions cl (fakeData cl size) = [(List.replicate size 0, argmax (cl (List.replicate size 0)))] := by
  simp [folderFunctions, fakeData]

/-- Witness: a classifier with two classes, the image (1/2), and the attack by 1/4 that changes the class. -/
noncomputable def twoClasses (im : List ℝ) : List ℝ := [3 / 5, im.sum]

example : advEval twoClasses [1 / 2] 0 false [0] = 1 ∧ advEval twoClasses [1 / 2] 0 false [1 / 4] = 0 ∧ advEval twoClasses [1 / 2] 1 true [1 / 4] = 0 := by
  have h1 : attacked [1 / 2] [0] = [1 / 2] := by norm_num [attacked]
  have h2 : attacked [1 / 2] [1 / 4] = [3 / 4] := by norm_num [attacked]
  have a1 : argmax (twoClasses [1 / 2]) = 0 := by norm_num [twoClasses, argmax]
  have a2 : argmax (twoClasses [3 / 4]) = 1 := by norm_num [twoClasses, argmax]
  refine ⟨?_, ?_, ?_⟩
  · norm_num [advEval, h1, a1]
  · norm_num [advEval, h2, a2]
  · norm_num [advEval, h2, a2]

end NG.Images
