import Verif.Model.Arcoating
import Mathlib.Tactic.Linarith
import Mathlib.Tactic.Positivity
import Mathlib.Tactic.FieldSimp
import Mathlib.Tactic.Ring
import Mathlib.Tactic.NormNum.RealSqrt
import Mathlib.Tactic.LinearCombination

/-! # C122: the antireflective coating -/

namespace NG.Arcoating

/-! ## Stacks as matrices -/

/-- A matrix with the rows `a, i b` and `i c, d`. -/
structure Quad where
  a : ℝ
  b : ℝ
  c : ℝ
  d : ℝ

/-- The product. -/
def Quad.mul (p q : Quad) : Quad := ⟨p.a * q.a - p.b * q.c, p.a * q.b + p.b * q.d, p.c * q.a + p.d * q.c, p.d * q.d - p.c * q.b⟩

/-- The determinant. -/
def Quad.det (q : Quad) : ℝ := q.a * q.d + q.b * q.c

/-- The matrix seen from the other side. -/
def Quad.flip (q : Quad) : Quad := ⟨q.d, q.b, q.c, q.a⟩

theorem det_mul (p q : Quad) : (p.mul q).det = p.det * q.det := by simp only [Quad.mul, Quad.det]; ring

theorem flip_mul (p q : Quad) : (p.mul q).flip = q.flip.mul p.flip := by
  simp only [Quad.mul, Quad.flip, Quad.mk.injEq]
  refine ⟨?_, ?_, ?_, ?_⟩ <;> ring

theorem mul_assoc' (p q r : Quad) : (p.mul q).mul r = p.mul (q.mul r) := by
  simp only [Quad.mul, Quad.mk.injEq]
  refine ⟨?_, ?_, ?_, ?_⟩ <;> ring

/-- A slab. -/
noncomputable def layer (θ n : ℝ) : Quad := ⟨1, Real.tan θ / n, n * Real.tan θ, 1⟩

/-- A stack of slabs; `k` is the phase per index. -/
noncomputable def stack (k : ℝ) : List ℝ → Quad
  | [] => ⟨1, 0, 0, 1⟩
  | e :: x => (layer (k * Real.sqrt e) (Real.sqrt e)).mul (stack k x)

theorem one_mul' (q : Quad) : Quad.mul ⟨1, 0, 0, 1⟩ q = q := by simp [Quad.mul]
theorem mul_one' (q : Quad) : Quad.mul q ⟨1, 0, 0, 1⟩ = q := by simp [Quad.mul]

theorem stack_append (k : ℝ) (x y : List ℝ) : stack k (x ++ y) = (stack k x).mul (stack k y) := by
  induction x with
  | nil => simp [stack, one_mul']
  | cons e x ih => simp [stack, ih, mul_assoc']

theorem stack_reverse (k : ℝ) (x : List ℝ) : stack k x.reverse = (stack k x).flip := by
  induction x with
  | nil => simp [stack, Quad.flip]
  | cons e x ih =>
    rw [List.reverse_cons, stack_append, ih]
    simp only [stack, mul_one', flip_mul]
    congr 1

theorem stack_det (k : ℝ) : ∀ x : List ℝ, (∀ e ∈ x, 0 < e) → 1 ≤ (stack k x).det
  | [], _ => by simp [stack, Quad.det]
  | e :: x, h => by
    rw [List.forall_mem_cons] at h
    have ih := stack_det k x h.2
    have hs : Real.sqrt e ≠ 0 := (Real.sqrt_pos.2 h.1).ne'
    have : (layer (k * Real.sqrt e) (Real.sqrt e)).det = 1 + Real.tan (k * Real.sqrt e) ^ 2 := by
      simp only [layer, Quad.det]
      field_simp
    simp only [stack, det_mul, this]
    nlinarith [sq_nonneg (Real.tan (k * Real.sqrt e)), mul_nonneg (sq_nonneg (Real.tan (k * Real.sqrt e))) (by linarith : (0 : ℝ) ≤ (stack k x).det)]

/-- The impedance in front of a stack. -/
theorem impedance_stack (dpix lam epf : ℝ) (hf : 0 < epf) : ∀ x : List ℝ, (∀ e ∈ x, 0 < e) →
    let q := stack (2 * Real.pi * dpix / lam) x
    let z : ℝ := 1 / Real.sqrt epf
    impedance x dpix lam epf = (((q.a * z : ℝ) : ℂ) + Complex.I * (q.b : ℝ)) / (((q.d : ℝ) : ℂ) + Complex.I * ((q.c * z : ℝ) : ℂ))
  | [], _ => by simp [impedance, stack]
  | e :: x, h => by
    rw [List.forall_mem_cons] at h
    have ih := impedance_stack dpix lam epf hf x h.2
    intro q z
    have hstep : impedance (e :: x) dpix lam epf = slab (2 * Real.pi * dpix / lam) (Real.sqrt e) (impedance x dpix lam epf) := by
      simp [impedance]
    have hs : 0 < Real.sqrt e := Real.sqrt_pos.2 h.1
    have hz : 0 < z := by simp only [z]; have := Real.sqrt_pos.2 hf; positivity
    have hne : ∀ p : Quad, 1 ≤ p.det → (((p.d : ℝ) : ℂ) + Complex.I * ((p.c * z : ℝ) : ℂ)) ≠ 0 := by
      intro p hp h0
      have h1 := congrArg Complex.re h0
      have h2 := congrArg Complex.im h0
      simp at h1 h2
      have hc : p.c = 0 := by rcases h2 with h2 | h2; exacts [h2, absurd h2 hz.ne']
      simp only [Quad.det, h1, hc] at hp
      linarith
    have h1 := hne (stack (2 * Real.pi * dpix / lam) x) (stack_det _ x h.2)
    have h2 := hne q (stack_det _ (e :: x) (by rw [List.forall_mem_cons]; exact h))
    rw [hstep, ih]
    set p := stack (2 * Real.pi * dpix / lam) x with hp
    set n := Real.sqrt e
    have hq : q = (layer (2 * Real.pi * dpix / lam * n) n).mul p := rfl
    have hnc : (n : ℂ) ≠ 0 := by exact_mod_cast hs.ne'
    simp only [slab]
    set t := Real.tan (2 * Real.pi * dpix / lam * n) with ht
    have hI := Complex.I_sq
    have hqa : q.a = p.a - t / n * p.c := by rw [hq]; simp only [Quad.mul, layer]; ring
    have hqb : q.b = p.b + t / n * p.d := by rw [hq]; simp only [Quad.mul, layer]; ring
    have hqc : q.c = n * t * p.a + p.c := by rw [hq]; simp only [Quad.mul, layer]; ring
    have hqd : q.d = p.d - n * t * p.b := by rw [hq]; simp only [Quad.mul, layer]; ring
    have hD : (((q.d : ℝ) : ℂ) + Complex.I * ((q.c * z : ℝ) : ℂ)) = (((p.d : ℝ) : ℂ) + Complex.I * ((p.c * z : ℝ) : ℂ)) + n * t * Complex.I * (((p.a * z : ℝ) : ℂ) + Complex.I * (p.b : ℝ)) := by
      rw [hqd, hqc]
      push_cast
      linear_combination (-(n * t * p.b : ℂ)) * hI
    have hN : (((q.a * z : ℝ) : ℂ) + Complex.I * (q.b : ℝ)) = (((p.a * z : ℝ) : ℂ) + Complex.I * (p.b : ℝ)) + Complex.I * (t / n) * (((p.d : ℝ) : ℂ) + Complex.I * ((p.c * z : ℝ) : ℂ)) := by
      rw [hqa, hqb]
      push_cast
      linear_combination (-(t / n * p.c * z : ℂ)) * hI
    rw [hN]
    rw [hD] at h2 ⊢
    generalize (((p.d : ℝ) : ℂ) + Complex.I * ((p.c * z : ℝ) : ℂ)) = D at h1 h2 ⊢
    generalize (((p.a * z : ℝ) : ℂ) + Complex.I * (p.b : ℝ)) = N at h2 ⊢
    have e1 : ((1 / n : ℝ) : ℂ) * (N / D + Complex.I * ((1 / n : ℝ) : ℂ) * (t : ℂ)) = (1 / n : ℂ) * ((N + Complex.I * (t / n) * D) / D) := by
      push_cast; field_simp
    have e2 : ((1 / n : ℝ) : ℂ) + Complex.I * (N / D) * (t : ℂ) = (1 / n : ℂ) * ((D + n * t * Complex.I * N) / D) := by
      push_cast; field_simp
    rw [e1, e2, mul_div_mul_left _ _ (by simpa using hnc), div_div_div_cancel_right₀ h1]

/-- The amplitude denominator of a stack between two impedances. -/
def Quad.amp (q : Quad) (z0 zf : ℝ) : ℝ := (q.a * zf + q.d * z0) ^ 2 + (q.b + q.c * z0 * zf) ^ 2

theorem amp_pos (q : Quad) (z0 zf : ℝ) (h0 : 0 < z0) (hf : 0 < zf) (hd : 0 < q.det) : 4 * z0 * zf * q.det ≤ q.amp z0 zf ∧ 0 < q.amp z0 zf := by
  have h1 : q.amp z0 zf = 4 * z0 * zf * q.det + ((q.a * zf - q.d * z0) ^ 2 + (q.b - q.c * z0 * zf) ^ 2) := by
    simp only [Quad.amp, Quad.det]; ring
  have h2 : 0 < 4 * z0 * zf * q.det := by positivity
  have h3 : 0 ≤ (q.a * zf - q.d * z0) ^ 2 + (q.b - q.c * z0 * zf) ^ 2 := by positivity
  constructor <;> linarith

/-- The reflection is what is not transmitted. -/
theorem reflection_stack (x : List ℝ) (hx : ∀ e ∈ x, 0 < e) (dpix lam ep0 epf : ℝ) (h0 : 0 < ep0) (hf : 0 < epf) :
    let q := stack (2 * Real.pi * dpix / lam) x
    let z0 : ℝ := 1 / Real.sqrt ep0
    let zf : ℝ := 1 / Real.sqrt epf
    reflection x dpix lam ep0 epf = 100 * (1 - 4 * z0 * zf * q.det / q.amp z0 zf) := by
  intro q z0 zf
  have hz0 : 0 < z0 := by simp only [z0]; have := Real.sqrt_pos.2 h0; positivity
  have hzf : 0 < zf := by simp only [zf]; have := Real.sqrt_pos.2 hf; positivity
  have hdet := stack_det (2 * Real.pi * dpix / lam) x hx
  obtain ⟨-, hamp⟩ := amp_pos q z0 zf hz0 hzf (by linarith)
  simp only [reflection]
  rw [impedance_stack dpix lam epf hf x hx]
  change ‖((((q.a * zf : ℝ) : ℂ) + Complex.I * (q.b : ℝ)) / (((q.d : ℝ) : ℂ) + Complex.I * ((q.c * zf : ℝ) : ℂ)) - (z0 : ℂ)) /
    ((((q.a * zf : ℝ) : ℂ) + Complex.I * (q.b : ℝ)) / (((q.d : ℝ) : ℂ) + Complex.I * ((q.c * zf : ℝ) : ℂ)) + (z0 : ℂ))‖ ^ 2 * 100 = _
  have hne : (((q.d : ℝ) : ℂ) + Complex.I * ((q.c * zf : ℝ) : ℂ)) ≠ 0 := by
    intro h0
    have h1 := congrArg Complex.re h0
    have h2 := congrArg Complex.im h0
    simp at h1 h2
    have hc : q.c = 0 := by rcases h2 with h2 | h2; exacts [h2, absurd h2 hzf.ne']
    have : q.det = 0 := by simp only [Quad.det, h1, hc]; ring
    linarith
  rw [div_sub' hne, div_add' _ _ _ hne, div_div_div_cancel_right₀ hne, norm_div, div_pow, ← Complex.normSq_eq_norm_sq, ← Complex.normSq_eq_norm_sq]
  have e1 : Complex.normSq (((q.a * zf : ℝ) : ℂ) + Complex.I * (q.b : ℝ) - (((q.d : ℝ) : ℂ) + Complex.I * ((q.c * zf : ℝ) : ℂ)) * (z0 : ℂ)) =
      (q.a * zf - q.d * z0) ^ 2 + (q.b - q.c * z0 * zf) ^ 2 := by
    rw [Complex.normSq_apply]; simp; ring
  have e2 : Complex.normSq (((q.a * zf : ℝ) : ℂ) + Complex.I * (q.b : ℝ) + (z0 : ℂ) * (((q.d : ℝ) : ℂ) + Complex.I * ((q.c * zf : ℝ) : ℂ))) = q.amp z0 zf := by
    rw [Complex.normSq_apply]; simp [Quad.amp]; ring
  rw [e1]
  first
    | rw [e2]
    | rw [show (((q.d : ℝ) : ℂ) + Complex.I * ((q.c * zf : ℝ) : ℂ)) * (z0 : ℂ) = (z0 : ℂ) * (((q.d : ℝ) : ℂ) + Complex.I * ((q.c * zf : ℝ) : ℂ)) from mul_comm _ _, e2]
  have h1 : (q.a * zf - q.d * z0) ^ 2 + (q.b - q.c * z0 * zf) ^ 2 = q.amp z0 zf - 4 * z0 * zf * q.det := by
    simp only [Quad.amp, Quad.det]; ring
  rw [h1]
  field_simp

/-! ## The reflection -/

/-- C122: the reflection is between 0 and 100 percent, never 100. -/
theorem reflection_range (x : List ℝ) (hx : ∀ e ∈ x, 0 < e) (dpix lam ep0 epf : ℝ) (h0 : 0 < ep0) (hf : 0 < epf) : 0 ≤ reflection x dpix lam ep0 epf ∧ reflection x dpix lam ep0 epf < 100 := by
  have hz0 : 0 < 1 / Real.sqrt ep0 := by have := Real.sqrt_pos.2 h0; positivity
  have hzf : 0 < 1 / Real.sqrt epf := by have := Real.sqrt_pos.2 hf; positivity
  have hdet := stack_det (2 * Real.pi * dpix / lam) x hx
  obtain ⟨h1, hamp⟩ := amp_pos _ _ _ hz0 hzf (by linarith : 0 < (stack (2 * Real.pi * dpix / lam) x).det)
  rw [reflection_stack x hx dpix lam ep0 epf h0 hf]
  constructor
  · have := (div_le_one hamp).2 h1
    linarith
  · have : 0 < 4 * (1 / Real.sqrt ep0) * (1 / Real.sqrt epf) * (stack (2 * Real.pi * dpix / lam) x).det / (stack (2 * Real.pi * dpix / lam) x).amp (1 / Real.sqrt ep0) (1 / Real.sqrt epf) := by
      have : 0 < (stack (2 * Real.pi * dpix / lam) x).det := by linarith
      positivity
    linarith

/-- C122: reciprocity. Light from the other side, through the slabs in the reverse order, is reflected as much. -/
theorem reciprocity (x : List ℝ) (hx : ∀ e ∈ x, 0 < e) (dpix lam ep0 epf : ℝ) (h0 : 0 < ep0) (hf : 0 < epf) :
    reflection x.reverse dpix lam epf ep0 = reflection x dpix lam ep0 epf := by
  rw [reflection_stack x hx dpix lam ep0 epf h0 hf, reflection_stack x.reverse (by simpa using hx) dpix lam epf ep0 hf h0]
  simp only [stack_reverse]
  have h1 : ∀ q : Quad, q.flip.det = q.det := fun q => by simp only [Quad.flip, Quad.det]; ring
  have h2 : ∀ (q : Quad) (a b : ℝ), q.flip.amp a b = q.amp b a := fun q a b => by simp only [Quad.flip, Quad.amp]; ring
  rw [h1, h2]
  ring

theorem sqrt_inv (e : ℝ) (h : 0 < e) : Real.sqrt e * (1 / Real.sqrt e) = 1 := by
  have := (Real.sqrt_pos.2 h).ne'
  field_simp

/-- C122: a slab of the outer medium in front has no effect, neither has a slab of the substrate behind. -/
theorem neutral (x : List ℝ) (hx : ∀ e ∈ x, 0 < e) (dpix lam ep0 epf : ℝ) (h0 : 0 < ep0) (hf : 0 < epf) :
    reflection (ep0 :: x) dpix lam ep0 epf = reflection x dpix lam ep0 epf ∧ reflection (x ++ [epf]) dpix lam ep0 epf = reflection x dpix lam ep0 epf := by
  have hs0 := Real.sqrt_pos.2 h0
  have hsf := Real.sqrt_pos.2 hf
  have key : ∀ (q q' : Quad) (t : ℝ) (z0 zf : ℝ), 0 < z0 → 0 < zf → 0 < q.det → q'.det = (1 + t ^ 2) * q.det →
      q'.a * zf + q'.d * z0 = (q.a * zf + q.d * z0) - t * (q.b + q.c * z0 * zf) → q'.b + q'.c * z0 * zf = (q.b + q.c * z0 * zf) + t * (q.a * zf + q.d * z0) →
      4 * z0 * zf * q'.det / q'.amp z0 zf = 4 * z0 * zf * q.det / q.amp z0 zf := by
    intro q q' t z0 zf hz0 hzf hd e1 e2 e3
    obtain ⟨-, hamp⟩ := amp_pos q z0 zf hz0 hzf hd
    have e4 : q'.amp z0 zf = (1 + t ^ 2) * q.amp z0 zf := by
      simp only [Quad.amp, e2, e3]; ring
    have ht : (0 : ℝ) < 1 + t ^ 2 := by positivity
    rw [e1, e4, show 4 * z0 * zf * ((1 + t ^ 2) * q.det) = (1 + t ^ 2) * (4 * z0 * zf * q.det) from by ring, mul_div_mul_left _ _ ht.ne']
  have hdet := stack_det (2 * Real.pi * dpix / lam) x hx
  constructor
  · rw [reflection_stack x hx dpix lam ep0 epf h0 hf, reflection_stack (ep0 :: x) (by rw [List.forall_mem_cons]; exact ⟨h0, hx⟩) dpix lam ep0 epf h0 hf]
    rw [key (stack (2 * Real.pi * dpix / lam) x) (stack (2 * Real.pi * dpix / lam) (ep0 :: x)) (Real.tan (2 * Real.pi * dpix / lam * Real.sqrt ep0)) _ _ (by positivity) (by positivity) (by linarith)]
    · simp only [stack, det_mul]; congr 1; simp only [layer, Quad.det]; field_simp
    · simp only [stack, Quad.mul, layer]; field_simp; ring
    · simp only [stack, Quad.mul, layer]; field_simp; ring
  · rw [reflection_stack x hx dpix lam ep0 epf h0 hf, reflection_stack (x ++ [epf]) (by intro e he; rcases List.mem_append.1 he with h | h; exacts [hx e h, by simp at h; rw [h]; exact hf]) dpix lam ep0 epf h0 hf]
    rw [key (stack (2 * Real.pi * dpix / lam) x) (stack (2 * Real.pi * dpix / lam) (x ++ [epf])) (Real.tan (2 * Real.pi * dpix / lam * Real.sqrt epf)) _ _ (by positivity) (by positivity) (by linarith)]
    · simp only [stack_append, stack, mul_one', det_mul]; rw [mul_comm]; congr 1; simp only [layer, Quad.det]; field_simp
    · simp only [stack_append, stack, mul_one', Quad.mul, layer]; field_simp; ring
    · simp only [stack_append, stack, mul_one', Quad.mul, layer]; field_simp; ring

/-! ## Thinner slabs -/

/-- A slab without division by the cosine. -/
noncomputable def plate (θ n : ℝ) : Quad := ⟨Real.cos θ, Real.sin θ / n, n * Real.sin θ, Real.cos θ⟩

/-- A matrix times a number. -/
def Quad.scale (r : ℝ) (q : Quad) : Quad := ⟨r * q.a, r * q.b, r * q.c, r * q.d⟩

theorem plate_add (θ φ n : ℝ) (hn : n ≠ 0) : (plate θ n).mul (plate φ n) = plate (θ + φ) n := by
  simp only [plate, Quad.mul, Real.cos_add, Real.sin_add, Quad.mk.injEq]
  refine ⟨?_, ?_, ?_, ?_⟩ <;> field_simp <;> ring

theorem plate_layer (θ n : ℝ) (h : Real.cos θ ≠ 0) : plate θ n = (layer θ n).scale (Real.cos θ) := by
  have : Real.sin θ = Real.cos θ * Real.tan θ := by rw [Real.tan_eq_sin_div_cos]; field_simp
  simp only [plate, layer, Quad.scale, Quad.mk.injEq, this]
  refine ⟨?_, ?_, ?_, ?_⟩ <;> ring

theorem scale_mul (r s : ℝ) (p q : Quad) : (p.scale r).mul (q.scale s) = (p.mul q).scale (r * s) := by
  simp only [Quad.mul, Quad.scale, Quad.mk.injEq]
  refine ⟨?_, ?_, ?_, ?_⟩ <;> ring

theorem scale_ratio (r : ℝ) (hr : r ≠ 0) (q : Quad) (z0 zf : ℝ) : 4 * z0 * zf * (q.scale r).det / (q.scale r).amp z0 zf = 4 * z0 * zf * q.det / q.amp z0 zf := by
  have h1 : (q.scale r).det = r ^ 2 * q.det := by simp only [Quad.scale, Quad.det]; ring
  have h2 : (q.scale r).amp z0 zf = r ^ 2 * q.amp z0 zf := by simp only [Quad.scale, Quad.amp]; ring
  rw [h1, h2, show 4 * z0 * zf * (r ^ 2 * q.det) = r ^ 2 * (4 * z0 * zf * q.det) from by ring, mul_div_mul_left _ _ (pow_ne_zero 2 hr)]

/-- The stack of plates. -/
noncomputable def plates (k : ℝ) : List ℝ → Quad
  | [] => ⟨1, 0, 0, 1⟩
  | e :: x => (plate (k * Real.sqrt e) (Real.sqrt e)).mul (plates k x)

theorem plates_append (k : ℝ) (x y : List ℝ) : plates k (x ++ y) = (plates k x).mul (plates k y) := by
  induction x with
  | nil => simp [plates, one_mul']
  | cons e x ih => simp [plates, ih, mul_assoc']

theorem plates_stack (k : ℝ) : ∀ x : List ℝ, (∀ e ∈ x, Real.cos (k * Real.sqrt e) ≠ 0) → ∃ r, r ≠ 0 ∧ plates k x = (stack k x).scale r
  | [], _ => ⟨1, one_ne_zero, by simp [plates, stack, Quad.scale]⟩
  | e :: x, h => by
    rw [List.forall_mem_cons] at h
    obtain ⟨r, hr, ih⟩ := plates_stack k x h.2
    exact ⟨Real.cos (k * Real.sqrt e) * r, mul_ne_zero h.1 hr, by simp only [plates, stack]; rw [plate_layer _ _ h.1, ih, scale_mul]⟩

theorem plates_replicate (k e : ℝ) (he : 0 < e) (m : Nat) : plates k (List.replicate m e) = plate (m * (k * Real.sqrt e)) (Real.sqrt e) := by
  induction m with
  | zero => simp [plates, plate]
  | succ m ih =>
    rw [List.replicate_succ]
    simp only [plates, ih]
    rw [plate_add _ _ _ (Real.sqrt_pos.2 he).ne']
    congr 1
    push_cast; ring

/-- C122: cutting every slab into equal thinner ones of the same permittivity has no effect (at the wavelengths where the tangents are finite). -/
theorem refined (m : Nat) (hm : m ≠ 0) (x : List ℝ) (hx : ∀ e ∈ x, 0 < e) (dpix lam ep0 epf : ℝ) (h0 : 0 < ep0) (hf : 0 < epf)
    (hc : ∀ e ∈ x, Real.cos (2 * Real.pi * dpix / lam * Real.sqrt e) ≠ 0 ∧ Real.cos (2 * Real.pi * (dpix / m) / lam * Real.sqrt e) ≠ 0) :
    reflection (x.flatMap fun e => List.replicate m e) (dpix / m) lam ep0 epf = reflection x dpix lam ep0 epf := by
  have hm' : (m : ℝ) ≠ 0 := by exact_mod_cast hm
  have hmem : ∀ e ∈ x.flatMap fun e => List.replicate m e, e ∈ x := by
    intro e he
    obtain ⟨a, ha, hb⟩ := List.mem_flatMap.1 he
    rw [List.eq_of_mem_replicate hb]; exact ha
  have heq : ∀ y : List ℝ, (∀ e ∈ y, 0 < e) → plates (2 * Real.pi * (dpix / m) / lam) (y.flatMap fun e => List.replicate m e) = plates (2 * Real.pi * dpix / lam) y := by
    intro y hy
    induction y with
    | nil => simp [plates]
    | cons e y ih =>
      rw [List.forall_mem_cons] at hy
      rw [List.flatMap_cons, plates_append, ih hy.2, plates_replicate _ _ hy.1]
      simp only [plates]
      congr 2
      field_simp
  obtain ⟨r, hr, e1⟩ := plates_stack (2 * Real.pi * dpix / lam) x fun e he => (hc e he).1
  obtain ⟨r', hr', e2⟩ := plates_stack (2 * Real.pi * (dpix / m) / lam) (x.flatMap fun e => List.replicate m e) fun e he => (hc e (hmem e he)).2
  rw [reflection_stack x hx dpix lam ep0 epf h0 hf, reflection_stack _ (fun e he => hx e (hmem e he)) (dpix / m) lam ep0 epf h0 hf]
  rw [← scale_ratio r hr (stack (2 * Real.pi * dpix / lam) x), ← scale_ratio r' hr' (stack (2 * Real.pi * (dpix / m) / lam) _), ← e1, ← e2, heq x hx]

/-! ## The objective -/

theorem mean_range (f : ℝ → ℝ) (lo hi : ℝ) : ∀ (l : List ℝ) (c : ℝ), (∀ x ∈ l, lo ≤ f x ∧ f x < hi) → c + lo * l.length / 100 ≤ (l.map fun x => f x / 100).foldl (· + ·) c ∧
    (l ≠ [] → (l.map fun x => f x / 100).foldl (· + ·) c < c + hi * l.length / 100)
  | [], c, _ => by simp
  | x :: l, c, h => by
    rw [List.forall_mem_cons] at h
    obtain ⟨h1, h2⟩ := mean_range f lo hi l (c + f x / 100) h.2
    simp only [List.map_cons, List.foldl_cons, List.length_cons]
    push_cast
    refine ⟨by linarith [h.1.1], fun _ => ?_⟩
    by_cases hl : l = []
    · subst hl
      simp
      linarith [h.1.2]
    · linarith [h2 hl, h.1.2]

/-- C122: the objective is a mean reflection between 0 and 100 percent for permittivities between those of the two media, infinite for others, and an error for a wrong number. -/
theorem objective_range (nbslab : Nat) (depth : ℝ) (x : List ℝ) :
    (x.length ≠ nbslab → objective nbslab depth x = none) ∧ (x.length = nbslab → (∃ e ∈ x, e < 1 ∨ 9 < e) → objective nbslab depth x = some ⊤) ∧
      (x.length = nbslab → (∀ e ∈ x, 1 ≤ e ∧ e ≤ 9) → ∃ v : ℝ, objective nbslab depth x = some (v : WithTop ℝ) ∧ 0 ≤ v ∧ v < 100) := by
  refine ⟨fun h => by simp [objective, h], fun h hb => by simp only [objective]; rw [if_neg (not_not.2 h), if_pos hb], fun h hb => ?_⟩
  have hno : ¬ ∃ e ∈ x, e < 1 ∨ 9 < e := by
    rintro ⟨e, he, h1 | h1⟩
    · linarith [(hb e he).1]
    · linarith [(hb e he).2]
  refine ⟨_, by simp only [objective]; rw [if_neg (not_not.2 h), if_neg hno], ?_⟩
  have hr : ∀ lam ∈ lambdas, 0 ≤ reflection x (depth / nbslab) lam 1 9 ∧ reflection x (depth / nbslab) lam 1 9 < 100 :=
    fun lam _ => reflection_range x (fun e he => by linarith [(hb e he).1]) _ _ _ _ (by norm_num) (by norm_num)
  obtain ⟨h1, h2⟩ := mean_range (fun lam => reflection x (depth / nbslab) lam 1 9) 0 100 lambdas 0 hr
  have hlen : lambdas.length = 100 := by simp [lambdas]
  have hne : lambdas ≠ [] := by rw [← List.length_pos_iff_ne_nil, hlen]; norm_num
  have h2 := h2 hne
  rw [hlen] at h1 h2
  constructor
  · linarith
  · norm_num at h2; exact h2

theorem mean_const (f : ℝ → ℝ) (v : ℝ) : ∀ (l : List ℝ) (c : ℝ), (∀ x ∈ l, f x = v) → (l.map fun x => f x / 100).foldl (· + ·) c = c + v * l.length / 100
  | [], c, _ => by simp
  | x :: l, c, h => by
    rw [List.forall_mem_cons] at h
    simp only [List.map_cons, List.foldl_cons, List.length_cons]
    rw [mean_const f v l _ h.2, h.1]
    push_cast; ring

theorem reflection_bare (dpix lam : ℝ) : reflection [] dpix lam 1 9 = 25 := by
  rw [reflection_stack [] (by simp) dpix lam 1 9 (by norm_num) (by norm_num)]
  have h9 : Real.sqrt 9 = 3 := by rw [show (9 : ℝ) = 3 ^ 2 by norm_num]; exact Real.sqrt_sq (by norm_num)
  simp only [stack, Quad.det, Quad.amp, h9, Real.sqrt_one]
  norm_num

/-- C122: a coating of air over one of the material of the substrate is no coating: 25 percent are reflected, whatever the depth. -/
theorem no_coating (i j : Nat) (depth : ℝ) : objective (i + j) depth (List.replicate i 1 ++ List.replicate j 9) = some ((25 : ℝ) : WithTop ℝ) := by
  have hpos : ∀ i j : Nat, ∀ e ∈ List.replicate i (1 : ℝ) ++ List.replicate j 9, e = 1 ∨ e = 9 := by
    intro i j e he
    rcases List.mem_append.1 he with h | h
    · exact Or.inl (List.eq_of_mem_replicate h)
    · exact Or.inr (List.eq_of_mem_replicate h)
  have hpos' : ∀ i j : Nat, ∀ e ∈ List.replicate i (1 : ℝ) ++ List.replicate j 9, 0 < e := by
    intro i j e he
    rcases hpos i j e he with h | h <;> rw [h] <;> norm_num
  have key : ∀ (i j : Nat) (dpix lam : ℝ), reflection (List.replicate i 1 ++ List.replicate j 9) dpix lam 1 9 = 25 := by
    intro i j dpix lam
    induction i with
    | succ i ih =>
      rw [List.replicate_succ, List.cons_append, (neutral _ (hpos' i j) dpix lam 1 9 (by norm_num) (by norm_num)).1, ih]
    | zero =>
      induction j with
      | zero => exact reflection_bare dpix lam
      | succ j ih =>
        rw [List.replicate_succ', ← List.append_assoc, (neutral _ (hpos' 0 j) dpix lam 1 9 (by norm_num) (by norm_num)).2, ih]
  have hno : ¬ ∃ e ∈ List.replicate i (1 : ℝ) ++ List.replicate j 9, e < 1 ∨ 9 < e := by
    rintro ⟨e, he, h1⟩
    rcases hpos i j e he with h | h <;> rw [h] at h1 <;> norm_num at h1
  simp only [objective]
  rw [if_neg (by simp), if_neg hno, mean_const _ 25 _ _ fun lam _ => key i j _ lam]
  simp [lambdas]

/-- One slab whose permittivity is the geometric mean of those of the media, an eighth of a wavelength thick: a seventh is reflected instead of a quarter. -/
example : reflection [3] 1 (8 * Real.sqrt 3) 1 9 = 100 / 7 := by
  rw [reflection_stack [3] (by simp) 1 _ 1 9 (by norm_num) (by norm_num)]
  have h9 : Real.sqrt 9 = 3 := by rw [show (9 : ℝ) = 3 ^ 2 by norm_num]; exact Real.sqrt_sq (by norm_num)
  have h3 : Real.sqrt 3 ^ 2 = 3 := Real.sq_sqrt (by norm_num)
  have h3' : Real.sqrt 3 ≠ 0 := by positivity
  have ht : Real.tan (2 * Real.pi * 1 / (8 * Real.sqrt 3) * Real.sqrt 3) = 1 := by
    rw [show 2 * Real.pi * 1 / (8 * Real.sqrt 3) * Real.sqrt 3 = Real.pi / 4 by field_simp; ring]
    exact Real.tan_pi_div_four
  simp only [stack, mul_one', Quad.det, Quad.amp, layer, ht, h9, Real.sqrt_one]
  have h1 : 1 / Real.sqrt 3 = Real.sqrt 3 / 3 := by field_simp; linarith
  rw [h1]
  have h2 : Real.sqrt 3 / 3 * (Real.sqrt 3 * 1) = 1 := by nlinarith
  have h4 : (Real.sqrt 3 / 3 + Real.sqrt 3 * 1 * (1 / 1) * (1 / 3)) ^ 2 = 4 / 3 := by nlinarith
  rw [h2, h4]
  norm_num

end NG.Arcoating
