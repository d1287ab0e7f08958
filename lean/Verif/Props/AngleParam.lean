/-
C155: the parameters of angles: range, what is read after setting, sampling, and the distance between angles.
-/
import Verif.Model.AngleParam
import Verif.Props.Transforms
import Verif.Props.IntModulo

set_option linter.unusedSectionVars false
namespace NG.AngleParam

open NG.Tr

variable {ι : Type} [Fintype ι]

/-- Specification: the greatest angle, `π` or 180. -/
noncomputable def span (deg : Bool) : ℝ := if deg then 180 else Real.pi

theorem factor_pos (p : P ι) : 0 < p.factor := by
  unfold P.factor
  have := Real.pi_pos
  split
  · positivity
  · norm_num

theorem factor_pi (p : P ι) : p.factor * Real.pi = span p.deg := by
  unfold P.factor span
  have := Real.pi_pos.ne'
  split
  · field_simp
  · ring

theorem top_id (c : ι → ℝ × ℝ) : clipForward true (some fun _ => -Real.pi) (some fun _ => Real.pi) (angleGet c) = angleGet c := by
  apply clipForward_id
  refine ⟨?_, ?_⟩
  · intro l hl i
    cases hl
    exact (angle_range c i).1.le
  · intro u hu i
    cases hu
    exact (angle_range c i).2

theorem read_eq (p : P ι) (i : ι) : p.read.1 i = p.factor * angleGet (fun j => (p.method.fwd p.x j, p.method.fwd p.y j)) i := by
  unfold P.read
  rw [top_id]

/-- **C155.** Angles are read in `(-π, π]`, or `(-180, 180]` in degrees, wherever the root is. -/
theorem read_range (p : P ι) (i : ι) : -span p.deg < p.read.1 i ∧ p.read.1 i ≤ span p.deg := by
  rw [read_eq, ← factor_pi]
  have h := angle_range (fun j => (p.method.fwd p.x j, p.method.fwd p.y j)) i
  have hf := factor_pos p
  constructor <;> nlinarith [h.1, h.2]

/-- Bounds on the coordinates do not change those of the unit circle. -/
theorem coordinate (m : Method) (c : ι → ℝ) (h : ∀ i, -1 ≤ c i ∧ c i ≤ 1) : ∃ r, m.bwd c = .ok r ∧ m.fwd r = c := by
  have hw : Within (some fun _ : ι => (-2 : ℝ)) (some fun _ => 2) c := by
    refine ⟨?_, ?_⟩
    · intro l hl i; cases hl; linarith [(h i).1]
    · intro u hu i; cases hu; linarith [(h i).2]
  have hs : ∀ i, (fun _ : ι => (-2 : ℝ)) i < c i ∧ c i < (fun _ : ι => (2 : ℝ)) i := fun i => ⟨by linarith [(h i).1], by linarith [(h i).2]⟩
  cases m with
  | free => exact ⟨c, rfl, rfl⟩
  | clipping => exact ⟨c, (clipBackward_iff _ _ _ _).2 ⟨hw, rfl⟩, clipForward_id _ _ _ _ hw⟩
  | bouncing => exact ⟨c, (clipBackward_iff _ _ _ _).2 ⟨hw, rfl⟩, clipForward_id _ _ _ _ hw⟩
  | arctan =>
    obtain ⟨r, h1, h2⟩ := arctan_roundtrip' (fun _ : ι => (-2 : ℝ)) (fun _ => 2) c hs
    exact ⟨r, h1, h2⟩
  | tanh =>
    obtain ⟨r, h1, h2⟩ := tanh_roundtrip' (fun _ : ι => (-2 : ℝ)) (fun _ => 2) c hs
    exact ⟨r, h1, h2⟩

theorem setRad_spec (p : P ι) (v : ι → ℝ) (h : ∀ i, -Real.pi ≤ v i ∧ v i ≤ Real.pi) :
    ∃ q, p.setRad v = .ok q ∧ q.method = p.method ∧ q.deg = p.deg ∧ q.method.fwd q.x = (fun i => Real.cos (v i)) ∧ q.method.fwd q.y = fun i => Real.sin (v i) := by
  have hw : clipBackward (some fun _ : ι => -Real.pi) (some fun _ => Real.pi) v = .ok v := by
    rw [clipBackward_iff]
    refine ⟨⟨?_, ?_⟩, rfl⟩
    · intro l hl i; cases hl; exact (h i).1
    · intro u hu i; cases hu; exact (h i).2
  obtain ⟨a, ha, ha'⟩ := coordinate p.method (fun i => Real.cos (v i)) fun i => ⟨Real.neg_one_le_cos _, Real.cos_le_one _⟩
  obtain ⟨b, hb, hb'⟩ := coordinate p.method (fun i => Real.sin (v i)) fun i => ⟨Real.neg_one_le_sin _, Real.sin_le_one _⟩
  refine ⟨{ p with x := a, y := b }, ?_, rfl, rfl, ha', hb'⟩
  unfold P.setRad
  rw [hw]
  simp only [angleSet, ha, hb]

theorem setRad_error (p : P ι) (v : ι → ℝ) (h : ¬ ∀ i, -Real.pi ≤ v i ∧ v i ≤ Real.pi) : p.setRad v = .error := by
  unfold P.setRad
  cases hc : clipBackward (some fun _ : ι => -Real.pi) (some fun _ => Real.pi) v with
  | error => rfl
  | ok w =>
    exfalso
    apply h
    obtain ⟨⟨h1, h2⟩, -⟩ := (clipBackward_iff _ _ _ _).1 hc
    exact fun i => ⟨h1 _ rfl i, h2 _ rfl i⟩

theorem arg_angle (t : ℝ) (h : -Real.pi ≤ t ∧ t ≤ Real.pi) : Complex.arg ⟨Real.cos t, Real.sin t⟩ = if t = -Real.pi then Real.pi else t := by
  split
  · rename_i e
    subst e
    have := congrFun (angle_roundtrip (fun _ : Unit => Real.pi) fun _ => ⟨by linarith [Real.pi_pos], le_refl _⟩) ()
    simpa [angleGet, angleSet] using this
  · rename_i e
    exact congrFun (angle_roundtrip (fun _ : Unit => t) fun _ => ⟨lt_of_le_of_ne h.1 (Ne.symm e), h.2⟩) ()

/-- **C155.** Setting accepts exactly the angles between `-π` and `π` (-180 and 180), and what is then read is what was set, `-π` being read as `π`. -/
theorem assign_spec (p : P ι) (v : ι → ℝ) :
    ((∀ i, -span p.deg ≤ v i ∧ v i ≤ span p.deg) → ∃ q, p.assign v = .ok q ∧ q.deg = p.deg ∧ q.method = p.method ∧
        ∀ i, q.read.1 i = if v i = -span p.deg then span p.deg else v i) ∧
      ((∃ i, v i < -span p.deg ∨ span p.deg < v i) → p.assign v = .error) := by
  have hf := factor_pos p
  have hpi := factor_pi p
  have key : ∀ i, (-span p.deg ≤ v i ∧ v i ≤ span p.deg) ↔ (-Real.pi ≤ v i / p.factor ∧ v i / p.factor ≤ Real.pi) := by
    intro i
    rw [← hpi, le_div_iff₀ hf, div_le_iff₀ hf, mul_comm Real.pi, neg_mul, mul_comm Real.pi]
  constructor
  · intro h
    obtain ⟨q, h1, h2, h3, h4, h5⟩ := setRad_spec p (fun i => v i / p.factor) fun i => (key i).1 (h i)
    refine ⟨q, h1, h3, h2, fun i => ?_⟩
    have hfq : q.factor = p.factor := by unfold P.factor; rw [h3]
    rw [read_eq, h4, h5, hfq]
    unfold angleGet
    dsimp only
    rw [arg_angle _ ((key i).1 (h i))]
    have e : v i / p.factor = -Real.pi ↔ v i = -span p.deg := by
      rw [← hpi, div_eq_iff hf.ne', neg_mul, mul_comm]
    by_cases hv : v i = -span p.deg
    · rw [if_pos (e.2 hv), if_pos hv, hpi]
    · rw [if_neg (fun h' => hv (e.1 h')), if_neg hv, mul_div_cancel₀ _ hf.ne']
  · rintro ⟨i, hi⟩
    apply setRad_error
    intro h
    have := (key i).2 (h i)
    rcases hi with hi | hi <;> linarith

/-- **C155.** Reading does not change what is read afterwards. -/
theorem read_stable (p : P ι) : p.read.2.read.1 = p.read.1 := by
  funext i
  rw [read_eq, read_eq]
  have hfac : p.read.2.factor = p.factor := by
    unfold P.read P.factor
    dsimp only
    split <;> rfl
  rw [hfac]
  congr 2
  have hb : initBounds (some fun _ : ι => (-2 : ℝ)) (some fun _ => 2) = .ok () := by
    rw [initBounds_ok_iff]
    refine ⟨Or.inl (by simp), ?_⟩
    intro l u hl hu i
    cases hl
    cases hu
    norm_num
  unfold P.read
  dsimp only
  cases hm : p.method with
  | free => simp [hm]
  | arctan => simp [hm]
  | tanh => simp [hm]
  | clipping =>
    simp only [true_or, if_true, Method.fwd]
    rw [clipForward_idem _ _ _ hb, clipForward_idem _ _ _ hb]
  | bouncing =>
    simp only [or_true, if_true, Method.fwd]
    rw [clipForward_idem _ _ _ hb, clipForward_idem _ _ _ hb]

/-- **C155.** A new parameter has the initial angles, or zeros; exactly one of `init` and `shape` is needed; angles out of the range are refused. -/
theorem make_spec (method : Method) (deg : Bool) :
    (∃ q : P ι, make none true method deg = .ok q ∧ q.deg = deg ∧ q.method = method ∧ ∀ i, q.read.1 i = 0) ∧
      (∀ v : ι → ℝ, (∀ i, -span deg < v i ∧ v i ≤ span deg) → ∃ q, make (some v) false method deg = .ok q ∧ q.deg = deg ∧ q.method = method ∧ q.read.1 = v) ∧
      (∀ v : ι → ℝ, (∃ i, v i < -span deg ∨ span deg < v i) → make (some v) false method deg = .error) ∧
      (∀ v : ι → ℝ, make (some v) true method deg = .error) ∧ make (none : Option (ι → ℝ)) false method deg = .error := by
  set p : P ι := ⟨fun _ => 0, fun _ => 0, method, false⟩ with hp
  have h0 : p.read.1 = fun _ => 0 := by
    funext i
    rw [read_eq]
    have : ∀ (m : Method), m.fwd (fun _ : ι => (0 : ℝ)) = fun _ => 0 := by
      intro m
      have hw : Within (some fun _ : ι => (-2 : ℝ)) (some fun _ => 2) (fun _ => 0) := by
        refine ⟨?_, ?_⟩
        · intro l hl i; cases hl; norm_num
        · intro u hu i; cases hu; norm_num
      cases m with
      | free => rfl
      | clipping => exact clipForward_id _ _ _ _ hw
      | bouncing => exact clipForward_id _ _ _ _ hw
      | arctan => funext i; simp [Method.fwd, arctanForward]
      | tanh => funext i; simp [Method.fwd, tanhForward]
    rw [hp]
    dsimp only
    rw [this]
    have e : (⟨0, 0⟩ : ℂ) = 0 := rfl
    simp [angleGet, e]
  obtain ⟨q, h1, h2, h3, h4, h5⟩ := setRad_spec p (fun _ => 0) fun _ => ⟨by linarith [Real.pi_pos], Real.pi_pos.le⟩
  have hmake : ∀ init : Option (ι → ℝ), ∀ shape, init.isSome ≠ shape → make init shape method deg =
      (match init with | none => .ok { q with deg := deg } | some v => P.assign { q with deg := deg } v) := by
    intro init shape hs
    unfold make
    rw [if_neg (by simpa using hs)]
    dsimp only
    rw [← hp, h0, h1]
    cases init <;> rfl
  refine ⟨?_, ?_, ?_, ?_, ?_⟩
  · refine ⟨{ q with deg := deg }, hmake none true (by simp), rfl, h2, fun i => ?_⟩
    rw [read_eq]
    have e : (⟨1, 0⟩ : ℂ) = 1 := rfl
    simp [angleGet, h4, h5, e]
  · intro v hv
    obtain ⟨r, e1, e2, e3, e4⟩ := (assign_spec { q with deg := deg } v).1 fun i => ⟨(hv i).1.le, (hv i).2⟩
    refine ⟨r, ?_, e2, e3.trans h2, ?_⟩
    · rw [hmake (some v) false (by simp)]; exact e1
    · funext i
      rw [e4 i, if_neg (hv i).1.ne']
  · intro v hv
    rw [hmake (some v) false (by simp)]
    exact (assign_spec { q with deg := deg } v).2 hv
  · intro v
    simp [make]
  · simp [make]

/-- **C155.** Samples are uniform on the circle: the draw `t` of the unit interval gives the angle `(2 t - 1) π`, in degrees if asked. -/
theorem sample_spec (p : P ι) (t : ι → ℝ) (h : ∀ i, 0 < t i ∧ t i < 1) : ∃ q, p.sample t = .ok q ∧ ∀ i, q.read.1 i = (2 * t i - 1) * span p.deg := by
  have hpi := Real.pi_pos
  have e : ∀ i, normalizedToValue (fun _ => -Real.pi) (fun _ => Real.pi) t i = (2 * t i - 1) * Real.pi := by
    intro i
    unfold normalizedToValue affineForward
    ring
  have hr : ∀ i, -Real.pi < (2 * t i - 1) * Real.pi ∧ (2 * t i - 1) * Real.pi ≤ Real.pi := fun i => ⟨by nlinarith [(h i).1], by nlinarith [(h i).2]⟩
  obtain ⟨q, h1, h2, h3, h4, h5⟩ := setRad_spec p (normalizedToValue (fun _ => -Real.pi) (fun _ => Real.pi) t) fun i => by
    rw [e i]; exact ⟨(hr i).1.le, (hr i).2⟩
  refine ⟨q, h1, fun i => ?_⟩
  have hfq : q.factor = p.factor := by unfold P.factor; rw [h3]
  rw [read_eq, h4, h5, hfq]
  unfold angleGet
  dsimp only
  rw [e i, arg_angle _ ⟨(hr i).1.le, (hr i).2⟩, if_neg (hr i).1.ne', ← factor_pi p]
  ring

/-- **C155, partial.** Without bound on the coordinates, the value depends on the direction of the coordinates only. Missing: bounds (`bouncing_turns`). -/
theorem direction_partial (p : P ι) (hm : p.method = .free) (r : ι → ℝ) (hr : ∀ i, 0 < r i) :
    ({ p with x := fun i => r i * p.x i, y := fun i => r i * p.y i } : P ι).read.1 = p.read.1 := by
  funext i
  rw [read_eq, read_eq]
  unfold P.factor angleGet
  simp only [hm, Method.fwd]
  congr 1
  have : (⟨r i * p.x i, r i * p.y i⟩ : ℂ) = (r i : ℂ) * ⟨p.x i, p.y i⟩ := by
    apply Complex.ext <;> simp
  rw [this, Complex.arg_real_mul _ (hr i)]

/-- **C155.** All angles can be reached by a move of the coordinates, from everywhere. -/
theorem reachable (p : P ι) (hm : p.method = .free) (v : ι → ℝ) (h : ∀ i, -span p.deg < v i ∧ v i ≤ span p.deg) : ∃ dx dy, (p.move dx dy).read.1 = v := by
  obtain ⟨q, h1, h2, h3, h4⟩ := (assign_spec p v).1 fun i => ⟨(h i).1.le, (h i).2⟩
  refine ⟨fun i => q.x i - p.x i, fun i => q.y i - p.y i, ?_⟩
  have e : p.move (fun i => q.x i - p.x i) (fun i => q.y i - p.y i) = q := by
    unfold P.move
    cases q
    cases p
    simp_all
  rw [e]
  funext i
  rw [h4 i, if_neg (h i).1.ne']

/-- **C155.** Two angles that are set are at the distance of their chord in the space of the coordinates: angles near `-π` and `π` are near each other. -/
theorem chord (p : P ι) (hm : p.method = .free) (a b : ι → ℝ) (q r : P ι) (ha : p.setRad a = .ok q) (hb : p.setRad b = .ok r) (i : ι) :
    (q.x i - r.x i) ^ 2 + (q.y i - r.y i) ^ 2 = 2 - 2 * Real.cos (a i - b i) := by
  have key : ∀ v s, p.setRad v = .ok s → s.x i = Real.cos (v i) ∧ s.y i = Real.sin (v i) := by
    intro v s hs
    by_cases hv : ∀ i, -Real.pi ≤ v i ∧ v i ≤ Real.pi
    · obtain ⟨s', h1, h2, h3, h4, h5⟩ := setRad_spec p v hv
      rw [hs] at h1
      cases h1
      rw [h2, hm] at h4 h5
      exact ⟨congrFun h4 i, congrFun h5 i⟩
    · rw [setRad_error p v hv] at hs
      cases hs
  obtain ⟨e1, e2⟩ := key a q ha
  obtain ⟨e3, e4⟩ := key b r hb
  rw [e1, e2, e3, e4, Real.cos_sub]
  nlinarith [Real.sin_sq_add_cos_sq (a i), Real.sin_sq_add_cos_sq (b i)]

/-- **C155, negative.** With bounds that bounce, the same direction of the root is read as different angles. -/
theorem bouncing_turns : (⟨fun _ => 1, fun _ => 0, .bouncing, true⟩ : P Unit).read.1 () = 0 ∧
    (⟨fun _ => 5, fun _ => 0, .bouncing, true⟩ : P Unit).read.1 () = 180 := by
  have h1 : Method.bouncing.fwd (fun _ : Unit => (1 : ℝ)) = fun _ => 1 := by
    simp only [Method.fwd]
    apply clipForward_id
    refine ⟨?_, ?_⟩
    · intro l hl i; cases hl; norm_num
    · intro u hu i; cases hu; norm_num
  have h0 : Method.bouncing.fwd (fun _ : Unit => (0 : ℝ)) = fun _ => 0 := by
    simp only [Method.fwd]
    apply clipForward_id
    refine ⟨?_, ?_⟩
    · intro l hl i; cases hl; norm_num
    · intro u hu i; cases hu; norm_num
  have h5 : Method.bouncing.fwd (fun _ : Unit => (5 : ℝ)) = fun _ => -1 := by
    funext i
    have hc : checker (some fun _ : Unit => (-2 : ℝ)) (some fun _ => 2) (fun _ => 5) = false := by
      simp [checker]
      norm_num
    simp only [Method.fwd, clipForward, hc]
    norm_num [clip]
  constructor
  · rw [read_eq]
    dsimp only
    rw [h1, h0]
    have e : (⟨1, 0⟩ : ℂ) = 1 := rfl
    simp [angleGet, e]
  · rw [read_eq]
    dsimp only
    rw [h5, h0]
    have e : (⟨-1, 0⟩ : ℂ) = -1 := by apply Complex.ext <;> simp
    simp only [angleGet, e, Complex.arg_neg_one]
    unfold P.factor
    have := Real.pi_pos.ne'
    simp only [if_true]
    field_simp

example : ∃ q : P (Fin 2), make (some ![90, -45]) false .clipping true = .ok q ∧ q.read.1 0 = 90 ∧ q.read.1 1 = -45 := by
  obtain ⟨q, h1, -, -, h2⟩ := (make_spec (ι := Fin 2) .clipping true).2.1 ![90, -45] (by
    intro i
    fin_cases i <;> norm_num [span])
  exact ⟨q, h1, by rw [h2]; rfl, by rw [h2]; rfl⟩

end NG.AngleParam
