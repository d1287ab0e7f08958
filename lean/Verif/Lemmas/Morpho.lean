/-
Lemmas on the fields in a stack of layers: what scattering matrices, interfaces and layers say of the amplitudes above and below them.
-/
import Verif.Model.Morpho
import Verif.Props.Solar
import Mathlib.LinearAlgebra.Matrix.Hermitian
import Mathlib.Analysis.Calculus.MeanValue
import Mathlib.Analysis.Calculus.Deriv.Star
import Mathlib.Analysis.SpecialFunctions.ExpDeriv

set_option linter.unusedSectionVars false

namespace NG.Morpho

open Matrix NG.Solar

section
variable {n : Type} [Fintype n] [DecidableEq n]

/-- The amplitudes above (`a` down, `b` up) and below (`c` down, `d` up) fit the scattering matrix `S`. -/
def Rel (S : Block n) (a b c d : n → ℂ) : Prop := b = S.b00 *ᵥ a + S.b01 *ᵥ d ∧ c = S.b10 *ᵥ a + S.b11 *ᵥ d

/-- The fields are continuous between the medium `P` above and the medium `Q` below. -/
def Meets (P Q : Modes n) (a b c d : n → ℂ) : Prop :=
  P.top *ᵥ (a + b) = Q.top *ᵥ (c + d) ∧ P.bot *ᵥ (a - b) = Q.bot *ᵥ (c - d)

/-- The waves go through a layer of height `h`, downwards and upwards. -/
def Travels (v : n → ℂ) (h : ℝ) (a b c d : n → ℂ) : Prop :=
  (∀ i, c i = Complex.exp (Complex.I * v i * h) * a i) ∧ ∀ i, b i = Complex.exp (Complex.I * v i * h) * d i

theorem rel_ext {S U : Block n} (h : ∀ a b c d, Rel S a b c d → Rel U a b c d) : S = U := by
  have key : ∀ a d, S.b00 *ᵥ a + S.b01 *ᵥ d = U.b00 *ᵥ a + U.b01 *ᵥ d ∧ S.b10 *ᵥ a + S.b11 *ᵥ d = U.b10 *ᵥ a + U.b11 *ᵥ d :=
    fun a d => h a _ _ d ⟨rfl, rfl⟩
  have e : ∀ {A B : Matrix n n ℂ}, (∀ a, A *ᵥ a = B *ᵥ a) → A = B := fun {A B} hh => by
    ext i j
    have := congrFun (hh (Pi.single j 1)) i
    simpa using this
  ext1
  · exact e fun a => by simpa using (key a 0).1
  · exact e fun a => by simpa using (key 0 a).1
  · exact e fun a => by simpa using (key a 0).2
  · exact e fun a => by simpa using (key 0 a).2

theorem rel_start (a b c d : n → ℂ) : Rel (start : Block n) a b c d ↔ b = d ∧ c = a := by
  simp [Rel, start]

/-- The product of two scattering matrices relates the amplitudes for which there are amplitudes in between. -/
theorem rel_cascade {S U : Block n} (hd : IsUnit (1 - U.b00 * S.b11).det) (a b c d : n → ℂ) :
    Rel (cascade S U) a b c d ↔ ∃ x y, Rel S a b x y ∧ Rel U x y c d := by
  obtain ⟨x, y, ⟨h1, h2⟩, hu, h3, h4⟩ := cascade_fields S U hd a d
  constructor
  · rintro ⟨hb, hc⟩
    exact ⟨x, y, ⟨by rw [hb, h3], h1⟩, h2, by rw [hc, h4]⟩
  · rintro ⟨x', y', ⟨g1, g2⟩, g3, g4⟩
    obtain ⟨rfl, rfl⟩ := hu x' y' g2 g3
    exact ⟨by rw [g1, h3], by rw [g4, h4]⟩

theorem rel_cBas (S : Block n) (v : n → ℂ) (h : ℝ) (a b c d : n → ℂ) :
    Rel (cBas S (delay v h)) a b c d ↔ ∃ x y, Rel S a b x y ∧ Travels v h x y c d := by
  rw [← cBas_cascade, rel_cascade (by simp)]
  refine exists_congr fun x => exists_congr fun y => and_congr_right fun _ => ?_
  simp only [Rel, Travels, delay, zero_mulVec, zero_add, add_zero]
  constructor
  · rintro ⟨h1, h2⟩
    exact ⟨fun i => by rw [h2, mulVec_diagonal], fun i => by rw [h1, mulVec_diagonal]⟩
  · rintro ⟨h1, h2⟩
    exact ⟨funext fun i => by rw [mulVec_diagonal, h2], funext fun i => by rw [mulVec_diagonal, h1]⟩

/-- The scattering matrix of an interface says that the fields are continuous. -/
theorem rel_interface {P Q : Modes n} (hd : IsUnit (outMat P Q).det) (a b c d : n → ℂ) :
    Rel (interface P Q) a b c d ↔ Meets P Q a b c d := by
  have e : Rel (interface P Q) a b c d ↔ Sum.elim b c = ((outMat P Q)⁻¹ * fromBlocks (-P.top) Q.top P.bot Q.bot) *ᵥ Sum.elim a d := by
    conv_rhs => rw [← fromBlocks_toBlocks ((outMat P Q)⁻¹ * fromBlocks (-P.top) Q.top P.bot Q.bot), fromBlocks_mulVec]
    simp only [Rel, interface, Sum.elim_comp_inl, Sum.elim_comp_inr]
    constructor
    · rintro ⟨rfl, rfl⟩; rfl
    · intro h
      exact ⟨funext fun i => congrFun h (Sum.inl i), funext fun i => congrFun h (Sum.inr i)⟩
  have e2 : Sum.elim b c = ((outMat P Q)⁻¹ * fromBlocks (-P.top) Q.top P.bot Q.bot) *ᵥ Sum.elim a d ↔
      outMat P Q *ᵥ Sum.elim b c = fromBlocks (-P.top) Q.top P.bot Q.bot *ᵥ Sum.elim a d := by
    rw [← mulVec_mulVec]
    constructor
    · intro h; rw [h, mulVec_mulVec, mul_nonsing_inv _ hd, one_mulVec]
    · intro h; rw [← h, mulVec_mulVec, nonsing_inv_mul _ hd, one_mulVec]
  rw [e, e2, outMat, fromBlocks_mulVec, fromBlocks_mulVec]
  simp only [Sum.elim_comp_inl, Sum.elim_comp_inr, Meets, neg_mulVec, mulVec_add, mulVec_sub]
  constructor
  · intro h
    have h1 : P.top *ᵥ b + -(Q.top *ᵥ c) = -(P.top *ᵥ a) + Q.top *ᵥ d := funext fun i => congrFun h (Sum.inl i)
    have h2 : P.bot *ᵥ b + Q.bot *ᵥ c = P.bot *ᵥ a + Q.bot *ᵥ d := funext fun i => congrFun h (Sum.inr i)
    constructor
    · linear_combination h1
    · linear_combination -h2
  · rintro ⟨h1, h2⟩
    have g1 : P.top *ᵥ b + -(Q.top *ᵥ c) = -(P.top *ᵥ a) + Q.top *ᵥ d := by linear_combination h1
    have g2 : P.bot *ᵥ b + Q.bot *ᵥ c = P.bot *ᵥ a + Q.bot *ᵥ d := by linear_combination -h2
    rw [g1, g2]

/-! ### Energy -/

/-- The light that goes down through a medium with these amplitudes. -/
noncomputable def flux (P : Modes n) (a b : n → ℂ) : ℝ := (star (P.top *ᵥ (a + b)) ⬝ᵥ (P.bot *ᵥ (a - b))).re

/-- A medium without losses: the lower block is made from the upper one with a Hermitian matrix `G`, and the modes are those of a matrix `M` with `G M` Hermitian. -/
structure Lossless (P : Modes n) (G M : Matrix n n ℂ) : Prop where
  bot : P.bot = G * P.top * diagonal P.val
  herm : G.IsHermitian
  herm' : (G * M).IsHermitian
  modes : M * P.top = P.top * diagonal fun i => -(P.val i * P.val i)

theorem flux_meets {P Q : Modes n} {a b c d : n → ℂ} (h : Meets P Q a b c d) : flux P a b = flux Q c d := by
  simp only [flux, h.1, h.2]

theorem form_im {H : Matrix n n ℂ} (h : H.IsHermitian) (x : n → ℂ) : (star x ⬝ᵥ (H *ᵥ x)).im = 0 := by
  have e : star (star x ⬝ᵥ (H *ᵥ x)) = star x ⬝ᵥ (H *ᵥ x) := by
    rw [← star_dotProduct, star_mulVec, h.eq, ← dotProduct_mulVec]
  exact Complex.conj_eq_iff_im.1 e

theorem deriv_mulVec (A : Matrix n n ℂ) {E : ℝ → n → ℂ} {E' : n → ℂ} {z : ℝ} (h : ∀ i, HasDerivAt (fun t => E t i) (E' i) z) (i : n) :
    HasDerivAt (fun t => (A *ᵥ E t) i) ((A *ᵥ E') i) z := by
  simp only [mulVec, dotProduct]
  exact HasDerivAt.fun_sum fun j _ => (h j).const_mul _

theorem deriv_form {E F : ℝ → n → ℂ} {E' F' : n → ℂ} {z : ℝ} (h : ∀ i, HasDerivAt (fun t => E t i) (E' i) z) (h' : ∀ i, HasDerivAt (fun t => F t i) (F' i) z) :
    HasDerivAt (fun t => star (E t) ⬝ᵥ F t) (star E' ⬝ᵥ F z + star (E z) ⬝ᵥ F') z := by
  simp only [dotProduct, Pi.star_apply, ← Finset.sum_add_distrib]
  exact HasDerivAt.fun_sum fun j _ => ((h j).star).mul (h' j)

/-- A solution of `E'' = M E` keeps the imaginary part of `E* G E'`. -/
theorem form_const {G M : Matrix n n ℂ} (hG : G.IsHermitian) (hM : (G * M).IsHermitian) {E F : ℝ → n → ℂ}
    (hE : ∀ z i, HasDerivAt (fun t => E t i) (F z i) z) (hF : ∀ z i, HasDerivAt (fun t => F t i) ((M *ᵥ E z) i) z) (x y : ℝ) :
    (star (E x) ⬝ᵥ (G *ᵥ F x)).im = (star (E y) ⬝ᵥ (G *ᵥ F y)).im := by
  have hd : ∀ z, HasDerivAt (fun t => (star (E t) ⬝ᵥ (G *ᵥ F t)).im) 0 z := fun z => by
    have h1 := deriv_form (E := E) (F := fun t => G *ᵥ F t) (hE z) (fun i => deriv_mulVec G (hF z) i)
    have h2 := (Complex.imCLM.hasFDerivAt (x := star (E z) ⬝ᵥ (G *ᵥ F z))).comp_hasDerivAt z h1
    have e : Complex.imCLM (star (F z) ⬝ᵥ (G *ᵥ F z) + star (E z) ⬝ᵥ (G *ᵥ (M *ᵥ E z))) = 0 := by
      rw [Complex.imCLM_apply, Complex.add_im, form_im hG, mulVec_mulVec, form_im hM, add_zero]
    rw [e] at h2
    exact h2
  exact is_const_of_deriv_eq_zero (fun z => (hd z).differentiableAt) (fun z => (hd z).deriv) x y

/-- A layer without losses keeps the light that goes through it. -/
theorem flux_travels {P : Modes n} {G M : Matrix n n ℂ} (hP : Lossless P G M) {h : ℝ} {a b c d : n → ℂ} (ht : Travels P.val h a b c d) :
    flux P a b = flux P c d := by
  let v := P.val
  let U : ℝ → n → ℂ := fun z i => Complex.exp (Complex.I * v i * z) * a i + Complex.exp (-(Complex.I * v i * z)) * b i
  let W : ℝ → n → ℂ := fun z i => Complex.exp (Complex.I * v i * z) * a i - Complex.exp (-(Complex.I * v i * z)) * b i
  have d1 : ∀ (z : ℝ) i, HasDerivAt (fun t : ℝ => Complex.exp (Complex.I * v i * t)) (Complex.I * v i * Complex.exp (Complex.I * v i * z)) z := fun z i => by
    have h1 : HasDerivAt (fun t : ℝ => Complex.I * v i * (t : ℂ)) (Complex.I * v i * 1) z := (Complex.ofRealCLM.hasDerivAt (x := z)).const_mul _
    have := h1.cexp
    exact this.congr_deriv (by ring)
  have d2 : ∀ (z : ℝ) i, HasDerivAt (fun t : ℝ => Complex.exp (-(Complex.I * v i * t))) (-(Complex.I * v i) * Complex.exp (-(Complex.I * v i * z))) z := fun z i => by
    have h1 : HasDerivAt (fun t : ℝ => -(Complex.I * v i * (t : ℂ))) (-(Complex.I * v i * 1)) z := ((Complex.ofRealCLM.hasDerivAt (x := z)).const_mul _).neg
    have := h1.cexp
    exact this.congr_deriv (by ring)
  have dU : ∀ z i, HasDerivAt (fun t => U t i) (Complex.I * v i * W z i) z := fun z i => by
    have := ((d1 z i).mul_const (a i)).add ((d2 z i).mul_const (b i))
    refine this.congr_deriv ?_
    simp only [W]; ring
  have dW : ∀ z i, HasDerivAt (fun t => W t i) (Complex.I * v i * U z i) z := fun z i => by
    have := ((d1 z i).mul_const (a i)).sub ((d2 z i).mul_const (b i))
    refine this.congr_deriv ?_
    simp only [U]; ring
  let E : ℝ → n → ℂ := fun z => P.top *ᵥ U z
  let F : ℝ → n → ℂ := fun z => P.top *ᵥ fun i => Complex.I * v i * W z i
  have hE : ∀ z i, HasDerivAt (fun t => E t i) (F z i) z := fun z i => deriv_mulVec P.top (dU z) i
  have hF : ∀ z i, HasDerivAt (fun t => F t i) ((M *ᵥ E z) i) z := fun z i => by
    have h1 := deriv_mulVec (E := fun z i => Complex.I * v i * W z i) P.top (fun i => (dW z i).const_mul (Complex.I * v i)) i
    refine h1.congr_deriv ?_
    have e : M *ᵥ E z = P.top *ᵥ ((diagonal fun i => -(P.val i * P.val i)) *ᵥ U z) := by
      simp only [E]; rw [mulVec_mulVec, hP.modes, mulVec_mulVec]
    rw [e]
    congr 2
    funext j
    rw [mulVec_diagonal]
    linear_combination (v j * v j * U z j) * Complex.I_mul_I
  have key := form_const hP.herm hP.herm' hE hF 0 h
  have conv : ∀ z, (star (E z) ⬝ᵥ (G *ᵥ F z)).im = (star (P.top *ᵥ U z) ⬝ᵥ (P.bot *ᵥ W z)).re := fun z => by
    have e : G *ᵥ F z = Complex.I • (P.bot *ᵥ W z) := by
      rw [hP.bot, ← mulVec_mulVec, ← mulVec_mulVec, ← mulVec_smul, ← mulVec_smul]
      simp only [F]
      congr 2
      funext j
      rw [Pi.smul_apply, mulVec_diagonal, smul_eq_mul, mul_assoc]
    rw [e, dotProduct_smul, smul_eq_mul, Complex.I_mul_im]
  rw [conv, conv] at key
  have u0 : U 0 = a + b := by funext i; simp [U]
  have w0 : W 0 = a - b := by funext i; simp [W]
  have hx : ∀ i, Complex.exp (-(Complex.I * v i * h)) * b i = d i := fun i => by
    rw [ht.2 i, ← mul_assoc, ← Complex.exp_add, neg_add_cancel, Complex.exp_zero, one_mul]
  have uh : U h = c + d := by
    funext i
    simp only [U, Pi.add_apply]
    rw [hx, ht.1 i]
  have wh : W h = c - d := by
    funext i
    simp only [W, Pi.sub_apply]
    rw [hx, ht.1 i]
  rw [u0, w0, uh, wh] at key
  exact key

end

end NG.Morpho
