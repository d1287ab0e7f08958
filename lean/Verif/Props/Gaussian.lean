import Verif.Props.Transforms
import Mathlib.Probability.Distributions.Gaussian.Real
import Mathlib.Probability.CDF
import Mathlib.Topology.Order.IntermediateValue

/-!
# C21: the Gaussian cumulative-density transform

`CumulativeDensity` (transforms.py 255-305) uses `stats.norm.cdf` by default. Its cdf meets `CdfSpec`, so the theorems
of `Verif.Props.Transforms` apply to it.
-/

namespace NG
namespace Tr
open MeasureTheory ProbabilityTheory Set Filter

/-- `stats.norm.cdf`. -/
noncomputable def normCdf (x : ℝ) : ℝ := cdf (gaussianReal 0 1) x

/-- `stats.norm.ppf`: the inverse of the cdf. -/
noncomputable def normPpf (q : ℝ) : ℝ := Function.invFun normCdf q

theorem normCdf_strictMono : StrictMono normCdf := by
  intro a b hab
  unfold normCdf
  rw [cdf_eq_real, cdf_eq_real]
  have hdis : (gaussianReal 0 1).real (Iic b) = (gaussianReal 0 1).real (Iic a) + (gaussianReal 0 1).real (Ioc a b) := by
    rw [← measureReal_union (by rw [Set.disjoint_left]; intro x h1 h2; exact absurd h1 (not_le.2 h2.1)) measurableSet_Ioc]
    rw [Iic_union_Ioc_eq_Iic hab.le]
  rw [hdis]
  have hpos : 0 < (gaussianReal 0 1).real (Ioc a b) := by
    rw [measureReal_def]
    apply ENNReal.toReal_pos
    · intro h0
      have := gaussianReal_absolutelyContinuous' 0 (one_ne_zero) h0
      rw [Real.volume_Ioc] at this
      have h2 := ENNReal.ofReal_eq_zero.1 this
      linarith
    · exact measure_ne_top _ _
  linarith

theorem normCdf_continuous : Continuous normCdf := by
  rw [continuous_iff_continuousAt]
  intro x
  unfold normCdf
  rw [(monotone_cdf (gaussianReal 0 1)).continuousAt_iff_leftLim_eq_rightLim, StieltjesFunction.rightLim_eq]
  have h := (cdf (gaussianReal 0 1)).measure_singleton x
  rw [measure_cdf] at h
  haveI : NullSingletonClass (gaussianReal 0 1) := ⟨fun y => gaussianReal_absolutelyContinuous 0 one_ne_zero (by simp)⟩
  rw [measure_singleton] at h
  have h2 := ENNReal.ofReal_eq_zero.1 h.symm
  have h3 := (monotone_cdf (gaussianReal 0 1)).leftLim_le (le_refl x)
  linarith

/-- The normal distribution satisfies the assumptions made on distributions. -/
theorem normal_spec : CdfSpec normCdf normPpf where
  pos x := lt_of_le_of_lt (cdf_nonneg _ (x - 1)) (normCdf_strictMono (by linarith))
  lt_one x := lt_of_lt_of_le (normCdf_strictMono (by linarith : x < x + 1)) (cdf_le_one _ _)
  left_inv x := Function.leftInverse_invFun normCdf_strictMono.injective x
  right_inv q h0 h1 := by
    apply Function.invFun_eq
    have ha : ∃ a, normCdf a < q := ((tendsto_cdf_atBot (gaussianReal 0 1)).eventually (gt_mem_nhds h0)).exists
    have hb : ∃ b, q < normCdf b := ((tendsto_cdf_atTop (gaussianReal 0 1)).eventually (lt_mem_nhds h1)).exists
    obtain ⟨a, ha⟩ := ha
    obtain ⟨b, hb⟩ := hb
    have := mem_range_of_exists_le_of_exists_ge normCdf_continuous ⟨a, ha.le⟩ ⟨b, hb.le⟩
    exact this

/-- C21: the default (Gaussian) cumulative-density transform: exact round trip from the data side in the unclipped
zone, `eps`-close round trip from the value side. -/
theorem normal_roundtrip {ι : Type} [Fintype ι] (lo hi eps scale : ℝ) (h : lo < hi) (hsc : scale ≠ 0) (he : 0 < eps) (he2 : eps ≤ 1 / 2) :
    (∀ x : ι → ℝ, (∀ i, eps ≤ normCdf (x i / scale) ∧ normCdf (x i / scale) ≤ 1 - eps) →
      cdfBackward normPpf lo hi eps scale (cdfForward normCdf lo hi scale x) = .ok x) ∧
    (∀ y : ι → ℝ, (∀ i, lo ≤ y i ∧ y i ≤ hi) →
      ∃ x, cdfBackward normPpf lo hi eps scale y = .ok x ∧ ∀ i, |cdfForward normCdf lo hi scale x i - y i| ≤ eps * (hi - lo)) :=
  ⟨fun x hx => cdf_roundtrip_partial _ _ normal_spec lo hi eps scale h hsc x hx,
   fun y hy => cdf_roundtrip' _ _ normal_spec lo hi eps scale h hsc he he2 y hy⟩

end Tr
end NG
