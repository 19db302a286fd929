import Mathlib.InformationTheory.KullbackLeibler.Basic
import Mathlib.Probability.Distributions.Gaussian.Real
import Mathlib.Probability.Independence.Integration

/-!
# The Kullback-Leibler divergence of products of normal distributions
-/

namespace NNL.Lemmas

open MeasureTheory ProbabilityTheory InformationTheory Real
open scoped ENNReal NNReal

/-- The log-likelihood ratio of a measure given by a density. -/
theorem llr_withDensity {α : Type*} [MeasurableSpace α] {q : Measure α} [SigmaFinite q] {f : α → ℝ≥0∞} (hf : Measurable f) :
    llr (q.withDensity f) q =ᵐ[q.withDensity f] fun x => Real.log (f x).toReal := by
  have h := Measure.rnDeriv_withDensity q hf
  have h' := (withDensity_absolutelyContinuous q f).ae_le h
  filter_upwards [h'] with x hx
  rw [llr, hx]

/-- A product of measures with densities has the product of the densities. -/
theorem pi_withDensity {ι : Type*} [Fintype ι] (q : ι → Measure ℝ) [∀ i, IsProbabilityMeasure (q i)] (f : ι → ℝ → ℝ≥0∞)
    (hf : ∀ i, Measurable (f i)) [∀ i, IsProbabilityMeasure ((q i).withDensity (f i))] :
    Measure.pi (fun i => (q i).withDensity (f i)) = (Measure.pi q).withDensity fun x => ∏ i, f i (x i) := by
  refine Measure.pi_eq fun s hs => ?_
  have hm : Measurable fun x : ι → ℝ => ∏ i, f i (x i) := Finset.measurable_prod _ fun i _ => (hf i).comp (measurable_pi_apply i)
  rw [withDensity_apply _ (MeasurableSet.univ_pi hs), ← lintegral_indicator (MeasurableSet.univ_pi hs)]
  have hX : ∀ i, Measurable ((s i).indicator (f i)) := fun i => (hf i).indicator (hs i)
  have hind : iIndepFun (fun i (x : ι → ℝ) => (s i).indicator (f i) (x i)) (Measure.pi q) :=
    iIndepFun_pi fun i => (hX i).aemeasurable
  have e : (fun x : ι → ℝ => (Set.univ.pi s).indicator (fun x => ∏ i, f i (x i)) x) =
      fun x => ∏ i, (s i).indicator (f i) (x i) := by
    ext x
    by_cases hx : x ∈ Set.univ.pi s
    · rw [Set.indicator_of_mem hx]
      exact Finset.prod_congr rfl fun i _ => (Set.indicator_of_mem (hx i (Set.mem_univ i)) _).symm
    · rw [Set.indicator_of_notMem hx]
      obtain ⟨i, hi⟩ : ∃ i, x i ∉ s i := by simpa [Set.mem_pi] using hx
      exact (Finset.prod_eq_zero (Finset.mem_univ i) (Set.indicator_of_notMem hi _)).symm
  rw [e, lintegral_prod_eq_prod_lintegral_of_indepFun Finset.univ _ hind fun i => (hX i).comp (measurable_pi_apply i)]
  refine Finset.prod_congr rfl fun i _ => ?_
  rw [withDensity_apply _ (hs i), ← lintegral_indicator (hs i)]
  exact (measurePreserving_eval q i).lintegral_comp (hX i)

/-- The quotient of the densities of `N(m, v)` and `N(0, 1)`. -/
noncomputable def gaussianRatio (m : ℝ) (v : ℝ≥0) (x : ℝ) : ℝ := gaussianPDFReal m v x / gaussianPDFReal 0 1 x

theorem gaussianRatio_pos (m : ℝ) {v : ℝ≥0} (hv : v ≠ 0) (x : ℝ) : 0 < gaussianRatio m v x :=
  div_pos (gaussianPDFReal_pos m v x hv) (gaussianPDFReal_pos 0 1 x one_ne_zero)

theorem gaussianRatio_measurable (m : ℝ) (v : ℝ≥0) : Measurable (gaussianRatio m v) :=
  (measurable_gaussianPDFReal m v).div (measurable_gaussianPDFReal 0 1)

theorem log_gaussianRatio (m : ℝ) {v : ℝ≥0} (hv : v ≠ 0) (x : ℝ) :
    Real.log (gaussianRatio m v x) = -(1 / 2) * Real.log v - (x - m) ^ 2 / (2 * v) + x ^ 2 / 2 := by
  have hv' : (0 : ℝ) < v := by positivity
  have hpi : (0 : ℝ) < 2 * π := by positivity
  rw [gaussianRatio, Real.log_div (gaussianPDFReal_pos m v x hv).ne' (gaussianPDFReal_pos 0 1 x one_ne_zero).ne', gaussianPDFReal,
    gaussianPDFReal, Real.log_mul (by positivity) (by positivity), Real.log_mul (by positivity) (by positivity), Real.log_exp,
    Real.log_exp, Real.log_inv, Real.log_inv, Real.log_sqrt (by positivity), Real.log_sqrt (by positivity),
    Real.log_mul hpi.ne' hv'.ne']
  simp
  ring

theorem gaussianReal_eq_withDensity (m : ℝ) {v : ℝ≥0} (hv : v ≠ 0) :
    gaussianReal m v = (gaussianReal 0 1).withDensity fun x => ENNReal.ofReal (gaussianRatio m v x) := by
  rw [gaussianReal_of_var_ne_zero m hv, gaussianReal_of_var_ne_zero 0 one_ne_zero,
    ← withDensity_mul _ (measurable_gaussianPDF 0 1) (gaussianRatio_measurable m v).ennreal_ofReal]
  congr 1
  ext x
  rw [Pi.mul_apply, gaussianPDF, gaussianPDF, ← ENNReal.ofReal_mul (gaussianPDFReal_nonneg 0 1 x), gaussianRatio,
    mul_div_cancel₀ _ (gaussianPDFReal_pos 0 1 x one_ne_zero).ne']

theorem integrable_sq (m : ℝ) (v : ℝ≥0) (c : ℝ) : Integrable (fun x => (x - c) ^ 2) (gaussianReal m v) := by
  have h : MemLp (fun x : ℝ => x - c) 2 (gaussianReal m v) := (memLp_id_gaussianReal 2).sub (memLp_const c)
  exact h.integrable_sq

theorem integral_sq_center (m : ℝ) (v : ℝ≥0) : ∫ x, (x - m) ^ 2 ∂gaussianReal m v = v := by
  have h := variance_fun_id_gaussianReal (μ := m) (v := v)
  rw [variance_eq_integral (by fun_prop), integral_id_gaussianReal] at h
  exact h

theorem integral_sq (m : ℝ) (v : ℝ≥0) : ∫ x, x ^ 2 ∂gaussianReal m v = v + m ^ 2 := by
  have hi : Integrable (fun x : ℝ => x) (gaussianReal m v) := (memLp_id_gaussianReal 1).integrable le_rfl
  have e : (fun x : ℝ => x ^ 2) = fun x => (x - m) ^ 2 + (2 * m * x - m ^ 2) := by ext x; ring
  have h1 : Integrable (fun x : ℝ => 2 * m * x) (gaussianReal m v) := hi.const_mul _
  have h2 : Integrable (fun x : ℝ => 2 * m * x - m ^ 2) (gaussianReal m v) := h1.sub (integrable_const _)
  rw [e, integral_add (integrable_sq m v m) h2, integral_sq_center, integral_sub h1 (integrable_const _), integral_const_mul,
    integral_id_gaussianReal]
  simp
  ring

theorem integrable_log_ratio (m : ℝ) {v : ℝ≥0} (hv : v ≠ 0) :
    Integrable (fun x => Real.log (gaussianRatio m v x)) (gaussianReal m v) := by
  simp_rw [log_gaussianRatio m hv]
  have h0 := integrable_sq m v 0
  simp only [sub_zero] at h0
  exact ((integrable_const _).sub ((integrable_sq m v m).div_const _)).add (h0.div_const _)

theorem integral_log_ratio (m : ℝ) {v : ℝ≥0} (hv : v ≠ 0) :
    ∫ x, Real.log (gaussianRatio m v x) ∂gaussianReal m v = 1 / 2 * (m ^ 2 + v - Real.log v - 1) := by
  simp_rw [log_gaussianRatio m hv]
  have h0 := integrable_sq m v 0
  simp only [sub_zero] at h0
  have hv' : (v : ℝ) ≠ 0 := by positivity
  have h1 : Integrable (fun x : ℝ => (x - m) ^ 2 / (2 * (v : ℝ))) (gaussianReal m v) := (integrable_sq m v m).div_const _
  have h2 : Integrable (fun x : ℝ => -(1 / 2) * Real.log v - (x - m) ^ 2 / (2 * (v : ℝ))) (gaussianReal m v) :=
    (integrable_const _).sub h1
  rw [integral_add h2 (h0.div_const _), integral_sub (integrable_const _) h1, integral_div, integral_div, integral_sq_center,
    integral_sq]
  simp
  field_simp
  ring

/-- The divergence of a product of normal distributions from the standard normal distribution. -/
theorem klDiv_pi_gaussian {ι : Type*} [Fintype ι] (m : ι → ℝ) (v : ι → ℝ≥0) (hv : ∀ i, v i ≠ 0) :
    klDiv (Measure.pi fun i => gaussianReal (m i) (v i)) (Measure.pi fun _ : ι => gaussianReal 0 1) =
      ENNReal.ofReal (∑ i, 1 / 2 * (m i ^ 2 + v i - Real.log (v i) - 1)) := by
  set q : ι → Measure ℝ := fun _ => gaussianReal 0 1
  set f : ι → ℝ → ℝ≥0∞ := fun i x => ENNReal.ofReal (gaussianRatio (m i) (v i) x)
  have hf : ∀ i, Measurable (f i) := fun i => (gaussianRatio_measurable (m i) (v i)).ennreal_ofReal
  have hp : ∀ i, gaussianReal (m i) (v i) = (q i).withDensity (f i) := fun i => gaussianReal_eq_withDensity (m i) (hv i)
  have : ∀ i, IsProbabilityMeasure ((q i).withDensity (f i)) := fun i => hp i ▸ inferInstance
  have hP : (Measure.pi fun i => gaussianReal (m i) (v i)) = (Measure.pi q).withDensity fun x => ∏ i, f i (x i) := by
    rw [← pi_withDensity q f hf]
    congr 1
    ext1 i
    exact hp i
  have hm : Measurable fun x : ι → ℝ => ∏ i, f i (x i) := Finset.measurable_prod _ fun i _ => (hf i).comp (measurable_pi_apply i)
  have hac : (Measure.pi fun i => gaussianReal (m i) (v i)) ≪ Measure.pi q := hP ▸ withDensity_absolutelyContinuous _ _
  have hl : llr (Measure.pi fun i => gaussianReal (m i) (v i)) (Measure.pi q) =ᵐ[Measure.pi fun i => gaussianReal (m i) (v i)]
      fun x => ∑ i, Real.log (gaussianRatio (m i) (v i) (x i)) := by
    have h := llr_withDensity (q := Measure.pi q) hm
    rw [← hP] at h
    refine h.trans (Filter.Eventually.of_forall fun x => ?_)
    simp only [f]
    rw [ENNReal.toReal_prod, Real.log_prod fun i _ => ?_]
    · exact Finset.sum_congr rfl fun i _ => by rw [ENNReal.toReal_ofReal (gaussianRatio_pos _ (hv i) _).le]
    · rw [ENNReal.toReal_ofReal (gaussianRatio_pos _ (hv i) _).le]
      exact (gaussianRatio_pos _ (hv i) _).ne'
  have hi : ∀ i, Integrable (fun x : ι → ℝ => Real.log (gaussianRatio (m i) (v i) (x i)))
      (Measure.pi fun i => gaussianReal (m i) (v i)) := fun i =>
    (measurePreserving_eval (fun i => gaussianReal (m i) (v i)) i).integrable_comp_of_integrable (integrable_log_ratio (m i) (hv i))
  have hint : Integrable (llr (Measure.pi fun i => gaussianReal (m i) (v i)) (Measure.pi q))
      (Measure.pi fun i => gaussianReal (m i) (v i)) := (integrable_congr hl).2 (integrable_finsetSum _ fun i _ => hi i)
  rw [klDiv_of_ac_of_integrable hac hint, integral_congr_ae hl, integral_finsetSum _ fun i _ => hi i]
  congr 1
  rw [probReal_univ, probReal_univ, add_sub_cancel_right]
  refine Finset.sum_congr rfl fun i _ => ?_
  rw [← integral_log_ratio (m i) (hv i)]
  have hmp := measurePreserving_eval (fun i => gaussianReal (m i) (v i)) i
  conv_rhs => rw [← hmp.map_eq]
  rw [integral_map hmp.measurable.aemeasurable]
  exact (Real.measurable_log.comp (gaussianRatio_measurable (m i) (v i))).aestronglyMeasurable

end NNL.Lemmas
