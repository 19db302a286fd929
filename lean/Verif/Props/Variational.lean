import Verif.Model.Variational
import Verif.Spec.Variational
import Verif.Lemmas.GaussianKl

/-!
# C99: the Kullback-Leibler loss of the latent space
-/

namespace NNL.Props

open NNL.Model NNL.Spec MeasureTheory ProbabilityTheory InformationTheory Real Filter Topology

variable {d : ℕ}

theorem klRow_eq (mu s : Fin d → ℝ) : klRow mu s = ∑ i, 1 / 2 * (mu i ^ 2 + exp (s i) - s i - 1) := by
  rw [klRow, Finset.mul_sum]
  refine Finset.sum_congr rfl fun i _ => ?_
  ring

theorem kl_term_nonneg (m s : ℝ) : 0 ≤ 1 / 2 * (m ^ 2 + exp s - s - 1) := by
  have := add_one_le_exp s
  have := sq_nonneg m
  linarith

/-- C99. The term of a row is the Kullback-Leibler divergence of the distribution of its latent samples from the standard normal
distribution. -/
theorem C99_row (mu s : Fin d → ℝ) : klDiv (latentLaw mu s) (standardLaw d) = ENNReal.ofReal (klRow mu s) := by
  rw [latentLaw, standardLaw, Lemmas.klDiv_pi_gaussian _ _ fun i => by simpa using exp_pos (s i), klRow_eq]
  congr 1
  refine Finset.sum_congr rfl fun i _ => ?_
  rw [Real.coe_toNNReal _ (exp_pos _).le, Real.log_exp]

/-- C99. No row contributes a negative loss, and only the standard normal distribution contributes none. -/
theorem C99_zero (mu s : Fin d → ℝ) : 0 ≤ klRow mu s ∧ (klRow mu s = 0 ↔ mu = 0 ∧ s = 0) := by
  rw [klRow_eq]
  refine ⟨Finset.sum_nonneg fun i _ => kl_term_nonneg _ _, ?_⟩
  rw [Finset.sum_eq_zero_iff_of_nonneg fun i _ => kl_term_nonneg _ _]
  constructor
  · intro h
    have key : ∀ i, mu i = 0 ∧ s i = 0 := by
      intro i
      have hi := h i (Finset.mem_univ i)
      have h1 := add_one_le_exp (s i)
      have h2 := sq_nonneg (mu i)
      have hm : mu i ^ 2 = 0 := by linarith
      refine ⟨by simpa using hm, ?_⟩
      by_contra hs
      have := add_one_lt_exp hs
      linarith
    exact ⟨funext fun i => (key i).1, funext fun i => (key i).2⟩
  · rintro ⟨rfl, rfl⟩ i _
    simp

/-- C99. `kl_loss` is the weighted mean of the divergences of the rows of the batch. -/
theorem C99_loss (weight : ℝ) (batch : List ((Fin d → ℝ) × (Fin d → ℝ))) (h : batch ≠ []) :
    klLoss weight batch =
      some (weight * ((batch.map fun p => (klDiv (latentLaw p.1 p.2) (standardLaw d)).toReal).sum / batch.length)) := by
  rw [klLoss, if_neg (by simpa using h)]
  congr 5
  ext p
  rw [C99_row, ENNReal.toReal_ofReal (C99_zero _ _).1]

/-- C99. `reparam` draws from the distribution of the row: normal draws `eps` become samples with means `mu` and variances
`exp logVar`. -/
theorem C99_reparam (mu s : Fin d → ℝ) : (standardLaw d).map (reparam mu s) = latentLaw mu s := by
  have e : reparam mu s = fun x i => (fun y : ℝ => y * exp (0.5 * s i) + mu i) (x i) := rfl
  have hpi := Measure.pi_map_pi (μ := fun _ : Fin d => gaussianReal 0 1) (f := fun i (y : ℝ) => y * exp (0.5 * s i) + mu i)
    fun i => (by fun_prop)
  rw [e, standardLaw, hpi, latentLaw]
  congr 1
  ext1 i
  have e2 : (fun y : ℝ => y * exp (0.5 * s i) + mu i) = (fun y => y + mu i) ∘ fun y => y * exp (0.5 * s i) := rfl
  rw [e2, ← Measure.map_map (by fun_prop) (by fun_prop), gaussianReal_map_mul_const, gaussianReal_map_add_const]
  congr 1
  · simp
  · rw [mul_one]
    apply NNReal.eq
    rw [Real.coe_toNNReal _ (exp_pos _).le]
    change exp (0.5 * s i) ^ 2 = _
    rw [← exp_nat_mul]
    congr 1
    push_cast
    ring

/-- C99. The weight of the annealing stays strictly between its limits, increases from one to the other, and is half way at the
center. -/
theorem C99_anneal {lo up width : ℝ} (h : lo < up) (hw : 0 < width) (center : ℝ) :
    (∀ step, lo < sigmoidAnneal lo up center width step ∧ sigmoidAnneal lo up center width step < up) ∧
      StrictMono (sigmoidAnneal lo up center width) ∧ sigmoidAnneal lo up center width center = (lo + up) / 2 ∧
      Tendsto (sigmoidAnneal lo up center width) atTop (𝓝 up) ∧ Tendsto (sigmoidAnneal lo up center width) atBot (𝓝 lo) := by
  have hd : 0 < up - lo := sub_pos.2 h
  refine ⟨fun step => ⟨?_, ?_⟩, ?_, ?_, ?_, ?_⟩
  · have := mul_pos hd (sigmoid_pos ((step - center) / width))
    rw [sigmoidAnneal]
    linarith
  · have := mul_lt_mul_of_pos_left (sigmoid_lt_one ((step - center) / width)) hd
    rw [sigmoidAnneal]
    linarith
  · intro a b hab
    have : (a - center) / width < (b - center) / width := div_lt_div_of_pos_right (by linarith) hw
    have := mul_lt_mul_of_pos_left (sigmoid_strictMono this) hd
    simp only [sigmoidAnneal]
    linarith
  · simp [sigmoidAnneal, sigmoid]
    ring
  · have ht : Tendsto (fun step : ℝ => (step - center) / width) atTop atTop :=
      (tendsto_atTop_add_const_right _ (-center) tendsto_id).atTop_div_const hw
    have := ((tendsto_sigmoid_atTop.comp ht).const_mul (up - lo)).const_add lo
    change Tendsto (fun x => lo + (up - lo) * sigmoid ((x - center) / width)) _ _
    simpa using this
  · have ht : Tendsto (fun step : ℝ => (step - center) / width) atBot atBot :=
      (tendsto_atBot_add_const_right _ (-center) tendsto_id).atBot_div_const hw
    have := ((tendsto_sigmoid_atBot.comp ht).const_mul (up - lo)).const_add lo
    change Tendsto (fun x => lo + (up - lo) * sigmoid ((x - center) / width)) _ _
    simpa using this

/-- A batch of two rows, one of them of positive loss. -/
example : klLoss 2 [(![1, 0], ![0, 0]), (![0, 0], (![0, 0] : Fin 2 → ℝ))] = some (1 / 2) := by
  rw [klLoss, if_neg (by simp)]
  simp [klRow, Fin.sum_univ_two]
  norm_num

example : (1 : ℝ) < sigmoidAnneal 1 3 10 5 7 ∧ sigmoidAnneal 1 3 10 5 7 < 2 := by
  obtain ⟨h1, h2, h3, -⟩ := C99_anneal (lo := 1) (up := 3) (width := 5) (by norm_num) (by norm_num) 10
  refine ⟨(h1 7).1, ?_⟩
  have := h2 (show (7 : ℝ) < 10 by norm_num)
  rw [h3] at this
  linarith

end NNL.Props
