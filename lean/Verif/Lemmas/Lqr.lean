import Verif.Spec.Lqr
import Mathlib.Analysis.Calculus.MeanValue
import Mathlib.Analysis.Calculus.Deriv.Mul
import Mathlib.Analysis.Normed.Module.FiniteDimension
import Mathlib.Analysis.SpecialFunctions.Sqrt
import Mathlib.Analysis.Matrix.PosDef
import Mathlib.Analysis.SpecialFunctions.ExpDeriv
import Mathlib.Tactic.Linarith
import Mathlib.Tactic.Positivity
import Mathlib.Tactic.FieldSimp
import Mathlib.Tactic.Ring
import Mathlib.Tactic.LinearCombination

/-!
# Quadratic Lyapunov functions of smooth closed loops
-/

namespace NNL.Lemmas

open Matrix Set NNL.Spec Topology Filter

variable {n p : ℕ}

/-- Completing the square. -/
theorem riccati_square {A : Matrix (Fin n) (Fin n) ℝ} {B : Matrix (Fin n) (Fin p) ℝ} {Q : Matrix (Fin n) (Fin n) ℝ}
    {R : Matrix (Fin p) (Fin p) ℝ} {S : Matrix (Fin n) (Fin n) ℝ} (hS : Sᵀ = S) (hR : Rᵀ = R) (hd : IsUnit R.det)
    (h : Riccati A B Q R S) (x : Fin n → ℝ) (u : Fin p → ℝ) :
    x ⬝ᵥ Q *ᵥ x + u ⬝ᵥ R *ᵥ u + 2 * (x ⬝ᵥ S *ᵥ (A *ᵥ x + B *ᵥ u)) =
      (u + (R⁻¹ * (Bᵀ * S)) *ᵥ x) ⬝ᵥ R *ᵥ (u + (R⁻¹ * (Bᵀ * S)) *ᵥ x) := by
  have hQ : Q = S * B * R⁻¹ * Bᵀ * S - Aᵀ * S - S * A := by
    have := h
    unfold Riccati at this
    have h2 : Q = -(Aᵀ * S + S * A - S * B * R⁻¹ * Bᵀ * S) := eq_neg_of_add_eq_zero_right this
    rw [h2]; abel
  have hRi : (R⁻¹)ᵀ = R⁻¹ := by rw [Matrix.transpose_nonsing_inv, hR]
  set K := R⁻¹ * (Bᵀ * S) with hK
  have hRK : R * K = Bᵀ * S := by
    rw [hK, ← Matrix.mul_assoc, Matrix.mul_nonsing_inv _ hd, Matrix.one_mul]
  have hKRK : Kᵀ * R * K = S * B * R⁻¹ * Bᵀ * S := by
    rw [Matrix.mul_assoc, hRK, hK]
    simp only [Matrix.transpose_mul, Matrix.transpose_transpose, hRi, hS, Matrix.mul_assoc]
  have sym : ∀ (M : Matrix (Fin n) (Fin n) ℝ) (v w : Fin n → ℝ), v ⬝ᵥ Mᵀ *ᵥ w = w ⬝ᵥ M *ᵥ v := fun M v w => by
    rw [Matrix.mulVec_transpose, dotProduct_comm, ← Matrix.dotProduct_mulVec]
  have e1 : x ⬝ᵥ Q *ᵥ x = x ⬝ᵥ (Kᵀ * R * K) *ᵥ x - 2 * (x ⬝ᵥ (S * A) *ᵥ x) := by
    have : x ⬝ᵥ (Aᵀ * S) *ᵥ x = x ⬝ᵥ (S * A) *ᵥ x := by
      rw [← sym (S * A) x x, Matrix.transpose_mul, hS]
    rw [hKRK, hQ]
    simp only [Matrix.sub_mulVec, dotProduct_sub]
    rw [this]; ring
  have e2 : x ⬝ᵥ (Kᵀ * R * K) *ᵥ x = (K *ᵥ x) ⬝ᵥ R *ᵥ (K *ᵥ x) := by
    rw [Matrix.mul_assoc, ← Matrix.mulVec_mulVec, ← Matrix.mulVec_mulVec, Matrix.mulVec_transpose, dotProduct_comm,
      ← Matrix.dotProduct_mulVec, dotProduct_comm]
  have e3 : u ⬝ᵥ R *ᵥ (K *ᵥ x) = x ⬝ᵥ S *ᵥ (B *ᵥ u) := by
    rw [Matrix.mulVec_mulVec, hRK, ← Matrix.mulVec_mulVec, Matrix.mulVec_transpose, dotProduct_comm,
      ← Matrix.dotProduct_mulVec, ← sym S, hS, dotProduct_comm]
  have e4 : (K *ᵥ x) ⬝ᵥ R *ᵥ u = u ⬝ᵥ R *ᵥ (K *ᵥ x) := by
    rw [Matrix.dotProduct_mulVec, ← Matrix.mulVec_transpose, hR, dotProduct_comm]
  rw [e1, e2]
  simp only [Matrix.mulVec_add, dotProduct_add, add_dotProduct, e4, e3, ← Matrix.mulVec_mulVec]
  ring

theorem posDef_transpose {M : Matrix (Fin n) (Fin n) ℝ} (h : M.PosDef) : Mᵀ = M := by
  have := h.isHermitian
  rwa [Matrix.IsHermitian, Matrix.conjTranspose_eq_transpose_of_trivial] at this

theorem posDef_pos {M : Matrix (Fin n) (Fin n) ℝ} (h : M.PosDef) {v : Fin n → ℝ} (hv : v ≠ 0) : 0 < v ⬝ᵥ M *ᵥ v := by
  simpa using h.dotProduct_mulVec_pos hv

theorem continuous_quad (M : Matrix (Fin n) (Fin n) ℝ) : Continuous fun v : Fin n → ℝ => v ⬝ᵥ M *ᵥ v := by
  unfold dotProduct Matrix.mulVec dotProduct
  fun_prop

theorem posDef_lower {M : Matrix (Fin n) (Fin n) ℝ} (h : M.PosDef) :
    ∃ a, 0 < a ∧ ∀ v : Fin n → ℝ, a * ‖v‖ ^ 2 ≤ v ⬝ᵥ M *ᵥ v := by
  by_cases hne : (Metric.sphere (0 : Fin n → ℝ) 1).Nonempty
  · obtain ⟨w, hw, hmin⟩ := (isCompact_sphere (0 : Fin n → ℝ) 1).exists_isMinOn hne (continuous_quad M).continuousOn
    have hw1 : ‖w‖ = 1 := by simpa using hw
    have hw0 : w ≠ 0 := by
      rintro rfl
      simp at hw1
    refine ⟨w ⬝ᵥ M *ᵥ w, posDef_pos h hw0, fun v => ?_⟩
    by_cases hv : v = 0
    · simp [hv]
    · have hv' : ‖v‖ ≠ 0 := norm_ne_zero_iff.2 hv
      have hs : (‖v‖⁻¹ • v) ∈ Metric.sphere (0 : Fin n → ℝ) 1 := by
        simp [norm_smul, hv']
      have := hmin hs
      simp only [mem_ofPred_eq, Matrix.mulVec_smul, dotProduct_smul, smul_dotProduct, smul_eq_mul] at this
      have h2 := mul_le_mul_of_nonneg_right this (sq_nonneg ‖v‖)
      refine h2.trans (le_of_eq ?_)
      field_simp
  · refine ⟨1, one_pos, fun v => ?_⟩
    have : v = 0 := by
      by_contra hv
      have hv' : ‖v‖ ≠ 0 := norm_ne_zero_iff.2 hv
      exact hne ⟨‖v‖⁻¹ • v, by simp [norm_smul, hv']⟩
    simp [this]

theorem quad_upper (M : Matrix (Fin n) (Fin p) ℝ) :
    ∃ b, 0 < b ∧ ∀ (v : Fin n → ℝ) (w : Fin p → ℝ), |v ⬝ᵥ M *ᵥ w| ≤ b * ‖v‖ * ‖w‖ := by
  refine ⟨(∑ i, ∑ j, |M i j|) + 1, by positivity, fun v w => ?_⟩
  have h1 : |v ⬝ᵥ M *ᵥ w| ≤ ∑ i, ∑ j, ‖v‖ * |M i j| * ‖w‖ := by
    unfold dotProduct Matrix.mulVec dotProduct
    refine (Finset.abs_sum_le_sum_abs _ _).trans (Finset.sum_le_sum fun i _ => ?_)
    rw [Finset.mul_sum]
    refine (Finset.abs_sum_le_sum_abs _ _).trans (Finset.sum_le_sum fun j _ => ?_)
    rw [abs_mul, abs_mul, ← mul_assoc]
    have hv : |v i| ≤ ‖v‖ := norm_le_pi_norm v i
    have hw : |w j| ≤ ‖w‖ := norm_le_pi_norm w j
    gcongr
  refine h1.trans ?_
  simp only [← Finset.sum_mul, ← Finset.mul_sum]
  nlinarith [norm_nonneg v, norm_nonneg w, mul_nonneg (norm_nonneg v) (norm_nonneg w)]

/-- Derivative of a quadratic function along a motion. -/
theorem quad_deriv {S : Matrix (Fin n) (Fin n) ℝ} (hS : Sᵀ = S) {X : ℝ → Fin n → ℝ} {d : Fin n → ℝ} {s : Set ℝ} {t : ℝ}
    (xe : Fin n → ℝ) (h : ∀ i, HasDerivWithinAt (fun r => X r i) (d i) s t) :
    HasDerivWithinAt (fun r => (X r - xe) ⬝ᵥ S *ᵥ (X r - xe)) (2 * ((X t - xe) ⬝ᵥ S *ᵥ d)) s t := by
  have hx : ∀ i, HasDerivWithinAt (fun r => (X r - xe) i) (d i) s t := fun i => by
    simpa using (h i).sub_const (xe i)
  have hSx : ∀ i, HasDerivWithinAt (fun r => (S *ᵥ (X r - xe)) i) ((S *ᵥ d) i) s t := fun i => by
    simp only [Matrix.mulVec, dotProduct]
    exact HasDerivWithinAt.fun_sum fun j _ => (hx j).const_mul (S i j)
  have := HasDerivWithinAt.fun_sum (u := Finset.univ) fun i (_ : i ∈ Finset.univ) => (hx i).mul (hSx i)
  refine (this.congr_deriv ?_ : _)
  rw [Finset.sum_add_distrib]
  have e : d ⬝ᵥ S *ᵥ (X t - xe) = (X t - xe) ⬝ᵥ S *ᵥ d := by
    rw [Matrix.dotProduct_mulVec, ← Matrix.mulVec_transpose, hS, dotProduct_comm]
  change d ⬝ᵥ S *ᵥ (X t - xe) + (X t - xe) ⬝ᵥ S *ᵥ d = _
  rw [e]; ring

/-- A quadratic Lyapunov function of the linearised closed loop decreases near the equilibrium of the closed loop itself. -/
theorem quad_decrease {F : (Fin n → ℝ) → Fin n → ℝ} {M : Matrix (Fin n) (Fin n) ℝ} {xe : Fin n → ℝ}
    (hF : IsJacobian F M xe) (h0 : F xe = 0) {S : Matrix (Fin n) (Fin n) ℝ} {q : ℝ} (hq : 0 < q)
    (hM : ∀ v : Fin n → ℝ, 2 * (v ⬝ᵥ S *ᵥ (M *ᵥ v)) ≤ -q * ‖v‖ ^ 2) :
    ∃ r, 0 < r ∧ ∀ x, ‖x - xe‖ < r → 2 * ((x - xe) ⬝ᵥ S *ᵥ F x) ≤ -(q / 2) * ‖x - xe‖ ^ 2 := by
  obtain ⟨b, hb, hbd⟩ := quad_upper S
  have hl := hF.isLittleO.def (c := q / (4 * b)) (by positivity)
  obtain ⟨r, hr, hball⟩ := Metric.eventually_nhds_iff.1 hl
  refine ⟨r, hr, fun x hx => ?_⟩
  have h1 := hball (y := x) (by simpa [dist_eq_norm] using hx)
  rw [h0, sub_zero] at h1
  change ‖F x - M *ᵥ (x - xe)‖ ≤ _ at h1
  have e : F x = M *ᵥ (x - xe) + (F x - M *ᵥ (x - xe)) := by abel
  have h2 := hbd (x - xe) (F x - M *ᵥ (x - xe))
  have h3 := le_of_abs_le h2
  have h4 := hM (x - xe)
  rw [e, Matrix.mulVec_add, dotProduct_add]
  have h5 : b * ‖x - xe‖ * ‖F x - M *ᵥ (x - xe)‖ ≤ b * ‖x - xe‖ * (q / (4 * b) * ‖x - xe‖) := by gcongr
  have h6 : b * ‖x - xe‖ * (q / (4 * b) * ‖x - xe‖) = q / 4 * ‖x - xe‖ ^ 2 := by field_simp
  nlinarith

/-- A quadratic function which decreases near the equilibrium gives exponential convergence. -/
theorem exp_stable_of_quad {f : (Fin n → ℝ) → (Fin p → ℝ) → Fin n → ℝ} {π : (Fin n → ℝ) → Fin p → ℝ} {xe : Fin n → ℝ}
    {S : Matrix (Fin n) (Fin n) ℝ} (hS : S.PosDef) {q r : ℝ} (hq : 0 < q) (hr : 0 < r)
    (hdec : ∀ x, ‖x - xe‖ < r → 2 * ((x - xe) ⬝ᵥ S *ᵥ f x (π x)) ≤ -q * ‖x - xe‖ ^ 2) : LocallyExpStable f π xe := by
  obtain ⟨a, ha, hlow⟩ := posDef_lower hS
  obtain ⟨b, hb, hup⟩ := quad_upper S
  have hup' : ∀ v : Fin n → ℝ, v ⬝ᵥ S *ᵥ v ≤ b * ‖v‖ ^ 2 := fun v => by
    have := le_of_abs_le (hup v v)
    nlinarith
  set c := q / (2 * b) with hc
  have hcpos : 0 < c := by positivity
  refine ⟨r * Real.sqrt (a / b), Real.sqrt (b / a), c / 2, by positivity, by positivity, by positivity, ?_⟩
  intro X hX hX0 T hT
  set W : ℝ → ℝ := fun t => (X t - xe) ⬝ᵥ S *ᵥ (X t - xe) with hW
  have hd : ∀ t, 0 ≤ t → HasDerivWithinAt W (2 * ((X t - xe) ⬝ᵥ S *ᵥ f (X t) (π (X t)))) (Ici 0) t := fun t ht =>
    quad_deriv (posDef_transpose hS) xe fun i => hX t ht i
  have hW0 : W 0 < a * r ^ 2 := by
    have h1 := hup' (X 0 - xe)
    have h2 : ‖X 0 - xe‖ ^ 2 < (r * Real.sqrt (a / b)) ^ 2 := by gcongr
    rw [mul_pow, Real.sq_sqrt (by positivity)] at h2
    have h3 : b * ‖X 0 - xe‖ ^ 2 < b * (r ^ 2 * (a / b)) := by gcongr
    have h4 : b * (r ^ 2 * (a / b)) = a * r ^ 2 := by field_simp
    exact lt_of_le_of_lt h1 (by rw [← h4]; exact h3)
  have hWn : 0 ≤ W 0 := (by positivity : (0 : ℝ) ≤ a * ‖X 0 - xe‖ ^ 2).trans (hlow _)
  have key : ∀ η, 0 < η → W 0 + η < a * r ^ 2 → W T ≤ (W 0 + η) * Real.exp (-(c * T)) := by
    intro η hη hηr
    have hB : ∀ t, HasDerivAt (fun t => (W 0 + η) * Real.exp (-(c * t))) ((W 0 + η) * (Real.exp (-(c * t)) * -(c * 1))) t :=
      fun t => (((hasDerivAt_id t).const_mul c).neg.exp).const_mul _
    refine image_le_of_deriv_right_lt_deriv_boundary (f := W) (a := 0) (b := T)
      (f' := fun t => 2 * ((X t - xe) ⬝ᵥ S *ᵥ f (X t) (π (X t)))) ?_ ?_ ?_ hB ?_ ⟨hT, le_rfl⟩
    · exact fun t ht => ((hd t ht.1).continuousWithinAt).mono fun s hs => hs.1
    · exact fun t ht => (hd t ht.1).mono (Ici_subset_Ici.2 ht.1)
    · simp; exact hη.le
    · intro t ht he
      have hpos : 0 < W t := by rw [he]; positivity
      have hle : W t ≤ W 0 + η := by
        rw [he]
        have : Real.exp (-(c * t)) ≤ 1 := Real.exp_le_one_iff.2 (by have := mul_nonneg hcpos.le ht.1; linarith)
        nlinarith
      have hn : ‖X t - xe‖ < r := by
        have h1 := hlow (X t - xe)
        have h2 : a * ‖X t - xe‖ ^ 2 < a * r ^ 2 := lt_of_le_of_lt h1 (lt_of_le_of_lt hle hηr)
        exact lt_of_pow_lt_pow_left₀ 2 hr.le (lt_of_mul_lt_mul_left h2 ha.le)
      have h3 := hdec (X t) hn
      have h4 := hup' (X t - xe)
      have h5 : q * ‖X t - xe‖ ^ 2 ≥ 2 * c * W t := by
        have : 2 * c * W t ≤ 2 * c * (b * ‖X t - xe‖ ^ 2) := by
          have := mul_le_mul_of_nonneg_left h4 (by positivity : 0 ≤ 2 * c)
          exact this
        have e : 2 * c * (b * ‖X t - xe‖ ^ 2) = q * ‖X t - xe‖ ^ 2 := by rw [hc]; field_simp
        linarith
      have h6 : (W 0 + η) * (Real.exp (-(c * t)) * -(c * 1)) = -c * W t := by rw [he]; ring
      rw [h6]
      nlinarith
  have hfin : W T ≤ W 0 * Real.exp (-(c * T)) := by
    have hex : Real.exp (-(c * T)) ≤ 1 := Real.exp_le_one_iff.2 (by have := mul_nonneg hcpos.le hT; linarith)
    refine le_of_forall_pos_le_add fun ε hε => ?_
    set η := min ε ((a * r ^ 2 - W 0) / 2) with hη
    have hη0 : 0 < η := lt_min hε (by linarith)
    have h1 := key η hη0 (by have := min_le_right ε ((a * r ^ 2 - W 0) / 2); rw [← hη] at this; linarith)
    have h2 : η ≤ ε := min_le_left _ _
    have h3 : η * Real.exp (-(c * T)) ≤ η := by nlinarith
    nlinarith
  have h1 : a * ‖X T - xe‖ ^ 2 ≤ b * ‖X 0 - xe‖ ^ 2 * Real.exp (-(c * T)) :=
    (hlow _).trans (hfin.trans (mul_le_mul_of_nonneg_right (hup' _) (Real.exp_pos _).le))
  have h2 : ‖X T - xe‖ ^ 2 ≤ (Real.sqrt (b / a) * Real.exp (-(c / 2 * T)) * ‖X 0 - xe‖) ^ 2 := by
    rw [mul_pow, mul_pow, Real.sq_sqrt (by positivity), ← Real.exp_nat_mul]
    have : ((2 : ℕ) : ℝ) * -(c / 2 * T) = -(c * T) := by push_cast; ring
    rw [this]
    have h3 : ‖X T - xe‖ ^ 2 ≤ b * ‖X 0 - xe‖ ^ 2 * Real.exp (-(c * T)) / a := by
      rw [le_div_iff₀ ha]; linarith
    refine h3.trans (le_of_eq ?_)
    ring
  exact (pow_le_pow_iff_left₀ (norm_nonneg _) (by positivity) two_ne_zero).1 h2

end NNL.Lemmas
