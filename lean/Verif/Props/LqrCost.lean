import Verif.Props.Lqr
import Mathlib.Analysis.Calculus.Deriv.Prod

/-!
# C122: what the regulators cost
-/

namespace NNL.Props

open Matrix Set NNL.Spec NNL.Model NNL.Lemmas Topology Filter

variable {n p : ℕ}

theorem continuousOn_quad {m : ℕ} (M : Matrix (Fin m) (Fin m) ℝ) {Y : ℝ → Fin m → ℝ} {s : Set ℝ} (h : ContinuousOn Y s) :
    ContinuousOn (fun t => Y t ⬝ᵥ M *ᵥ Y t) s := (continuous_quad M).comp_continuousOn h

theorem motion_continuous {f : (Fin n → ℝ) → (Fin p → ℝ) → Fin n → ℝ} {X : ℝ → Fin n → ℝ} {U : ℝ → Fin p → ℝ}
    (h : Motion f X U) : ContinuousOn X (Ici 0) := by
  rw [continuousOn_pi]
  exact fun i t ht => (h t ht i).continuousWithinAt

theorem lqrV_eq (S : Matrix (Fin n) (Fin n) ℝ) (xe x : Fin n → ℝ) : lqrV S xe x = (x - xe) ⬝ᵥ S *ᵥ (x - xe) := rfl

theorem lqr_rate_eq {A : Matrix (Fin n) (Fin n) ℝ} {B : Matrix (Fin n) (Fin p) ℝ} {Q : Matrix (Fin n) (Fin n) ℝ}
    {R : Matrix (Fin p) (Fin p) ℝ} {S : Matrix (Fin n) (Fin n) ℝ} (hS : S.PosDef) (hR : R.PosDef)
    (h : Riccati A B Q R S) (xe : Fin n → ℝ) (ue : Fin p → ℝ) (x : Fin n → ℝ) (u : Fin p → ℝ) :
    2 * ((x - xe) ⬝ᵥ S *ᵥ (linearised A B xe ue x u)) =
      (u - lqrU (-(R⁻¹ * (Bᵀ * S))) xe ue x) ⬝ᵥ R *ᵥ (u - lqrU (-(R⁻¹ * (Bᵀ * S))) xe ue x) -
        runningCost Q R xe ue x u := by
  have h1 := riccati_square (posDef_transpose hS) (posDef_transpose hR) (isUnit_iff_ne_zero.2 hR.det_pos.ne') h (x - xe)
    (u - ue)
  have e : u - lqrU (-(R⁻¹ * (Bᵀ * S))) xe ue x = u - ue + (R⁻¹ * (Bᵀ * S)) *ᵥ (x - xe) := by
    rw [lqrU, Matrix.neg_mulVec]; abel
  rw [e, ← h1, runningCost, linearised]
  ring

theorem integrable_on {g : ℝ → ℝ} (h : ContinuousOn g (Ici 0)) {T : ℝ} (hT : 0 ≤ T) :
    IntervalIntegrable g MeasureTheory.volume 0 T := by
  apply ContinuousOn.intervalIntegrable
  rw [uIcc_of_le hT]
  exact h.mono fun t ht => ht.1

theorem running_continuous {A : Matrix (Fin n) (Fin n) ℝ} {B : Matrix (Fin n) (Fin p) ℝ} (Q : Matrix (Fin n) (Fin n) ℝ)
    (R : Matrix (Fin p) (Fin p) ℝ) {xe : Fin n → ℝ} {ue : Fin p → ℝ} {X : ℝ → Fin n → ℝ} {U : ℝ → Fin p → ℝ}
    (hX : Motion (linearised A B xe ue) X U) (hU : ContinuousOn U (Ici 0)) :
    ContinuousOn (fun t => runningCost Q R xe ue (X t) (U t)) (Ici 0) :=
  (continuousOn_quad Q ((motion_continuous hX).sub continuousOn_const)).add
    (continuousOn_quad R (hU.sub continuousOn_const))

/-- The cost of a motion: what the value function loses, and a square for the deviation from the regulator. -/
theorem lqr_cost {A : Matrix (Fin n) (Fin n) ℝ} {B : Matrix (Fin n) (Fin p) ℝ} {Q : Matrix (Fin n) (Fin n) ℝ}
    {R : Matrix (Fin p) (Fin p) ℝ} {S : Matrix (Fin n) (Fin n) ℝ} (hS : S.PosDef) (hR : R.PosDef)
    (h : Riccati A B Q R S) {xe : Fin n → ℝ} {ue : Fin p → ℝ} {X : ℝ → Fin n → ℝ} {U : ℝ → Fin p → ℝ}
    (hX : Motion (linearised A B xe ue) X U) (hU : ContinuousOn U (Ici 0)) {T : ℝ} (hT : 0 ≤ T) :
    totalCost Q R xe ue X U T = lqrV S xe (X 0) - lqrV S xe (X T) +
      ∫ t in (0 : ℝ)..T, (U t - lqrU (-(R⁻¹ * (Bᵀ * S))) xe ue (X t)) ⬝ᵥ
        R *ᵥ (U t - lqrU (-(R⁻¹ * (Bᵀ * S))) xe ue (X t)) := by
  set K := -(R⁻¹ * (Bᵀ * S)) with hK
  have hXc := motion_continuous hX
  have hpol : ContinuousOn (fun t => lqrU K xe ue (X t)) (Ici 0) := by
    have : Continuous fun x => lqrU K xe ue x := by
      unfold lqrU Matrix.mulVec dotProduct
      fun_prop
    exact this.comp_continuousOn hXc
  have hsq : ContinuousOn (fun t => (U t - lqrU K xe ue (X t)) ⬝ᵥ R *ᵥ (U t - lqrU K xe ue (X t))) (Ici 0) :=
    continuousOn_quad R (hU.sub hpol)
  have hrc := running_continuous Q R hX hU
  have hder : ∀ t, 0 ≤ t → HasDerivWithinAt (fun t => lqrV S xe (X t))
      ((U t - lqrU K xe ue (X t)) ⬝ᵥ R *ᵥ (U t - lqrU K xe ue (X t)) - runningCost Q R xe ue (X t) (U t)) (Ici 0) t := by
    intro t ht
    rw [← lqr_rate_eq hS hR h]
    exact quad_deriv (posDef_transpose hS) xe fun i => hX t ht i
  have key := intervalIntegral.integral_eq_sub_of_hasDeriv_right_of_le hT (f := fun t => lqrV S xe (X t))
    (f' := fun t => (U t - lqrU K xe ue (X t)) ⬝ᵥ R *ᵥ (U t - lqrU K xe ue (X t)) - runningCost Q R xe ue (X t) (U t))
    (fun t ht => ((hder t ht.1).continuousWithinAt).mono fun s hs => hs.1)
    (fun t ht => (hder t ht.1.le).mono fun s hs => ht.1.le.trans (le_of_lt hs))
    ((integrable_on hsq hT).sub (integrable_on hrc hT))
  rw [intervalIntegral.integral_sub (integrable_on hsq hT) (integrable_on hrc hT)] at key
  unfold totalCost
  linarith

/-- The regulated linear plant has a motion from every state. -/
theorem linear_motion (M : Matrix (Fin n) (Fin n) ℝ) (x0 : Fin n → ℝ) :
    ∃ Y : ℝ → Fin n → ℝ, Y 0 = x0 ∧ ∀ t i, HasDerivAt (fun s => Y s i) ((M *ᵥ Y t) i) t := by
  let L : (Fin n → ℝ) →L[ℝ] (Fin n → ℝ) := LinearMap.toContinuousLinearMap M.mulVecLin
  refine ⟨fun t => NormedSpace.exp (t • L) x0, by simp, fun t i => ?_⟩
  have h1 := hasDerivAt_exp_smul_const' (𝕂 := ℝ) L t
  have h2 := h1.clm_apply (hasDerivAt_const t x0)
  have h3 := hasDerivAt_pi.1 h2 i
  have e : ((L * NormedSpace.exp (t • L)) x0 + (NormedSpace.exp (t • L)) 0) i =
      (M *ᵥ (NormedSpace.exp (t • L)) x0) i := by
    rw [map_zero, add_zero]
    rfl
  rw [e] at h3
  exact h3

theorem lqrV_nonneg {S : Matrix (Fin n) (Fin n) ℝ} (hS : S.PosDef) (xe x : Fin n → ℝ) : 0 ≤ lqrV S xe x := by
  simpa [lqrV_eq] using hS.posSemidef.dotProduct_mulVec_nonneg (x - xe)

/-- The regulated linear plant converges to the equilibrium from everywhere. -/
theorem linear_converges {A : Matrix (Fin n) (Fin n) ℝ} {B : Matrix (Fin n) (Fin p) ℝ} {Q : Matrix (Fin n) (Fin n) ℝ}
    {R : Matrix (Fin p) (Fin p) ℝ} {S : Matrix (Fin n) (Fin n) ℝ} (hQ : Q.PosDef) (hS : S.PosDef) (hR : R.PosDef)
    (h : Riccati A B Q R S) {xe : Fin n → ℝ} {ue : Fin p → ℝ} :
    ∃ M c : ℝ, 0 < M ∧ 0 < c ∧ ∀ X : ℝ → Fin n → ℝ,
      Motion (linearised A B xe ue) X (fun t => lqrU (-(R⁻¹ * (Bᵀ * S))) xe ue (X t)) → ∀ t, 0 ≤ t →
        ‖X t - xe‖ ≤ M * Real.exp (-(c * t)) * ‖X 0 - xe‖ := by
  set K := -(R⁻¹ * (Bᵀ * S)) with hK
  obtain ⟨q, hq, hlow⟩ := posDef_lower hQ
  have hf : ∀ x, linearised A B xe ue x (lqrU K xe ue x) = (A + B * K) *ᵥ (x - xe) := fun x => by
    simp [linearised, lqrU, Matrix.add_mulVec, Matrix.mulVec_mulVec]
  obtain ⟨δ, M, c, hδ, hM, hc, hstab⟩ := exp_stable_of_quad (f := linearised A B xe ue) (π := lqrU K xe ue) (xe := xe) hS hq
    one_pos (fun x _ => by
      rw [hf]
      refine (lqr_rate hS hR h (x - xe)).trans ?_
      have := hlow (x - xe)
      linarith)
  refine ⟨M, c, hM, hc, fun X hX t ht => ?_⟩
  have hpos : 0 < ‖X 0 - xe‖ + 1 := by positivity
  set l := δ / 2 / (‖X 0 - xe‖ + 1) with hl
  have hl0 : 0 < l := by positivity
  have h1 := hstab (fun t => xe + l • (X t - xe)) ?_ ?_ t ht
  · simp only [add_sub_cancel_left, norm_smul, Real.norm_eq_abs, abs_of_pos hl0] at h1
    have h2 : l * ‖X t - xe‖ ≤ l * (M * Real.exp (-(c * t)) * ‖X 0 - xe‖) := by linarith
    exact le_of_mul_le_mul_left h2 hl0
  · intro s hs i
    have h2 := (((hX s hs i).sub_const (xe i)).const_mul l).const_add (xe i)
    refine h2.congr_deriv ?_
    rw [hf, hf]
    simp [Matrix.mulVec_smul]
  · simp only [add_sub_cancel_left, norm_smul, Real.norm_eq_abs, abs_of_pos hl0]
    rw [hl, div_mul_eq_mul_div, div_lt_iff₀ hpos]
    nlinarith [norm_nonneg (X 0 - xe)]

/-- C122. The quadratic form of the matrix `S` is the cost-to-go of the linearised plant: from every state `x0`, `V(x0)` is the
total cost of some motion, and no motion under any continuous inputs has a smaller total cost. -/
theorem C122_cost_to_go {A : Matrix (Fin n) (Fin n) ℝ} {B : Matrix (Fin n) (Fin p) ℝ} {Q : Matrix (Fin n) (Fin n) ℝ}
    {R : Matrix (Fin p) (Fin p) ℝ} {S : Matrix (Fin n) (Fin n) ℝ} (hQ : Q.PosDef) (hR : R.PosDef) (hS : S.PosDef)
    (h : Riccati A B Q R S) (xe : Fin n → ℝ) (ue : Fin p → ℝ) (x0 : Fin n → ℝ) :
    IsLeast (achievableCosts A B Q R xe ue x0) (lqrV S xe x0) ∧
      ∀ X : ℝ → Fin n → ℝ, X 0 = x0 → Motion (linearised A B xe ue) X
        (fun t => lqrU (-(R⁻¹ * (Bᵀ * S))) xe ue (X t)) →
          Tendsto X atTop (𝓝 xe) ∧ Tendsto (totalCost Q R xe ue X fun t => lqrU (-(R⁻¹ * (Bᵀ * S))) xe ue (X t)) atTop
            (𝓝 (lqrV S xe x0)) := by
  set K := -(R⁻¹ * (Bᵀ * S)) with hK
  have hpolc : Continuous fun x => lqrU K xe ue x := by
    unfold lqrU Matrix.mulVec dotProduct
    fun_prop
  have hVc : Continuous fun x => lqrV S xe x := (continuous_quad S).comp (continuous_id.sub continuous_const)
  have hreg : ∀ X : ℝ → Fin n → ℝ, X 0 = x0 → Motion (linearised A B xe ue) X (fun t => lqrU K xe ue (X t)) →
      Tendsto X atTop (𝓝 xe) ∧
        Tendsto (totalCost Q R xe ue X fun t => lqrU K xe ue (X t)) atTop (𝓝 (lqrV S xe x0)) := by
    intro X hX0 hX
    obtain ⟨M, c, hM, hc, hconv⟩ := linear_converges (xe := xe) (ue := ue) hQ hS hR h
    have hlim : Tendsto X atTop (𝓝 xe) := by
      rw [tendsto_iff_norm_sub_tendsto_zero]
      have h1 : Tendsto (fun t => M * Real.exp (-(c * t)) * ‖X 0 - xe‖) atTop (𝓝 (M * 0 * ‖X 0 - xe‖)) := by
        refine (Tendsto.const_mul M ?_).mul_const _
        exact Real.tendsto_exp_neg_atTop_nhds_zero.comp (tendsto_id.const_mul_atTop hc)
      rw [mul_zero, zero_mul] at h1
      exact tendsto_of_tendsto_of_tendsto_of_le_of_le' tendsto_const_nhds h1
        (Eventually.of_forall fun t => norm_nonneg _)
        (eventually_atTop.2 ⟨0, fun t ht => hconv X hX t ht⟩)
    refine ⟨hlim, ?_⟩
    have h2 : Tendsto (fun T => lqrV S xe x0 - lqrV S xe (X T)) atTop (𝓝 (lqrV S xe x0)) := by
      have := (tendsto_const_nhds (x := lqrV S xe x0)).sub ((hVc.tendsto xe).comp hlim)
      simpa [lqrV] using this
    refine h2.congr' ?_
    filter_upwards [eventually_ge_atTop 0] with T hT
    have := lqr_cost hS hR h hX (hpolc.comp_continuousOn (motion_continuous hX)) hT
    rw [this, hX0]
    simp [← hK]
  refine ⟨⟨?_, ?_⟩, hreg⟩
  · obtain ⟨Y, hY0, hY⟩ := linear_motion (A + B * K) (x0 - xe)
    have hf : ∀ x, linearised A B xe ue x (lqrU K xe ue x) = (A + B * K) *ᵥ (x - xe) := fun x => by
      simp [linearised, lqrU, Matrix.add_mulVec, Matrix.mulVec_mulVec]
    have hX : Motion (linearised A B xe ue) (fun t => Y t + xe) (fun t => lqrU K xe ue (Y t + xe)) := by
      intro t _ i
      rw [hf]
      simpa using ((hY t i).add_const (xe i)).hasDerivWithinAt
    exact ⟨_, _, hX, hpolc.comp_continuousOn (motion_continuous hX), by simp [hY0], (hreg _ (by simp [hY0]) hX).2⟩
  · rintro J ⟨X, U, hX, hU, rfl, hJ⟩
    have hcost : ∀ T, 0 ≤ T → lqrV S xe (X 0) ≤ totalCost Q R xe ue X U T + lqrV S xe (X T) := by
      intro T hT
      rw [lqr_cost hS hR h hX hU hT]
      have : 0 ≤ ∫ t in (0 : ℝ)..T, (U t - lqrU K xe ue (X t)) ⬝ᵥ R *ᵥ (U t - lqrU K xe ue (X t)) :=
        intervalIntegral.integral_nonneg hT fun t _ => by
          simpa using hR.posSemidef.dotProduct_mulVec_nonneg (U t - lqrU K xe ue (X t))
      linarith
    have hrun : ∀ t, (X t - xe) ⬝ᵥ Q *ᵥ (X t - xe) ≤ runningCost Q R xe ue (X t) (U t) := fun t => by
      have : 0 ≤ (U t - ue) ⬝ᵥ R *ᵥ (U t - ue) := by simpa using hR.posSemidef.dotProduct_mulVec_nonneg (U t - ue)
      unfold runningCost
      linarith
    have hrun0 : ∀ t, 0 ≤ runningCost Q R xe ue (X t) (U t) := fun t =>
      (by simpa using hQ.posSemidef.dotProduct_mulVec_nonneg (X t - xe) :
        0 ≤ (X t - xe) ⬝ᵥ Q *ᵥ (X t - xe)).trans (hrun t)
    have hrc := running_continuous Q R hX hU
    obtain ⟨q, hq, hlow⟩ := posDef_lower hQ
    obtain ⟨b, hb, hup⟩ := quad_upper S
    refine le_of_forall_pos_le_add fun ε hε => ?_
    -- the value becomes small infinitely often
    have hsmall : ∀ T0, 0 ≤ T0 → ∃ T, T0 ≤ T ∧ lqrV S xe (X T) ≤ ε / 2 := by
      intro T0 hT0
      by_contra hno
      push Not at hno
      have hk : ∀ t, T0 ≤ t → q * (ε / 2 / b) ≤ runningCost Q R xe ue (X t) (U t) := by
        intro t ht
        have h1 := hno t ht
        have h2 := (abs_le.1 (hup (X t - xe) (X t - xe))).2
        have h3 : ε / 2 / b ≤ ‖X t - xe‖ ^ 2 := by
          rw [div_le_iff₀ hb]
          rw [lqrV_eq] at h1
          nlinarith
        have h4 := hlow (X t - xe)
        have h5 := hrun t
        nlinarith
      have hlin : ∀ T, T0 ≤ T → (T - T0) * (q * (ε / 2 / b)) ≤ totalCost Q R xe ue X U T := by
        intro T hT
        have hi : ∀ a, 0 ≤ a → IntervalIntegrable (fun t => runningCost Q R xe ue (X t) (U t)) MeasureTheory.volume 0 a :=
          fun a ha => integrable_on hrc ha
        have hsplit := intervalIntegral.integral_add_adjacent_intervals (hi T0 hT0)
          ((hi T0 hT0).symm.trans (hi T (hT0.trans hT)))
        have h1 : (0 : ℝ) ≤ ∫ t in (0 : ℝ)..T0, runningCost Q R xe ue (X t) (U t) :=
          intervalIntegral.integral_nonneg hT0 fun t _ => hrun0 t
        have h2 : ∫ _ in T0..T, q * (ε / 2 / b) ≤ ∫ t in T0..T, runningCost Q R xe ue (X t) (U t) :=
          intervalIntegral.integral_mono_on hT (by simp) ((hi T0 hT0).symm.trans (hi T (hT0.trans hT)))
            fun t ht => hk t ht.1
        rw [intervalIntegral.integral_const, smul_eq_mul] at h2
        unfold totalCost
        linarith
      have htop : Tendsto (fun T => (T - T0) * (q * (ε / 2 / b))) atTop atTop := by
        apply Tendsto.atTop_mul_const (by positivity)
        exact tendsto_atTop_add_const_right _ _ tendsto_id
      have h3 := tendsto_atTop_mono' atTop (eventually_atTop.2 ⟨T0, fun T hT => hlin T hT⟩) htop
      exact not_tendsto_nhds_of_tendsto_atTop h3 J hJ
    have hev : ∀ᶠ T in atTop, totalCost Q R xe ue X U T < J + ε / 2 := hJ.eventually_lt_const (by linarith)
    obtain ⟨T1, hT1⟩ := eventually_atTop.1 hev
    obtain ⟨T, hT, hV⟩ := hsmall (max T1 0) (le_max_right _ _)
    have h1 := hT1 T ((le_max_left _ _).trans hT)
    have h2 := hcost T ((le_max_right _ _).trans hT)
    linarith

/-- C122. There is only one such matrix: two routines which return positive definite solutions return the same one. -/
theorem C122_unique {A : Matrix (Fin n) (Fin n) ℝ} {B : Matrix (Fin n) (Fin p) ℝ} {Q : Matrix (Fin n) (Fin n) ℝ}
    {R : Matrix (Fin p) (Fin p) ℝ} (hQ : Q.PosDef) (hR : R.PosDef) {S S' : Matrix (Fin n) (Fin n) ℝ}
    (hS : S.PosDef) (hS' : S'.PosDef) (h : Riccati A B Q R S) (h' : Riccati A B Q R S') : S = S' := by
  have hV : ∀ x : Fin n → ℝ, x ⬝ᵥ S *ᵥ x = x ⬝ᵥ S' *ᵥ x := fun x => by
    have := (C122_cost_to_go hQ hR hS h 0 0 x).1.unique (C122_cost_to_go hQ hR hS' h' 0 0 x).1
    simpa [lqrV_eq] using this
  have sym : ∀ {M : Matrix (Fin n) (Fin n) ℝ}, M.PosDef → ∀ i j, M i j = M j i := fun hM i j => by
    have := congrFun (congrFun (posDef_transpose hM) j) i
    simpa using this
  have ent : ∀ (M : Matrix (Fin n) (Fin n) ℝ) i j, Pi.single i (1 : ℝ) ⬝ᵥ M *ᵥ Pi.single j 1 = M i j := fun M i j => by
    simp
  ext i j
  have h1 := hV (Pi.single i 1 + Pi.single j 1)
  have h2 := hV (Pi.single i 1)
  have h3 := hV (Pi.single j 1)
  simp only [Matrix.mulVec_add, dotProduct_add, add_dotProduct, ent] at h1 h2 h3
  have := sym hS i j
  have := sym hS' i j
  linarith

/-- C122. `V_samples` and `lqr_K` of the quadrotor demos in two dimensions. -/
theorem C122_value_quadrotor2d (P : Planar) {care : Care 6 2} (hc : RiccatiSolver care) {Q : Matrix (Fin 6) (Fin 6) ℝ}
    {R : Matrix (Fin 2) (Fin 2) ℝ} (hQ : Q.PosDef) (hR : R.PosDef) {xe : Fin 6 → ℝ} {ue : Fin 2 → ℝ}
    {K : Matrix (Fin 2) (Fin 6) ℝ} {S : Matrix (Fin 6) (Fin 6) ℝ} (hK : P.lqrControl care Q R xe ue = some (K, S))
    (x0 : Fin 6 → ℝ) :
    IsLeast (achievableCosts (P.quadGrad xe ue).1 (P.quadGrad xe ue).2 Q R xe ue x0) (lqrV S xe x0) ∧
      ∀ X, X 0 = x0 → Motion (linearised (P.quadGrad xe ue).1 (P.quadGrad xe ue).2 xe ue) X (fun t => lqrU K xe ue (X t)) →
        Tendsto (totalCost Q R xe ue X fun t => lqrU K xe ue (X t)) atTop (𝓝 (lqrV S xe x0)) := by
  unfold Planar.lqrControl at hK
  simp only [npSolve_posDef hR, Option.map_some] at hK
  obtain ⟨S', hS, hK⟩ := Option.bind_eq_some_iff.1 hK
  obtain ⟨hric, hpd⟩ := hc _ _ _ _ _ hQ hR hS
  obtain ⟨rfl, rfl⟩ := Prod.mk.inj (Option.some.inj hK)
  obtain ⟨h1, h2⟩ := C122_cost_to_go hQ hR hpd hric xe ue x0
  exact ⟨h1, fun X hX0 hX => (h2 X hX0 hX).2⟩

/-- C122. `V_samples` and `lqr_K` of the rocket demo. -/
theorem C122_value_rocket (P : Planar) {care : Care 6 2} (hc : RiccatiSolver care) {Q : Matrix (Fin 6) (Fin 6) ℝ}
    {R : Matrix (Fin 2) (Fin 2) ℝ} (hQ : Q.PosDef) (hR : R.PosDef) {K : Matrix (Fin 2) (Fin 6) ℝ}
    {S : Matrix (Fin 6) (Fin 6) ℝ} (hK : P.rocketLqr care Q R = some (K, S)) {A : Matrix (Fin 6) (Fin 6) ℝ}
    {B : Matrix (Fin 6) (Fin 2) ℝ} {ue : Fin 2 → ℝ} (hue : ue = ![0, P.hoverThrust]) (hAB : (A, B) = P.rocketGrad 0 ue)
    (x0 : Fin 6 → ℝ) :
    IsLeast (achievableCosts A B Q R 0 ue x0) (lqrV S 0 x0) ∧
      ∀ X, X 0 = x0 → Motion (linearised A B 0 ue) X (fun t => lqrU K 0 ue (X t)) →
        Tendsto (totalCost Q R 0 ue X fun t => lqrU K 0 ue (X t)) atTop (𝓝 (lqrV S 0 x0)) := by
  subst hue
  unfold Planar.rocketLqr at hK
  simp only [npSolve_posDef hR, Option.map_some, ← hAB] at hK
  obtain ⟨S', hS, hK⟩ := Option.bind_eq_some_iff.1 hK
  obtain ⟨hric, hpd⟩ := hc _ _ _ _ _ hQ hR hS
  obtain ⟨rfl, rfl⟩ := Prod.mk.inj (Option.some.inj hK)
  obtain ⟨h1, h2⟩ := C122_cost_to_go hQ hR hpd hric 0 ![0, P.hoverThrust] x0
  exact ⟨h1, fun X hX0 hX => (h2 X hX0 hX).2⟩

/-- C122. `V_samples` and `lqr_K` of the quadrotor demo in three dimensions. -/
theorem C122_value_quadrotor3d (P : Quad3) {care : Care 12 4} (hc : RiccatiSolver care) {Q : Matrix (Fin 12) (Fin 12) ℝ}
    {R : Matrix (Fin 4) (Fin 4) ℝ} (hQ : Q.PosDef) (hR : R.PosDef) {K : Matrix (Fin 4) (Fin 12) ℝ}
    {S : Matrix (Fin 12) (Fin 12) ℝ} (hK : P.lqr care Q R = some (K, S)) {A : Matrix (Fin 12) (Fin 12) ℝ}
    {B : Matrix (Fin 12) (Fin 4) ℝ} {ue : Fin 4 → ℝ} (hue : ue = fun _ => P.hover) (hA : A = P.gradX 0 ue)
    (hB : B = P.gradU 0) (x0 : Fin 12 → ℝ) :
    IsLeast (achievableCosts A B Q R 0 ue x0) (lqrV S 0 x0) ∧
      ∀ X, X 0 = x0 → Motion (linearised A B 0 ue) X (fun t => lqrUNeg K 0 ue (X t)) →
        Tendsto (totalCost Q R 0 ue X fun t => lqrUNeg K 0 ue (X t)) atTop (𝓝 (lqrV S 0 x0)) := by
  subst hue hA hB
  unfold Quad3.lqr at hK
  simp only [npSolve_posDef hR, Option.map_some] at hK
  obtain ⟨S', hS, hK⟩ := Option.bind_eq_some_iff.1 hK
  obtain ⟨hric, hpd⟩ := hc _ _ _ _ _ hQ hR hS
  obtain ⟨rfl, rfl⟩ := Prod.mk.inj (Option.some.inj hK)
  obtain ⟨h1, h2⟩ := C122_cost_to_go hQ hR hpd hric 0 (fun _ => P.hover) x0
  refine ⟨h1, fun X hX0 hX => ?_⟩
  have e : ∀ x, lqrUNeg (R⁻¹ * ((P.gradU 0)ᵀ * S')) 0 (fun _ => P.hover) x =
      lqrU (-(R⁻¹ * ((P.gradU 0)ᵀ * S'))) 0 (fun _ => P.hover) x := fun x => by
    simp [lqrUNeg, lqrU, Matrix.neg_mulVec]
  simp only [e] at hX ⊢
  exact (h2 X hX0 hX).2

/-- C122. The gain of `Pendulum.lqr_control` attains the least cost of the pendulum linearised at the upright state. -/
theorem C122_value_pendulum (P : Pendulum) {care : Care 2 1} (hc : RiccatiSolver care) {Q : Matrix (Fin 2) (Fin 2) ℝ}
    {R : Matrix (Fin 1) (Fin 1) ℝ} (hQ : Q.PosDef) (hR : R.PosDef) {K : Matrix (Fin 1) (Fin 2) ℝ}
    (hK : P.lqrControl care Q R = some K) {A : Matrix (Fin 2) (Fin 2) ℝ} {B : Matrix (Fin 2) (Fin 1) ℝ}
    {xd : Fin 2 → ℝ} (hxd : xd = ![Real.pi, 0]) (hAB : (A, B) = P.grad xd) (x0 : Fin 2 → ℝ) :
    ∃ J, IsLeast (achievableCosts A B Q R xd 0 x0) J ∧
      ∀ X, X 0 = x0 → Motion (linearised A B xd 0) X (fun t => K *ᵥ (X t - xd)) →
        Tendsto (totalCost Q R xd 0 X fun t => K *ᵥ (X t - xd)) atTop (𝓝 J) := by
  subst hxd
  unfold Pendulum.lqrControl at hK
  simp only [npSolve_posDef hR, Option.map_some, ← hAB] at hK
  obtain ⟨S', hS, hK⟩ := Option.bind_eq_some_iff.1 hK
  obtain ⟨hric, hpd⟩ := hc _ _ _ _ _ hQ hR hS
  obtain rfl := Option.some.inj hK
  obtain ⟨h1, h2⟩ := C122_cost_to_go hQ hR hpd hric ![Real.pi, 0] 0 x0
  refine ⟨_, h1, fun X hX0 hX => ?_⟩
  have e : ∀ x, lqrU (-(R⁻¹ * (Bᵀ * S'))) ![Real.pi, 0] 0 x = (-(R⁻¹ * (Bᵀ * S'))) *ᵥ (x - ![Real.pi, 0]) :=
    fun x => by simp [lqrU]
  simp only [e] at h2
  exact (h2 X hX0 hX).2

theorem posDef_two {a b c : ℝ} (ha : 0 < a) (hd : b * b < a * c) : (!![a, b; b, c] : Matrix (Fin 2) (Fin 2) ℝ).PosDef := by
  refine Matrix.PosDef.of_dotProduct_mulVec_pos ?_ fun x hx => ?_
  · ext i j
    fin_cases i <;> fin_cases j <;> rfl
  · have e : star x ⬝ᵥ (!![a, b; b, c] : Matrix (Fin 2) (Fin 2) ℝ) *ᵥ x = a * x 0 ^ 2 + 2 * b * x 0 * x 1 + c * x 1 ^ 2 := by
      simp [Matrix.mulVec, dotProduct, Fin.sum_univ_two]
      ring
    rw [e]
    have key : a * (a * x 0 ^ 2 + 2 * b * x 0 * x 1 + c * x 1 ^ 2) = (a * x 0 + b * x 1) ^ 2 + (a * c - b * b) * x 1 ^ 2 := by
      ring
    have hpos : 0 < a * (a * x 0 ^ 2 + 2 * b * x 0 * x 1 + c * x 1 ^ 2) := by
      rw [key]
      by_cases h1 : x 1 = 0
      · have h0 : x 0 ≠ 0 := fun h0 => hx (by ext i; fin_cases i <;> simp [h0, h1])
        rw [h1]
        have : 0 < (a * x 0) ^ 2 := by positivity
        simpa using this
      · have : 0 < (a * c - b * b) * x 1 ^ 2 := mul_pos (by linarith) (by positivity)
        have := sq_nonneg (a * x 0 + b * x 1)
        linarith
    exact (mul_pos_iff_of_pos_left ha).1 hpos

theorem posDef_two_iff {Q : Matrix (Fin 2) (Fin 2) ℝ} (h : Q.PosDef) :
    0 < Q 0 0 ∧ 0 < Q 1 1 ∧ Q 0 1 = Q 1 0 ∧ Q 0 1 * Q 0 1 < Q 0 0 * Q 1 1 := by
  have hs : Q 0 1 = Q 1 0 := by
    have := congrFun (congrFun (posDef_transpose h) 1) 0
    simpa using this
  have hd := h.det_pos
  rw [Matrix.det_fin_two, ← hs] at hd
  refine ⟨h.diag_pos, h.diag_pos, hs, by linarith⟩

/-- C122. `double_integrator_lqr`: for positive definite `Q` and positive `R` it returns the positive definite solution of the
Riccati equation of the double integrator, and the gain of the regulator `u = -K x`. -/
theorem C122_double_integrator {Q : Matrix (Fin 2) (Fin 2) ℝ} {R : ℝ} (hQ : Q.PosDef) (hR : 0 < R) :
    ∃ K P, doubleIntegratorLqr Q R = some (K, P) ∧ P.PosDef ∧
      Riccati doubleIntegrator.1 doubleIntegrator.2 Q !![R] P ∧ K = (!![R] : Matrix (Fin 1) (Fin 1) ℝ)⁻¹ * (doubleIntegrator.2ᵀ * P) := by
  obtain ⟨h0, h1, hs, hd⟩ := posDef_two_iff hQ
  have hinv : (!![R] : Matrix (Fin 1) (Fin 1) ℝ)⁻¹ = !![R⁻¹] := by
    apply Matrix.inv_eq_right_inv
    ext i j
    fin_cases i
    fin_cases j
    simp [Matrix.mul_apply, hR.ne']
  set b := Real.sqrt (R * Q 0 0) with hb
  have hb2 : b * b = R * Q 0 0 := Real.mul_self_sqrt (by positivity)
  have hbp : 0 < b := Real.sqrt_pos.2 (by positivity)
  set c := Real.sqrt (R * (2 * b + Q 1 1)) with hc
  have hc2 : c * c = R * (2 * b + Q 1 1) := Real.mul_self_sqrt (by positivity)
  have hcp : 0 < c := Real.sqrt_pos.2 (by positivity)
  set a := (b * c - R * Q 0 1) / R with ha
  have haR : a * R = b * c - R * Q 0 1 := by rw [ha]; field_simp
  have hap : 0 < a := by
    rw [ha]
    refine div_pos (sub_pos.2 ?_) hR
    refine lt_of_pow_lt_pow_left₀ 2 (by positivity) ?_
    have e : (b * c) ^ 2 = R * Q 0 0 * (R * (2 * b + Q 1 1)) := by rw [← hb2, ← hc2]; ring
    rw [e]
    have : 0 < R * Q 0 0 * (R * (2 * b)) := by positivity
    nlinarith [mul_pos hR hR]
  have hdet : b * b < a * c := by
    -- R (a c - b²) = b c² - R Q01 c - R b²
    have e1 : R * (a * c - b * b) = R * (b * b + b * Q 1 1 - Q 0 1 * c) := by
      have : R * (a * c) = (a * R) * c := by ring
      rw [mul_sub, this, haR]
      have : (b * c - R * Q 0 1) * c = b * (c * c) - R * Q 0 1 * c := by ring
      rw [this, hc2]
      ring
    have e2 : Q 0 1 * c < b * b + b * Q 1 1 := by
      have hpos : 0 < b * b + b * Q 1 1 := by positivity
      refine lt_of_pow_lt_pow_left₀ 2 hpos.le ?_
      have e3 : (Q 0 1 * c) ^ 2 = Q 0 1 * Q 0 1 * (R * (2 * b + Q 1 1)) := by rw [← hc2]; ring
      rw [e3]
      have e4 : Q 0 1 * Q 0 1 * (R * (2 * b + Q 1 1)) < Q 0 0 * Q 1 1 * (R * (2 * b + Q 1 1)) := by
        have : 0 < R * (2 * b + Q 1 1) := by positivity
        nlinarith
      have e5 : Q 0 0 * Q 1 1 * (R * (2 * b + Q 1 1)) = b * b * (Q 1 1 * (2 * b + Q 1 1)) := by rw [hb2]; ring
      rw [e5] at e4
      refine e4.trans_le ?_
      have : (b * b + b * Q 1 1) ^ 2 = b * b * (b + Q 1 1) ^ 2 := by ring
      rw [this]
      refine mul_le_mul_of_nonneg_left ?_ (by positivity)
      nlinarith [sq_nonneg b]
    have : 0 < R * (a * c - b * b) := by rw [e1]; exact mul_pos hR (by linarith)
    have := (mul_pos_iff_of_pos_left hR).1 this
    linarith
  refine ⟨_, !![a, b; b, c], ?_, posDef_two hap hdet, ?_, rfl⟩
  · unfold doubleIntegratorLqr
    rw [if_pos ⟨hR, hs⟩]
    simp only [← hb, ← hc, ← ha]
    rw [if_neg (by push Not; exact ⟨hap.le, hdet.le⟩)]
    congr 2
    rw [hinv]
    ext i j
    fin_cases i
    fin_cases j <;> simp [doubleIntegrator, Matrix.mul_apply, Fin.sum_univ_two]
  · unfold Riccati
    rw [hinv]
    have e1 : R⁻¹ * (b * b) = Q 0 0 := by rw [hb2]; field_simp
    have e2 : R⁻¹ * (b * c) = a + Q 0 1 := by
      have : b * c = R * (a + Q 0 1) := by linarith
      rw [this]; field_simp
    have e3 : R⁻¹ * (c * c) = 2 * b + Q 1 1 := by rw [hc2]; field_simp
    ext i j
    fin_cases i <;> fin_cases j <;>
      simp [doubleIntegrator, Matrix.mul_apply, Fin.sum_univ_two, Matrix.vecMul, dotProduct]
    · linear_combination -e1
    · linear_combination -e2
    · rw [← hs]; linear_combination -e2
    · linear_combination -e3

/-- C122. The costs of a trajectory in the dataset of train_pendulum_demo.py: the cost which accrues from the state to the end of
the trajectory, given the cost accrued so far (the third component of the simulation) at each sample. -/
theorem C122_costs (c : List ℝ) (hc : c ≠ []) : costsToGo c = c.map fun a => c.getLast hc - a := by
  have hcum : ∀ (l : List ℝ) (a z : ℝ), cumsum a (l ++ [z]) = cumsum a l ++ [a + l.sum + z] := by
    intro l
    induction l with
    | nil => intro a z; simp [cumsum]
    | cons x l ih => intro a z; simp [cumsum, ih, add_assoc]
  have hsum : ∀ (c : List ℝ) (hc : c ≠ []), (List.zipWith (· - ·) (c.drop 1) c.dropLast ++ [0]).sum =
      c.getLast hc - c.head hc := by
    intro c hc
    induction c with
    | nil => exact absurd rfl hc
    | cons a l ih =>
      cases l with
      | nil => simp
      | cons b l =>
        have := ih (by simp)
        simp only [List.drop_succ_cons, List.drop_zero, List.sum_append, List.head_cons,
          List.dropLast_cons_cons, List.zipWith_cons_cons, List.sum_cons, List.getLast_cons_cons] at this ⊢
        linarith
  induction c with
  | nil => exact absurd rfl hc
  | cons a l ih =>
    cases l with
    | nil => simp [costsToGo, cumsum]
    | cons b l =>
      have h1 := ih (by simp)
      have h2 := hsum (b :: l) (by simp)
      obtain ⟨I, hI⟩ : ∃ I, I = List.zipWith (· - ·) ((b :: l).drop 1) (b :: l).dropLast ++ [0] := ⟨_, rfl⟩
      have e1 : costsToGo (b :: l) = (cumsum 0 I.reverse).reverse := by rw [hI]; rfl
      have e2 : costsToGo (a :: b :: l) = (cumsum 0 (((b - a) :: I).reverse)).reverse := by rw [hI]; rfl
      rw [← hI] at h2
      rw [e2, List.reverse_cons, hcum, List.reverse_append, ← e1, h1, List.sum_reverse, h2]
      simp

/-- C122. The data set of train_pendulum_demo.py: in a simulation of `state_cost_dot` the states are a motion of the pendulum
under the same inputs, and the costs recorded at the sample times are the quadratic costs from there to the last sample. -/
theorem C122_dataset (P : Pendulum) {Q : Matrix (Fin 2) (Fin 2) ℝ} {R : Matrix (Fin 1) (Fin 1) ℝ} (hQ : Q.PosDef)
    (hR : R.PosDef) {Y : ℝ → Fin 3 → ℝ} {X : ℝ → Fin 2 → ℝ} {U : ℝ → Fin 1 → ℝ}
    (hX : X = fun t => ![Y t 0, Y t 1]) (hY : Motion (P.stateCostDot Q R) Y U)
    (ts : List ℝ) (hts : ts ≠ []) (h : ∀ t ∈ ts, 0 ≤ t ∧ t ≤ ts.getLast hts) :
    Motion P.dyn X U ∧ costsToGo (ts.map fun t => Y t 2) =
      ts.map fun t => ∫ s in t..ts.getLast hts, runningCost Q R ![Real.pi, 0] 0 (X s) (U s) := by
  have hx : ∀ t, X t = ![Y t 0, Y t 1] := fun t => by rw [hX]
  refine ⟨fun t ht i => ?_, ?_⟩
  · fin_cases i
    · have := hY t ht 0
      simp only [hx]
      simpa [Pendulum.stateCostDot] using this
    · have := hY t ht 1
      simp only [hx]
      simpa [Pendulum.stateCostDot] using this
  · rw [C122_costs _ (by simpa using hts), List.map_map]
    refine List.map_congr_left fun t ht => ?_
    obtain ⟨h0, h1⟩ := h t ht
    have hd : ∀ s, 0 ≤ s → HasDerivWithinAt (fun r => Y r 2) (runningCost Q R ![Real.pi, 0] 0 (X s) (U s)) (Ici 0) s := by
      intro s hs
      have := hY s hs 2
      simpa [Pendulum.stateCostDot, runningCost, hx] using this
    have hn : ∀ s, 0 ≤ runningCost Q R ![Real.pi, 0] 0 (X s) (U s) := fun s => by
      have e1 : 0 ≤ (X s - ![Real.pi, 0]) ⬝ᵥ Q *ᵥ (X s - ![Real.pi, 0]) := by
        simpa using hQ.posSemidef.dotProduct_mulVec_nonneg (X s - ![Real.pi, 0])
      have e2 : 0 ≤ (U s - 0) ⬝ᵥ R *ᵥ (U s - 0) := by simpa using hR.posSemidef.dotProduct_mulVec_nonneg (U s - 0)
      exact add_nonneg e1 e2
    have hc : ContinuousOn (fun r => Y r 2) (Icc t (ts.getLast hts)) := fun s hs =>
      ((hd s (h0.trans hs.1)).continuousWithinAt).mono fun r hr => h0.trans hr.1
    have hr : ∀ s ∈ Ioo t (ts.getLast hts), HasDerivWithinAt (fun r => Y r 2)
        (runningCost Q R ![Real.pi, 0] 0 (X s) (U s)) (Ioi s) s := fun s hs =>
      (hd s (h0.trans hs.1.le)).mono fun r hr => (h0.trans hs.1.le).trans (le_of_lt hr)
    have hi := intervalIntegral.integrableOn_deriv_right_of_nonneg hc hr fun s _ => hn s
    rw [intervalIntegral.integral_eq_sub_of_hasDeriv_right_of_le h1 hc hr
      ((intervalIntegrable_iff_integrableOn_Ioc_of_le h1).2 hi)]
    simp [List.getLast_map]

end NNL.Props
