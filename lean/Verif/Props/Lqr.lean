import Verif.Model.Lqr
import Verif.Lemmas.Lqr
import Verif.Props.PhysicsLaws
import Mathlib.MeasureTheory.Integral.IntervalIntegral.FundThmCalculus
import Mathlib.Analysis.SpecialFunctions.Exponential

/-!
# C122: the linear quadratic regulators
-/

namespace NNL.Props

open Matrix Set NNL.Spec NNL.Model NNL.Lemmas Topology Filter Real

variable {n p : ℕ}

/-- A product of a function continuous at a point and a linear function which vanishes there. -/
theorem jac_mul {g h : (Fin n → ℝ) → ℝ} {L : (Fin n → ℝ) →L[ℝ] ℝ} {x : Fin n → ℝ} (hg : ContinuousAt g x)
    (hh : ∀ y, h y = L (y - x)) : HasFDerivAt (fun y => g y * h y) (g x • L) x := by
  refine HasFDerivAt.of_isLittleO ?_
  have e : (fun y => g y * h y - g x * h x - (g x • L) (y - x)) = fun y => (g y - g x) * L (y - x) := by
    funext y
    rw [hh, hh]
    simp
    ring
  rw [e]
  have h1 : (fun y => g y - g x) =o[𝓝 x] fun _ => (1 : ℝ) := by
    rw [Asymptotics.isLittleO_one_iff]
    simpa using hg.sub_const (g x)
  have h2 : (fun y => L (y - x)) =O[𝓝 x] fun y => y - x := L.isBigO_comp _ _
  have := h1.mul_isBigO h2.norm_right
  simpa using this.norm_right

/-- The linearised closed loop of an input-affine plant. -/
theorem closed_jac {f : (Fin n → ℝ) → (Fin p → ℝ) → Fin n → ℝ} {G : (Fin n → ℝ) → Matrix (Fin n) (Fin p) ℝ}
    {A : Matrix (Fin n) (Fin n) ℝ} {xe : Fin n → ℝ} {ue : Fin p → ℝ} (hA : IsJacobian (fun x => f x ue) A xe)
    (hG : ∀ i j, ContinuousAt (fun x => G x i j) xe) (haff : ∀ x w, f x (w + ue) = f x ue + G x *ᵥ w)
    (K : Matrix (Fin p) (Fin n) ℝ) {pol : (Fin n → ℝ) → Fin p → ℝ} (hpol : ∀ᶠ x in 𝓝 xe, pol x = K *ᵥ (x - xe) + ue) :
    IsJacobian (fun x => f x (pol x)) (A + G xe * K) xe := by
  have h2 : HasFDerivAt (fun x => G x *ᵥ (K *ᵥ (x - xe)))
      (LinearMap.toContinuousLinearMap (G xe * K).mulVecLin) xe := by
    rw [hasFDerivAt_pi']
    intro i
    have h3 : HasFDerivAt (fun x => ∑ j, G x i j * (K *ᵥ (x - xe)) j)
        (∑ j, G xe i j • ((ContinuousLinearMap.proj j).comp (LinearMap.toContinuousLinearMap K.mulVecLin))) xe :=
      HasFDerivAt.fun_sum fun j _ => jac_mul (hG i j) fun y => rfl
    refine h3.congr_fderiv ?_
    ext v
    simp only [LinearMap.coe_toContinuousLinearMap', Matrix.mulVecLin_apply, ContinuousLinearMap.comp_apply,
      ContinuousLinearMap.proj_apply, _root_.sum_apply, _root_.smul_apply,
      ← Matrix.mulVec_mulVec, smul_eq_mul]
    rfl
  have h1 := HasFDerivAt.add hA h2
  refine (h1.congr_of_eventuallyEq ?_).congr_fderiv ?_
  · filter_upwards [hpol] with x hx
    rw [hx, haff]
    rfl
  · ext v
    simp

/-- The closed-loop decrease: the rate of `vᵀSv` along the linearised closed loop. -/
theorem lqr_rate {A : Matrix (Fin n) (Fin n) ℝ} {B : Matrix (Fin n) (Fin p) ℝ} {Q : Matrix (Fin n) (Fin n) ℝ}
    {R : Matrix (Fin p) (Fin p) ℝ} {S : Matrix (Fin n) (Fin n) ℝ} (hS : S.PosDef) (hR : R.PosDef)
    (h : Riccati A B Q R S) (v : Fin n → ℝ) :
    2 * (v ⬝ᵥ S *ᵥ ((A + B * -(R⁻¹ * (Bᵀ * S))) *ᵥ v)) ≤ -(v ⬝ᵥ Q *ᵥ v) := by
  have h1 := riccati_square (posDef_transpose hS) (posDef_transpose hR) (isUnit_iff_ne_zero.2 hR.det_pos.ne') h v
    ((-(R⁻¹ * (Bᵀ * S))) *ᵥ v)
  have h2 : 0 ≤ ((-(R⁻¹ * (Bᵀ * S))) *ᵥ v) ⬝ᵥ R *ᵥ ((-(R⁻¹ * (Bᵀ * S))) *ᵥ v) := by
    simpa using hR.posSemidef.dotProduct_mulVec_nonneg ((-(R⁻¹ * (Bᵀ * S))) *ᵥ v)
  have e : (-(R⁻¹ * (Bᵀ * S))) *ᵥ v + (R⁻¹ * (Bᵀ * S)) *ᵥ v = 0 := by rw [← Matrix.add_mulVec]; simp
  rw [e] at h1
  simp only [Matrix.mulVec_zero, dotProduct_zero, Matrix.mulVec_mulVec, ← Matrix.add_mulVec] at h1 h2 ⊢
  linarith

/-- Local exponential stability of an input-affine plant under its regulator. -/
theorem lqr_stable {f : (Fin n → ℝ) → (Fin p → ℝ) → Fin n → ℝ} {G : (Fin n → ℝ) → Matrix (Fin n) (Fin p) ℝ}
    {A : Matrix (Fin n) (Fin n) ℝ} {xe : Fin n → ℝ} {ue : Fin p → ℝ} (hA : IsJacobian (fun x => f x ue) A xe)
    (hG : ∀ i j, ContinuousAt (fun x => G x i j) xe) (haff : ∀ x w, f x (w + ue) = f x ue + G x *ᵥ w)
    (h0 : f xe ue = 0) {Q : Matrix (Fin n) (Fin n) ℝ} {R : Matrix (Fin p) (Fin p) ℝ} {S : Matrix (Fin n) (Fin n) ℝ}
    (hQ : Q.PosDef) (hR : R.PosDef) (hS : S.PosDef) (h : Riccati A (G xe) Q R S) {pol : (Fin n → ℝ) → Fin p → ℝ}
    (hpol : ∀ᶠ x in 𝓝 xe, pol x = (-(R⁻¹ * ((G xe)ᵀ * S))) *ᵥ (x - xe) + ue) : LocallyExpStable f pol xe := by
  obtain ⟨q, hq, hlow⟩ := posDef_lower hQ
  have hJ := closed_jac hA hG haff _ hpol
  have hz : f xe (pol xe) = 0 := by rw [hpol.self_of_nhds]; simp [h0]
  obtain ⟨r, hr, hdec⟩ := quad_decrease (S := S) hJ hz hq fun v => (lqr_rate hS hR h v).trans (by
    have := hlow v
    linarith)
  exact exp_stable_of_quad hS (by positivity) hr hdec

theorem npSolve_posDef {R : Matrix (Fin p) (Fin p) ℝ} (hR : R.PosDef) (M : Matrix (Fin p) (Fin n) ℝ) :
    npSolve R M = some (R⁻¹ * M) := if_neg hR.det_pos.ne'

/-- C122. `Pendulum.lqr_control`: with the returned gain `K`, the input `K(x - x_des)` stabilises the upright pendulum, locally
and exponentially; and so does the whole controller of `generate_controller_dataset`, which switches to energy shaping far
from the upright state. -/
theorem C122_pendulum (P : Pendulum) (hm : P.mass ≠ 0) (hl : P.length ≠ 0) {care : Care 2 1} (hc : RiccatiSolver care)
    {Q : Matrix (Fin 2) (Fin 2) ℝ} {R : Matrix (Fin 1) (Fin 1) ℝ} (hQ : Q.PosDef) (hR : R.PosDef)
    {K : Matrix (Fin 1) (Fin 2) ℝ} (hK : P.lqrControl care Q R = some K) :
    LocallyExpStable P.dyn (fun x => K *ᵥ (x - ![π, 0])) ![π, 0] ∧
      LocallyExpStable P.dyn (P.swingUp Q K) ![π, 0] := by
  unfold Pendulum.lqrControl at hK
  simp only [npSolve_posDef hR, Option.map_some] at hK
  obtain ⟨S, hS, hK⟩ := Option.bind_eq_some_iff.1 hK
  obtain ⟨hric, hpd⟩ := hc _ _ _ _ _ hQ hR hS
  obtain rfl := Option.some.inj hK
  have key : ∀ {pol : (Fin 2 → ℝ) → Fin 1 → ℝ}, (∀ᶠ x in 𝓝 ![π, 0],
      pol x = (-(R⁻¹ * ((P.grad ![π, 0]).2ᵀ * S))) *ᵥ (x - ![π, 0])) → LocallyExpStable P.dyn pol ![π, 0] := by
    intro pol hpol
    refine lqr_stable (G := fun x => (P.grad x).2) (ue := 0) (C85_pendulum P hm hl ![π, 0] 0).1 ?_ ?_
      (C86_pendulum_equilibria P).2 hQ hR hpd hric (by simpa using hpol)
    · intro i j
      fin_cases i <;> fin_cases j <;> exact continuousAt_const
    · intro x w
      ext i
      fin_cases i <;> simp [Pendulum.dyn, Pendulum.grad, dotProduct]
      ring
  refine ⟨key (Eventually.of_forall fun x => rfl), key ?_⟩
  have hcont : Continuous fun x : Fin 2 → ℝ => (x - ![π, 0]) ⬝ᵥ Q *ᵥ (x - ![π, 0]) :=
    (continuous_quad Q).comp (continuous_id.sub continuous_const)
  have : ∀ᶠ x in 𝓝 (![π, 0] : Fin 2 → ℝ), (x - ![π, 0]) ⬝ᵥ Q *ᵥ (x - ![π, 0]) < 0.1 :=
    hcont.continuousAt.eventually_lt continuousAt_const (by simp; norm_num)
  filter_upwards [this] with x hx
  exact if_neg (not_lt.2 hx.le)

/-- C122. `Quadrotor2D.lqr_control` at a hovering state: the gain and the matrix it returns; the control `K (x - x*) + u*` on
which the controllers are fitted stabilises the quadrotor. -/
theorem C122_quadrotor2d (P : Planar) (hm : P.mass ≠ 0) {care : Care 6 2} (hc : RiccatiSolver care)
    {Q : Matrix (Fin 6) (Fin 6) ℝ} {R : Matrix (Fin 2) (Fin 2) ℝ} (hQ : Q.PosDef) (hR : R.PosDef) (px pz : ℝ)
    {K : Matrix (Fin 2) (Fin 6) ℝ} {S : Matrix (Fin 6) (Fin 6) ℝ}
    (hK : P.lqrControl care Q R ![px, pz, 0, 0, 0, 0] P.quadHover = some (K, S)) :
    LocallyExpStable P.quadDyn (lqrU K ![px, pz, 0, 0, 0, 0] P.quadHover) ![px, pz, 0, 0, 0, 0] := by
  unfold Planar.lqrControl at hK
  simp only [npSolve_posDef hR, Option.map_some] at hK
  obtain ⟨S', hS, hK⟩ := Option.bind_eq_some_iff.1 hK
  obtain ⟨hric, hpd⟩ := hc _ _ _ _ _ hQ hR hS
  obtain ⟨rfl, rfl⟩ := Prod.mk.inj (Option.some.inj hK)
  refine lqr_stable (G := fun x => (P.quadGrad x P.quadHover).2) (C85_quadrotor2d P _ _).1 ?_ ?_
    (C86_quadrotor2d_hover P hm px pz) hQ hR hpd hric (Eventually.of_forall fun x => rfl)
  · intro i j
    apply Continuous.continuousAt
    fin_cases i <;> fin_cases j <;> simp [Planar.quadGrad] <;> fun_prop
  · intro x w
    ext i
    fin_cases i <;> simp [Planar.quadDyn, Planar.quadGrad, dotProduct, Fin.sum_univ_succ] <;> ring

/-- C122. The regulator of train_rocket_demo.py stabilises the rocket at the origin. -/
theorem C122_rocket (P : Planar) (hm : P.mass ≠ 0) {care : Care 6 2} (hc : RiccatiSolver care)
    {Q : Matrix (Fin 6) (Fin 6) ℝ} {R : Matrix (Fin 2) (Fin 2) ℝ} (hQ : Q.PosDef) (hR : R.PosDef)
    {K : Matrix (Fin 2) (Fin 6) ℝ} {S : Matrix (Fin 6) (Fin 6) ℝ} (hK : P.rocketLqr care Q R = some (K, S)) :
    LocallyExpStable P.rocketDyn (lqrU K 0 ![0, P.hoverThrust]) 0 := by
  unfold Planar.rocketLqr at hK
  simp only [npSolve_posDef hR, Option.map_some] at hK
  obtain ⟨S', hS, hK⟩ := Option.bind_eq_some_iff.1 hK
  obtain ⟨hric, hpd⟩ := hc _ _ _ _ _ hQ hR hS
  obtain ⟨rfl, rfl⟩ := Prod.mk.inj (Option.some.inj hK)
  have h0 : (![0, 0, 0, 0, 0, 0] : Fin 6 → ℝ) = 0 := by ext i; fin_cases i <;> rfl
  refine lqr_stable (G := fun x => (P.rocketGrad x ![0, P.hoverThrust]).2) (C85_rocket P _ _).1 ?_ ?_
    (by have := (C86_rocket_hover P hm 0 0).1; rwa [h0] at this) hQ hR hpd hric (Eventually.of_forall fun x => rfl)
  · intro i j
    apply Continuous.continuousAt
    fin_cases i <;> fin_cases j <;> simp [Planar.rocketGrad] <;> fun_prop
  · intro x w
    ext i
    fin_cases i <;> simp [Planar.rocketDyn, Planar.rocketGrad, dotProduct, Fin.sum_univ_succ] <;> ring

/-- C122. The regulator of train_quadrotor_demo.py, whose gain has the opposite sign and is applied with the opposite sign,
stabilises the quadrotor at the origin. -/
theorem C122_quadrotor3d (P : Quad3) (hm : P.mass ≠ 0) (hh : P.hover = P.mass * P.gravity / 4) {care : Care 12 4}
    (hc : RiccatiSolver care) {Q : Matrix (Fin 12) (Fin 12) ℝ} {R : Matrix (Fin 4) (Fin 4) ℝ} (hQ : Q.PosDef)
    (hR : R.PosDef) {K : Matrix (Fin 4) (Fin 12) ℝ} {S : Matrix (Fin 12) (Fin 12) ℝ} (hK : P.lqr care Q R = some (K, S)) :
    LocallyExpStable P.dynNp (lqrUNeg K 0 fun _ => P.hover) 0 := by
  unfold Quad3.lqr at hK
  simp only [npSolve_posDef hR, Option.map_some] at hK
  obtain ⟨S', hS, hK⟩ := Option.bind_eq_some_iff.1 hK
  obtain ⟨hric, hpd⟩ := hc _ _ _ _ _ hQ hR hS
  obtain ⟨rfl, rfl⟩ := Prod.mk.inj (Option.some.inj hK)
  have h0 : (![0, 0, 0, 0, 0, 0, 0, 0, 0, 0, 0, 0] : Fin 12 → ℝ) = 0 := by ext i; fin_cases i <;> rfl
  refine lqr_stable (G := P.gradU) (C85_quadrotor3d P 0 _ (by simp)).1 ?_ ?_
    (by have := C86_quadrotor_hover P hm hh 0 0 0 0; rwa [h0] at this) hQ hR hpd hric (Eventually.of_forall fun x => by
      simp [lqrUNeg, Matrix.neg_mulVec])
  · intro i j
    apply Continuous.continuousAt
    fin_cases i <;> fin_cases j <;>
      simp [Quad3.gradU, rpy2rotmatNp, Matrix.mulVec, dotProduct, Fin.sum_univ_succ] <;> fun_prop
  · intro x w
    have hg : ∀ i, (P.gradU x *ᵥ w) i = P.gradU x i 0 * w 0 + P.gradU x i 1 * w 1 + P.gradU x i 2 * w 2 +
        P.gradU x i 3 * w 3 := fun i => by
      simp only [Matrix.mulVec, dotProduct, Fin.sum_univ_succ, Fin.sum_univ_zero, add_zero, ← add_assoc]
      rfl
    rw [quad3_eq, quad3_eq]
    refine funext fun i => ?_
    change _ = _ + (P.gradU x *ᵥ w) i
    rw [hg]
    fin_cases i <;> simp [Quad3.gradU, rot_e3] <;> ring

end NNL.Props
