import Verif.Spec.PoleSim
import Verif.Model.PoleSim
import Verif.Props.Lqr
import Mathlib.Algebra.Order.Star.Real
import Mathlib.Analysis.Calculus.Deriv.Pi
import Mathlib.Analysis.Calculus.Deriv.Prod
import Mathlib.Analysis.Calculus.FDeriv.Mul
import Mathlib.Analysis.SpecialFunctions.Sqrt

/-!
# C127: the pole balanced by its linear quadratic regulator
-/

namespace NNL.Props

open Matrix Set NNL.Spec NNL.Model NNL.Lemmas Topology Filter

/-- The right-hand side of the pole: gravity and the quadratic terms, with `s` times the mixed term.  The code has `s = -1`,
Newton's laws `s = 1`. -/
noncomputable def poleRhs (P : PoleDyn) (s : ℝ) (x : Fin 7 → ℝ) : Fin 5 → ℝ :=
  let m := P.mSphere
  let z := P.z x
  ![0, 0,
    -((P.mEe + m) * P.gravity) + m * (x 5 ^ 2 * (P.length ^ 2 - x 1 ^ 2) / z ^ 3 +
      x 6 ^ 2 * (P.length ^ 2 - x 0 ^ 2) / z ^ 3 + s * (2 * x 0 * x 1 * x 5 * x 6 / z ^ 3)),
    m * P.gravity * x 0 / z - m * x 0 * ((x 5 ^ 2 + x 6 ^ 2) / z ^ 2 + (x 0 * x 5 + x 1 * x 6) ^ 2 / z ^ 4),
    m * P.gravity * x 1 / z - m * x 1 * ((x 5 ^ 2 + x 6 ^ 2) / z ^ 2 + (x 0 * x 5 + x 1 * x 6) ^ 2 / z ^ 4)]

theorem poleRhs_code (P : PoleDyn) (x : Fin 7 → ℝ) : poleRhs P (-1) x = -P.C x := by
  ext i
  fin_cases i <;> simp [poleRhs, PoleDyn.C] <;> ring

/-- The dynamics, as a total function. -/
noncomputable def poleF (P : PoleDyn) (s : ℝ) (x : Fin 7 → ℝ) (u : Fin 3 → ℝ) : Fin 7 → ℝ :=
  let v := (P.M x)⁻¹ *ᵥ (![u 0, u 1, u 2, 0, 0] + poleRhs P s x)
  ![x 5, x 6, v 0, v 1, v 2, v 3, v 4]

theorem pole_det (P : PoleDyn) (hm : 0 < P.mSphere) (he : 0 < P.mEe) (x : Fin 7 → ℝ) : (P.M x).det ≠ 0 := by
  intro h0
  have := C87_accepts ⟨P.mSphere, P.mEe, P.length, P.gravity⟩ hm he x 0
  by_cases hx : x 0 ^ 2 + x 1 ^ 2 < P.length ^ 2
  · have := this hx
    unfold PoleDyn.dyn at this
    rw [if_pos h0] at this
    simp at this
  · obtain ⟨v, hv, h⟩ := Matrix.exists_mulVec_eq_zero_iff.2 h0
    refine hv ?_
    have r0 := congrFun h 0
    have r1 := congrFun h 1
    have r2 := congrFun h 2
    have r3 := congrFun h 3
    have r4 := congrFun h 4
    simp [PoleDyn.M, Matrix.mulVec, dotProduct, Fin.sum_univ_succ] at r0 r1 r2 r3 r4
    obtain ⟨v0, v1, v2, v3, v4⟩ := pole_energy hm he
      (a := x 0 / P.z x) (b := x 1 / P.z x) (v0 := v 0) (v1 := v 1) (v2 := v 2) (v3 := v 3) (v4 := v 4) (by
        linear_combination v 0 * r0 + v 1 * r1 + v 2 * r2 + v 3 * r3 + v 4 * r4)
    ext i
    fin_cases i
    exacts [v0, v1, v2, v3, v4]

theorem dyn_eq (P : PoleDyn) (hm : 0 < P.mSphere) (he : 0 < P.mEe) (x : Fin 7 → ℝ) (u : Fin 3 → ℝ) :
    P.dyn x u = some (poleF P (-1) x u) := by
  unfold PoleDyn.dyn poleF
  rw [if_neg (pole_det P hm he x), poleRhs_code, ← sub_eq_add_neg]

/-- The input matrix. -/
noncomputable def poleG (P : PoleDyn) (x : Fin 7 → ℝ) : Matrix (Fin 7) (Fin 3) ℝ :=
  let N := (P.M x)⁻¹
  !![0, 0, 0; 0, 0, 0; N 0 0, N 0 1, N 0 2; N 1 0, N 1 1, N 1 2; N 2 0, N 2 1, N 2 2; N 3 0, N 3 1, N 3 2;
    N 4 0, N 4 1, N 4 2]

theorem poleF_affine (P : PoleDyn) (s : ℝ) (x : Fin 7 → ℝ) (ue w : Fin 3 → ℝ) :
    poleF P s x (w + ue) = poleF P s x ue + poleG P x *ᵥ w := by
  have h : (![(w + ue) 0, (w + ue) 1, (w + ue) 2, 0, 0] + poleRhs P s x : Fin 5 → ℝ) =
      (![ue 0, ue 1, ue 2, 0, 0] + poleRhs P s x) + ![w 0, w 1, w 2, 0, 0] := by
    have : (![(w + ue) 0, (w + ue) 1, (w + ue) 2, 0, 0] : Fin 5 → ℝ) = ![w 0, w 1, w 2, 0, 0] + ![ue 0, ue 1, ue 2, 0, 0] := by
      simp
    rw [this]
    abel
  unfold poleF
  simp only [h, Matrix.mulVec_add]
  ext i
  fin_cases i <;> simp [poleG, Matrix.mulVec, dotProduct, Fin.sum_univ_succ]

/-- `f(x, u_eq) = H(x) x`. -/
noncomputable def poleH (P : PoleDyn) (s : ℝ) (x : Fin 7 → ℝ) : Matrix (Fin 7) (Fin 7) ℝ :=
  let m := P.mSphere
  let z := P.z x
  let N := (P.M x)⁻¹
  let q := m * P.gravity / z - m * ((x 5 ^ 2 + x 6 ^ 2) / z ^ 2 + (x 0 * x 5 + x 1 * x 6) ^ 2 / z ^ 4)
  let a := m * (x 5 * (P.length ^ 2 - x 1 ^ 2) / z ^ 3)
  let b := m * (x 6 * (P.length ^ 2 - x 0 ^ 2) / z ^ 3 + s * (2 * x 0 * x 1 * x 5 / z ^ 3))
  !![0, 0, 0, 0, 0, 1, 0; 0, 0, 0, 0, 0, 0, 1;
    N 0 3 * q, N 0 4 * q, 0, 0, 0, N 0 2 * a, N 0 2 * b;
    N 1 3 * q, N 1 4 * q, 0, 0, 0, N 1 2 * a, N 1 2 * b;
    N 2 3 * q, N 2 4 * q, 0, 0, 0, N 2 2 * a, N 2 2 * b;
    N 3 3 * q, N 3 4 * q, 0, 0, 0, N 3 2 * a, N 3 2 * b;
    N 4 3 * q, N 4 4 * q, 0, 0, 0, N 4 2 * a, N 4 2 * b]

theorem poleF_eq (P : PoleDyn) (s : ℝ) (x : Fin 7 → ℝ) : poleF P s x P.uEq = poleH P s x *ᵥ x := by
  unfold poleF
  ext i
  fin_cases i <;>
    simp [poleH, poleRhs, PoleDyn.uEq, Matrix.mulVec, dotProduct, Fin.sum_univ_succ] <;> ring

/-- A function `H(x)(x - x0)` with `H` continuous at `x0` has the derivative `H(x0)` there. -/
theorem jacobian_of_factor {n : ℕ} {f : (Fin n → ℝ) → Fin n → ℝ} {H : (Fin n → ℝ) → Matrix (Fin n) (Fin n) ℝ}
    {x0 : Fin n → ℝ} (hH : ∀ i j, ContinuousAt (fun x => H x i j) x0) (hf : ∀ x, f x = H x *ᵥ (x - x0)) :
    IsJacobian f (H x0) x0 := by
  unfold IsJacobian
  rw [hasFDerivAt_pi']
  intro i
  have h3 : HasFDerivAt (fun x => ∑ j, H x i j * (x - x0) j)
      (∑ j, H x0 i j • (ContinuousLinearMap.proj j)) x0 :=
    HasFDerivAt.fun_sum fun j _ => jac_mul (hH i j) fun y => rfl
  have e : (fun x => f x i) = fun x => ∑ j, H x i j * (x - x0) j := by
    funext x
    rw [hf]
    rfl
  rw [e]
  refine h3.congr_fderiv ?_
  ext v
  simp [Matrix.mulVec, dotProduct]

theorem det_differentiable {k n : ℕ} {M : (Fin n → ℝ) → Matrix (Fin k) (Fin k) ℝ} {x : Fin n → ℝ}
    (hM : ∀ i j, DifferentiableAt ℝ (fun y => M y i j) x) : DifferentiableAt ℝ (fun y => (M y).det) x := by
  simp only [Matrix.det_apply, Units.smul_def, zsmul_eq_mul]
  refine DifferentiableAt.fun_sum fun σ _ => DifferentiableAt.const_mul ?_ _
  have h : ∀ s : Finset (Fin k), DifferentiableAt ℝ (fun y => ∏ i ∈ s, M y (σ i) i) x := fun s => by
    induction s using Finset.induction_on with
    | empty => simp
    | insert a s ha ih =>
      simp only [Finset.prod_insert ha]
      exact (hM _ _).fun_mul ih
  exact h _

theorem inv_differentiable {k n : ℕ} {M : (Fin n → ℝ) → Matrix (Fin k) (Fin k) ℝ} {x : Fin n → ℝ}
    (hM : ∀ i j, DifferentiableAt ℝ (fun y => M y i j) x) (hd : (M x).det ≠ 0) (i j : Fin k) :
    DifferentiableAt ℝ (fun y => (M y)⁻¹ i j) x := by
  simp only [Matrix.inv_def, Ring.inverse_eq_inv', Matrix.smul_apply, smul_eq_mul, Matrix.adjugate_apply]
  refine ((det_differentiable hM).fun_inv hd).fun_mul (det_differentiable fun a b => ?_)
  simp only [Matrix.updateRow_apply]
  split
  · exact differentiableAt_const _
  · exact hM a b

theorem zinv_differentiable (P : PoleDyn) {x : Fin 7 → ℝ} (hx : x 0 ^ 2 + x 1 ^ 2 < P.length ^ 2) :
    DifferentiableAt ℝ (fun y => (P.z y)⁻¹) x := by
  have h : (0 : ℝ) < P.length ^ 2 - x 0 ^ 2 - x 1 ^ 2 := by linarith
  refine DifferentiableAt.fun_inv (DifferentiableAt.sqrt ?_ h.ne') (Real.sqrt_pos.2 h).ne'
  fun_prop

theorem M_differentiable (P : PoleDyn) {x : Fin 7 → ℝ} (hx : x 0 ^ 2 + x 1 ^ 2 < P.length ^ 2) (i j : Fin 5) :
    DifferentiableAt ℝ (fun y => P.M y i j) x := by
  obtain ⟨w, hw⟩ : ∃ w : (Fin 7 → ℝ) → ℝ, ∀ y, (P.z y)⁻¹ = w y := ⟨_, fun _ => rfl⟩
  have h := zinv_differentiable P hx
  simp only [hw] at h
  fin_cases i <;> fin_cases j <;> simp [PoleDyn.M, div_eq_mul_inv, ← inv_pow, hw] <;> fun_prop

theorem poleRhs_differentiable (P : PoleDyn) (s : ℝ) {x : Fin 7 → ℝ} (hx : x 0 ^ 2 + x 1 ^ 2 < P.length ^ 2) (i : Fin 5) :
    DifferentiableAt ℝ (fun y => poleRhs P s y i) x := by
  obtain ⟨w, hw⟩ : ∃ w : (Fin 7 → ℝ) → ℝ, ∀ y, (P.z y)⁻¹ = w y := ⟨_, fun _ => rfl⟩
  have h := zinv_differentiable P hx
  simp only [hw] at h
  fin_cases i <;> simp [poleRhs, div_eq_mul_inv, ← inv_pow, hw] <;> fun_prop

theorem poleG_differentiable (P : PoleDyn) (hm : 0 < P.mSphere) (he : 0 < P.mEe) {x : Fin 7 → ℝ}
    (hx : x 0 ^ 2 + x 1 ^ 2 < P.length ^ 2) (i : Fin 7) (j : Fin 3) : DifferentiableAt ℝ (fun y => poleG P y i j) x := by
  have h := inv_differentiable (M_differentiable P hx) (pole_det P hm he x)
  fin_cases i <;> fin_cases j <;> first | exact differentiableAt_const _ | exact h _ _

theorem poleH_differentiable (P : PoleDyn) (s : ℝ) (hm : 0 < P.mSphere) (he : 0 < P.mEe) {x : Fin 7 → ℝ}
    (hx : x 0 ^ 2 + x 1 ^ 2 < P.length ^ 2) (i j : Fin 7) : DifferentiableAt ℝ (fun y => poleH P s y i j) x := by
  have hN := inv_differentiable (M_differentiable P hx) (pole_det P hm he x)
  obtain ⟨w, hw⟩ : ∃ w : (Fin 7 → ℝ) → ℝ, ∀ y, (P.z y)⁻¹ = w y := ⟨_, fun _ => rfl⟩
  obtain ⟨N, hN'⟩ : ∃ N : Fin 5 → Fin 5 → (Fin 7 → ℝ) → ℝ, ∀ i j y, (P.M y)⁻¹ i j = N i j y := ⟨_, fun _ _ _ => rfl⟩
  have h := zinv_differentiable P hx
  simp only [hw] at h
  simp only [hN'] at hN
  unfold poleH
  simp only [hN', div_eq_mul_inv, ← inv_pow, hw]
  have h1 := fun i j => hN i j
  fin_cases i <;> fin_cases j <;> first | exact differentiableAt_const _ | (simp; fun_prop)

theorem poleF_differentiable (P : PoleDyn) (s : ℝ) (hm : 0 < P.mSphere) (he : 0 < P.mEe) {x : Fin 7 → ℝ}
    (hx : x 0 ^ 2 + x 1 ^ 2 < P.length ^ 2) (u : Fin 3 → ℝ) : DifferentiableAt ℝ (fun y => poleF P s y u) x := by
  have hN := inv_differentiable (M_differentiable P hx) (pole_det P hm he x)
  have hr := poleRhs_differentiable P s hx
  have hv : ∀ i, DifferentiableAt ℝ (fun y => ((P.M y)⁻¹ *ᵥ (![u 0, u 1, u 2, 0, 0] + poleRhs P s y)) i) x := fun i => by
    simp only [Matrix.mulVec, dotProduct]
    exact DifferentiableAt.fun_sum fun j _ => (hN i j).fun_mul ((hr j).const_add _)
  rw [differentiableAt_pi]
  intro i
  fin_cases i
  · exact differentiableAt_apply 5 x
  · exact differentiableAt_apply 6 x
  · exact hv 0
  · exact hv 1
  · exact hv 2
  · exact hv 3
  · exact hv 4

theorem jacobian_partial {n m : ℕ} {f : (Fin n → ℝ) → Fin m → ℝ} {A : Matrix (Fin m) (Fin n) ℝ} {x : Fin n → ℝ}
    (h : IsJacobian f A x) (i : Fin m) (j : Fin n) : deriv (fun t => f (Function.update x j t) i) (x j) = A i j := by
  have h1 : HasDerivAt (fun t => Function.update x j t) (Pi.single j 1) (x j) := hasDerivAt_update x j (x j)
  have h0 : HasFDerivAt f (LinearMap.toContinuousLinearMap A.mulVecLin) (Function.update x j (x j)) := by
    rw [Function.update_eq_self]
    exact h
  have h2 := (hasDerivAt_pi.1 (h0.comp_hasDerivAt (x j) h1)) i
  refine h2.deriv.trans ?_
  simp

theorem jacobian_exists {n m : ℕ} {f : (Fin n → ℝ) → Fin m → ℝ} {x : Fin n → ℝ} (h : DifferentiableAt ℝ f x) :
    ∃ A, IsJacobian f A x := by
  refine ⟨LinearMap.toMatrix' (fderiv ℝ f x : (Fin n → ℝ) →ₗ[ℝ] (Fin m → ℝ)), ?_⟩
  unfold IsJacobian
  refine h.hasFDerivAt.congr_fderiv ?_
  ext v
  simp [LinearMap.toMatrix'_mulVec]

theorem poleG_jacobian (P : PoleDyn) (s : ℝ) (x : Fin 7 → ℝ) (u : Fin 3 → ℝ) :
    IsJacobian (fun w => poleF P s x w) (poleG P x) u := by
  have e : (fun w => poleF P s x w) = fun w => poleF P s x 0 + poleG P x *ᵥ w := by
    funext w
    have := poleF_affine P s x 0 w
    rwa [add_zero] at this
  unfold IsJacobian
  rw [e]
  exact (LinearMap.toContinuousLinearMap (poleG P x).mulVecLin).hasFDerivAt.const_add _

theorem gradient_eq (P : PoleDyn) (hm : 0 < P.mSphere) (he : 0 < P.mEe) {x : Fin 7 → ℝ} {u : Fin 3 → ℝ}
    {A : Matrix (Fin 7) (Fin 7) ℝ} (hA : IsJacobian (fun y => poleF P (-1) y u) A x) :
    P.gradient x u = some (A, poleG P x) := by
  unfold PoleDyn.gradient
  simp only [dyn_eq P hm he, Option.isSome_some, if_true, Option.getD_some]
  refine congrArg some (Prod.ext ?_ ?_)
  · ext i j
    exact jacobian_partial hA i j
  · ext i j
    exact jacobian_partial (poleG_jacobian P (-1) x u) i j

/-- C127. `Pole.gradient` returns the derivatives of `Pole.dynamics` with respect to the state and to the force, at every state
with the ball above the plate. -/
theorem C127_gradient (P : PoleDyn) (hm : 0 < P.mSphere) (he : 0 < P.mEe) (x : Fin 7 → ℝ) (u : Fin 3 → ℝ)
    (hx : x 0 ^ 2 + x 1 ^ 2 < P.length ^ 2) :
    ∃ (f : (Fin 7 → ℝ) → (Fin 3 → ℝ) → Fin 7 → ℝ) (A : _) (B : _), (∀ y w, P.dyn y w = some (f y w)) ∧ P.gradient x u = some (A, B) ∧ IsJacobian (fun y => f y u) A x ∧
      IsJacobian (fun w => f x w) B u := by
  obtain ⟨A, hA⟩ := jacobian_exists (poleF_differentiable P (-1) hm he hx u)
  exact ⟨poleF P (-1), A, poleG P x, dyn_eq P hm he, gradient_eq P hm he hA, hA, poleG_jacobian P (-1) x u⟩

theorem M_zero_inv (P : PoleDyn) (hm : 0 < P.mSphere) (he : 0 < P.mEe) :
    (P.M 0)⁻¹ = !![1 / P.mEe, 0, 0, -1 / P.mEe, 0; 0, 1 / P.mEe, 0, 0, -1 / P.mEe; 0, 0, 1 / (P.mSphere + P.mEe), 0, 0;
      -1 / P.mEe, 0, 0, (P.mSphere + P.mEe) / (P.mSphere * P.mEe), 0;
      0, -1 / P.mEe, 0, 0, (P.mSphere + P.mEe) / (P.mSphere * P.mEe)] := by
  refine Matrix.inv_eq_right_inv ?_
  have h1 := hm.ne'
  have h2 := he.ne'
  have h3 := (add_pos hm he).ne'
  ext i j
  fin_cases i <;> fin_cases j <;> simp [PoleDyn.M, Matrix.mul_apply, Fin.sum_univ_succ] <;> field_simp <;> ring

/-- The linearised pole: state matrix. -/
noncomputable def uprightA (P : PoleDyn) : Matrix (Fin 7) (Fin 7) ℝ :=
  let c := P.mSphere * P.gravity / (P.mEe * P.length)
  let d := (P.mSphere + P.mEe) * P.gravity / (P.mEe * P.length)
  !![0, 0, 0, 0, 0, 1, 0; 0, 0, 0, 0, 0, 0, 1; -c, 0, 0, 0, 0, 0, 0; 0, -c, 0, 0, 0, 0, 0; 0, 0, 0, 0, 0, 0, 0;
    d, 0, 0, 0, 0, 0, 0; 0, d, 0, 0, 0, 0, 0]

/-- The linearised pole: input matrix. -/
noncomputable def uprightB (P : PoleDyn) : Matrix (Fin 7) (Fin 3) ℝ :=
  !![0, 0, 0; 0, 0, 0; 1 / P.mEe, 0, 0; 0, 1 / P.mEe, 0; 0, 0, 1 / (P.mSphere + P.mEe); -1 / P.mEe, 0, 0;
    0, -1 / P.mEe, 0]

theorem poleG_zero (P : PoleDyn) (hm : 0 < P.mSphere) (he : 0 < P.mEe) : poleG P 0 = uprightB P := by
  unfold poleG uprightB
  rw [M_zero_inv P hm he]
  ext i j
  fin_cases i <;> fin_cases j <;> rfl

theorem poleH_zero (P : PoleDyn) (s : ℝ) (hm : 0 < P.mSphere) (he : 0 < P.mEe) (hl : 0 < P.length) :
    poleH P s 0 = uprightA P := by
  have hz : P.z 0 = P.length := by simp [PoleDyn.z, Real.sqrt_sq hl.le]
  have h1 := hm.ne'
  have h2 := he.ne'
  have h3 := hl.ne'
  unfold poleH uprightA
  rw [M_zero_inv P hm he]
  ext i j
  fin_cases i <;> fin_cases j <;> simp [hz] <;> field_simp

theorem poleH_jacobian (P : PoleDyn) (s : ℝ) (hm : 0 < P.mSphere) (he : 0 < P.mEe) (hl : 0 < P.length) :
    IsJacobian (fun y => poleF P s y P.uEq) (uprightA P) 0 := by
  rw [← poleH_zero P s hm he hl]
  refine jacobian_of_factor (fun i j => (poleH_differentiable P s hm he ?_ i j).continuousAt) fun x => ?_
  · simpa using pow_pos hl 2
  · rw [sub_zero]
    exact poleF_eq P s x

/-- C127. The balanced state is an equilibrium under the force `u_eq`, and the linear model of `LQRController` there: with the
masses `m` of the ball and `e` of the plate, `e a = f - (m g / l) p` for the plate and `e l p'' = (m + e) g p - l f` for the
offset `p` of the ball, in each horizontal direction. -/
theorem C127_linearisation (P : PoleDyn) (hm : 0 < P.mSphere) (he : 0 < P.mEe) (hl : 0 < P.length) :
    P.dyn 0 P.uEq = some 0 ∧ P.gradient 0 P.uEq = some (uprightA P, uprightB P) := by
  refine ⟨?_, ?_⟩
  · rw [dyn_eq P hm he, poleF_eq, Matrix.mulVec_zero]
  · rw [gradient_eq P hm he (poleH_jacobian P (-1) hm he hl), poleG_zero P hm he]

theorem pole_stable (P : PoleDyn) (s : ℝ) (hm : 0 < P.mSphere) (he : 0 < P.mEe) (hl : 0 < P.length) {lqr : DrakeLqr 7 3}
    (hlqr : LqrRoutine lqr) {Q : Matrix (Fin 7) (Fin 7) ℝ} {R : Matrix (Fin 3) (Fin 3) ℝ} (hQ : Q.PosDef) (hR : R.PosDef)
    {K : Matrix (Fin 3) (Fin 7) ℝ} (hK : P.lqrGain lqr Q R = some K) :
    LocallyExpStable (poleF P s) (fun x => (-K) *ᵥ x + P.uEq) 0 := by
  unfold PoleDyn.lqrGain at hK
  rw [(C127_linearisation P hm he hl).2] at hK
  obtain ⟨⟨K', S⟩, hS, rfl⟩ := Option.map_eq_some_iff.1 hK
  obtain ⟨hric, hpd, hKS⟩ := hlqr _ _ _ _ _ _ hQ hR hS
  have hK2 : R⁻¹ * ((uprightB P)ᵀ * S) = K' := by
    rw [← hKS, ← Matrix.mul_assoc, Matrix.nonsing_inv_mul _ (isUnit_iff_ne_zero.2 hR.det_pos.ne'), Matrix.one_mul]
  have hx : (0 : Fin 7 → ℝ) 0 ^ 2 + (0 : Fin 7 → ℝ) 1 ^ 2 < P.length ^ 2 := by simpa using pow_pos hl 2
  refine lqr_stable (G := poleG P) (A := uprightA P) (ue := P.uEq) (poleH_jacobian P s hm he hl)
    (fun i j => (poleG_differentiable P hm he hx i j).continuousAt) (fun x w => poleF_affine P s x P.uEq w) ?_ hQ hR hpd ?_
    (Eventually.of_forall fun x => ?_)
  · rw [poleF_eq, Matrix.mulVec_zero]
  · rw [poleG_zero P hm he]
    exact hric
  · rw [poleG_zero P hm he, hK2, sub_zero]

/-- C127. With the gain of `LQRController`, the force `-K x + u_eq` stabilises `Pole.dynamics` at the balanced state, locally
and exponentially. -/
theorem C127_stable (P : PoleDyn) (hm : 0 < P.mSphere) (he : 0 < P.mEe) (hl : 0 < P.length) {lqr : DrakeLqr 7 3}
    (hlqr : LqrRoutine lqr) {Q : Matrix (Fin 7) (Fin 7) ℝ} {R : Matrix (Fin 3) (Fin 3) ℝ} (hQ : Q.PosDef) (hR : R.PosDef)
    {K : Matrix (Fin 3) (Fin 7) ℝ} (hK : P.lqrGain lqr Q R = some K) :
    LocallyExpStable (fun x u => (P.dyn x u).getD 0) (fun x => (-K) *ᵥ x + P.uEq) 0 := by
  have : (fun x u => (P.dyn x u).getD 0) = poleF P (-1) := by
    funext x u
    rw [dyn_eq P hm he]
    rfl
  rw [this]
  exact pole_stable P (-1) hm he hl hlqr hQ hR hK

/-- Newton's laws determine the accelerations. -/
theorem newton_poleF (P : PoleDyn) (hm : 0 < P.mSphere) (he : 0 < P.mEe) {x d : Fin 7 → ℝ} {u : Fin 3 → ℝ} {vz az T : ℝ}
    (hz : 0 < P.z x) (hl : P.length ^ 2 = P.z x ^ 2 + x 0 ^ 2 + x 1 ^ 2) (h0 : d 0 = x 5) (h1 : d 1 = x 6)
    (n1 : x 0 * x 5 + x 1 * x 6 + P.z x * vz = 0)
    (n2 : x 5 ^ 2 + x 6 ^ 2 + vz ^ 2 + (x 0 * d 5 + x 1 * d 6 + P.z x * az) = 0)
    (a0 : P.mEe * d 2 = u 0 - T * x 0) (a1 : P.mEe * d 3 = u 1 - T * x 1)
    (a2 : P.mEe * d 4 = u 2 - T * P.z x - P.mEe * P.gravity)
    (b0 : P.mSphere * (d 2 + d 5) = T * x 0) (b1 : P.mSphere * (d 3 + d 6) = T * x 1)
    (b2 : P.mSphere * (d 4 + az) = T * P.z x - P.mSphere * P.gravity) : d = poleF P 1 x u := by
  have hrow : P.M x *ᵥ ![d 2, d 3, d 4, d 5, d 6] = ![u 0, u 1, u 2, 0, 0] + poleRhs P 1 x := by
    have hz0 := hz.ne'
    have hvz : vz = -(x 0 * x 5 + x 1 * x 6) / P.z x := by field_simp; linarith
    have haz : az = -(x 5 ^ 2 + x 6 ^ 2 + vz ^ 2 + (x 0 * d 5 + x 1 * d 6)) / P.z x := by field_simp; linarith
    have hT : T = P.mSphere * (d 4 + az + P.gravity) / P.z x := by field_simp; linarith
    ext i
    fin_cases i <;> simp [PoleDyn.M, poleRhs, Matrix.mulVec, dotProduct, Fin.sum_univ_succ, hl]
    · linarith
    · linarith
    · have := congrArg (· * P.z x ^ 3) (show P.mEe * d 4 + P.mSphere * (d 4 + az) = u 2 - (P.mSphere + P.mEe) * P.gravity by
        linarith)
      rw [haz, hvz] at this
      field_simp at this ⊢
      linear_combination this
    · rw [hT, haz, hvz] at b0
      field_simp at b0 ⊢
      linear_combination b0
    · rw [hT, haz, hvz] at b1
      field_simp at b1 ⊢
      linear_combination b1
  have hinv : (P.M x)⁻¹ *ᵥ (![u 0, u 1, u 2, 0, 0] + poleRhs P 1 x) = ![d 2, d 3, d 4, d 5, d 6] := by
    rw [← hrow, Matrix.mulVec_mulVec, Matrix.nonsing_inv_mul _ (isUnit_iff_ne_zero.2 (pole_det P hm he x)),
      Matrix.one_mulVec]
  unfold poleF
  simp only [hinv]
  ext i
  fin_cases i <;> simp [h0, h1]

/-- C127. Two bodies on a rod, under Newton's laws and the force computed by `CalculateController` from their poses and
velocities: from every state close enough to the balanced one they converge to it at an exponential rate.  (The mixed term in
`Pole.dynamics`, whose sign is wrong, C87, does not enter the linear model.) -/
theorem C127_balance (P : PoleDyn) (hm : 0 < P.mSphere) (he : 0 < P.mEe) (hl : 0 < P.length) {lqr : DrakeLqr 7 3}
    (hlqr : LqrRoutine lqr) {Q : Matrix (Fin 7) (Fin 7) ℝ} {R : Matrix (Fin 3) (Fin 3) ℝ} (hQ : Q.PosDef) (hR : R.PosDef)
    {K : Matrix (Fin 3) (Fin 7) ℝ} (hK : P.lqrGain lqr Q R = some K) :
    ∃ δ M c : ℝ, 0 < δ ∧ 0 < M ∧ 0 < c ∧ ∀ pA vA pB vB : ℝ → Fin 3 → ℝ,
      RodBodies P.length P.mEe P.mSphere P.gravity pA vA pB vB (fun t => P.lqrForce K (pB t) (vB t) (pA t) (vA t)) →
      ‖offBalance (pA 0) (vA 0) (pB 0) (vB 0)‖ < δ → ∀ t, 0 ≤ t →
        ‖offBalance (pA t) (vA t) (pB t) (vB t)‖ ≤
          M * Real.exp (-(c * t)) * ‖offBalance (pA 0) (vA 0) (pB 0) (vB 0)‖ := by
  obtain ⟨δ, M, c, hδ, hM, hc, H⟩ := pole_stable P 1 hm he hl hlqr hQ hR hK
  refine ⟨δ, M, c, hδ, hM, hc, fun pA vA pB vB hB h0 t ht => ?_⟩
  have key := H (fun t => offBalance (pA t) (vA t) (pB t) (vB t)) ?_ (by simpa using h0) t ht
  · simpa using key
  intro t ht
  obtain ⟨aA, aB, T, hA', hB', nA, nB⟩ := hB.newton t ht
  have hdp : ∀ i, HasDerivWithinAt (fun s => pB s i - pA s i) (vB t i - vA t i) (Ici 0) t := fun i =>
    (hB.velB t ht i).sub (hB.velA t ht i)
  have hU : UniqueDiffWithinAt ℝ (Ici (0 : ℝ)) t := uniqueDiffOn_Ici 0 t ht
  have rod1 : ∀ s, 0 ≤ s → (pB s 0 - pA s 0) * (vB s 0 - vA s 0) + (pB s 1 - pA s 1) * (vB s 1 - vA s 1) +
      (pB s 2 - pA s 2) * (vB s 2 - vA s 2) = 0 := by
    intro s hs
    have hd : ∀ i, HasDerivWithinAt (fun s => pB s i - pA s i) (vB s i - vA s i) (Ici 0) s := fun i =>
      (hB.velB s hs i).sub (hB.velA s hs i)
    have h1 := (((hd 0).mul (hd 0)).add ((hd 1).mul (hd 1))).add ((hd 2).mul (hd 2))
    have h2 : HasDerivWithinAt (fun _ : ℝ => P.length ^ 2) 0 (Ici 0) s := hasDerivWithinAt_const _ _ _
    have h3 := h2.congr (f₁ := fun s => (pB s 0 - pA s 0) * (pB s 0 - pA s 0) + (pB s 1 - pA s 1) * (pB s 1 - pA s 1) +
      (pB s 2 - pA s 2) * (pB s 2 - pA s 2)) (fun r hr => by
        have := hB.rod r hr
        simp [dotProduct, Fin.sum_univ_three] at this
        exact this) (by
        have := hB.rod s hs
        simp [dotProduct, Fin.sum_univ_three] at this
        exact this)
    have := (uniqueDiffOn_Ici (0 : ℝ) s hs).eq_deriv _ h1 h3
    linarith
  have rod2 : (vB t 0 - vA t 0) ^ 2 + (vB t 1 - vA t 1) ^ 2 + (vB t 2 - vA t 2) ^ 2 +
      ((pB t 0 - pA t 0) * (aB 0 - aA 0) + (pB t 1 - pA t 1) * (aB 1 - aA 1) + (pB t 2 - pA t 2) * (aB 2 - aA 2)) = 0 := by
    have hv : ∀ i, HasDerivWithinAt (fun s => vB s i - vA s i) (aB i - aA i) (Ici 0) t := fun i => (hB' i).sub (hA' i)
    have h1 := (((hdp 0).mul (hv 0)).add ((hdp 1).mul (hv 1))).add ((hdp 2).mul (hv 2))
    have h2 : HasDerivWithinAt (fun _ : ℝ => (0 : ℝ)) 0 (Ici 0) t := hasDerivWithinAt_const _ _ _
    have h3 := h2.congr (f₁ := fun s => (pB s 0 - pA s 0) * (vB s 0 - vA s 0) + (pB s 1 - pA s 1) * (vB s 1 - vA s 1) +
      (pB s 2 - pA s 2) * (vB s 2 - vA s 2)) (fun r hr => rod1 r hr) (rod1 t ht)
    have := hU.eq_deriv _ h1 h3
    linarith
  have hup := hB.above t ht
  have hrod := hB.rod t ht
  simp [dotProduct, Fin.sum_univ_three] at hrod
  have hz : P.z (offBalance (pA t) (vA t) (pB t) (vB t)) = pB t 2 - pA t 2 := by
    unfold PoleDyn.z
    rw [← hrod, show (pB t 0 - pA t 0) * (pB t 0 - pA t 0) + (pB t 1 - pA t 1) * (pB t 1 - pA t 1) +
      (pB t 2 - pA t 2) * (pB t 2 - pA t 2) - offBalance (pA t) (vA t) (pB t) (vB t) 0 ^ 2 -
      offBalance (pA t) (vA t) (pB t) (vB t) 1 ^ 2 = (pB t 2 - pA t 2) ^ 2 by simp [offBalance]; ring]
    exact Real.sqrt_sq (by linarith)
  have hforce : P.lqrForce K (pB t) (vB t) (pA t) (vA t) =
      (-K) *ᵥ offBalance (pA t) (vA t) (pB t) (vB t) + P.uEq := rfl
  have nA0 := congrFun nA 0
  have nA1 := congrFun nA 1
  have nA2 := congrFun nA 2
  have nB0 := congrFun nB 0
  have nB1 := congrFun nB 1
  have nB2 := congrFun nB 2
  simp only [hforce] at nA0 nA1 nA2
  obtain ⟨u, hu⟩ : ∃ u, u = (-K) *ᵥ offBalance (pA t) (vA t) (pB t) (vB t) + P.uEq := ⟨_, rfl⟩
  rw [← hu] at nA0 nA1 nA2
  simp at nA0 nA1 nA2 nB0 nB1 nB2
  have hd := newton_poleF P hm he (x := offBalance (pA t) (vA t) (pB t) (vB t)) (u := u)
    (d := ![vB t 0 - vA t 0, vB t 1 - vA t 1, aA 0, aA 1, aA 2, aB 0 - aA 0, aB 1 - aA 1]) (vz := vB t 2 - vA t 2)
    (az := aB 2 - aA 2) (T := T) (by rw [hz]; linarith) (by rw [hz, ← hrod]; simp [offBalance]; ring)
    (by simp [offBalance]) (by simp [offBalance]) (by rw [hz]; simp [offBalance]; linarith [rod1 t ht])
    (by rw [hz]; simp [offBalance]; linarith) (by simp [offBalance]; linarith) (by simp [offBalance]; linarith)
    (by rw [hz]; simp; linarith) (by simp [offBalance]; linarith) (by simp [offBalance]; linarith)
    (by rw [hz]; simp; linarith)
  intro i
  simp only []
  rw [← hu, ← hd]
  fin_cases i
  · exact hdp 0
  · exact hdp 1
  · exact hA' 0
  · exact hA' 1
  · exact hA' 2
  · exact (hB' 0).sub (hA' 0)
  · exact (hB' 1).sub (hA' 1)

/-- The costs of the simulation are positive definite: `C127_balance` covers its controller. -/
theorem C127_costs : simPoleQ.PosDef ∧ simPoleR.PosDef := by
  refine ⟨PosDef.diagonal fun i => ?_, PosDef.one⟩
  fin_cases i <;> simp

end NNL.Props
