import Verif.Spec.Jacobian
import Mathlib.Analysis.Calculus.FDeriv.Mul
import Mathlib.Analysis.SpecialFunctions.Trigonometric.Deriv

/-! Rules for Jacobians. -/

namespace NNL

open NNL.Spec

theorem jac_of {m n : ℕ} {f : (Fin n → ℝ) → Fin m → ℝ} {A : Matrix (Fin m) (Fin n) ℝ} {x : Fin n → ℝ}
    (h : ∀ i, ∃ L : (Fin n → ℝ) →L[ℝ] ℝ, HasFDerivAt (fun y => f y i) L x ∧ ∀ v, L v = ∑ j, A i j * v j) :
    IsJacobian f A x := by
  unfold IsJacobian
  rw [hasFDerivAt_pi']
  intro i
  obtain ⟨L, h1, h2⟩ := h i
  refine h1.congr_fderiv ?_
  ext v
  simp [h2, Matrix.mulVec, dotProduct]

theorem jc {n : ℕ} (i : Fin n) (x : Fin n → ℝ) :
    HasFDerivAt (fun y : Fin n → ℝ => y i) (ContinuousLinearMap.proj (R := ℝ) i) x := hasFDerivAt_apply i x

theorem jdiv {n : ℕ} {f : (Fin n → ℝ) → ℝ} {L : (Fin n → ℝ) →L[ℝ] ℝ} {x : Fin n → ℝ} (h : HasFDerivAt f L x) (c : ℝ) :
    HasFDerivAt (fun y => f y / c) (c⁻¹ • L) x := by
  simp only [div_eq_inv_mul]
  exact h.const_mul c⁻¹

theorem jconst {n : ℕ} (c : ℝ) (x : Fin n → ℝ) : HasFDerivAt (fun _ : Fin n → ℝ => c) (0 : (Fin n → ℝ) →L[ℝ] ℝ) x :=
  hasFDerivAt_const c x

end NNL
