import Verif.Model.Geometry
import Verif.Spec.Geometry
import Mathlib.LinearAlgebra.Matrix.Determinant.Basic
import Mathlib.LinearAlgebra.UnitaryGroup
import Mathlib.Analysis.SpecialFunctions.Trigonometric.Deriv

/-!
# Rotation matrices: C53
-/

namespace NNL.Props

open NNL.Spec NNL.Model Real Matrix

/-- C53. The two branches return the same matrix. -/
theorem C53_branches (r p y : ℝ) : rpy2rotmatTorch r p y = rpy2rotmatNp r p y := by
  have h1 : torchRoll r = !![1, 0, 0; 0, cos r, -sin r; 0, sin r, cos r] := by
    ext i j; fin_cases i <;> fin_cases j <;> simp [torchRoll, setEntry]
  have h2 : torchPitch p = !![cos p, 0, sin p; 0, 1, 0; -sin p, 0, cos p] := by
    ext i j; fin_cases i <;> fin_cases j <;> simp [torchPitch, setEntry]
  have h3 : torchYaw y = !![cos y, -sin y, 0; sin y, cos y, 0; 0, 0, 1] := by
    ext i j; fin_cases i <;> fin_cases j <;> simp [torchYaw, setEntry]
  simp [rpy2rotmatTorch, rpy2rotmatNp, h1, h2, h3]

/-- C53. The two branches of the gradient return the same matrices. -/
theorem C53_gradient_branches (r p y : ℝ) : rpyGradTorch r p y = rpyGradNp r p y := by
  have h1 : torchRoll r = !![1, 0, 0; 0, cos r, -sin r; 0, sin r, cos r] := by
    ext i j; fin_cases i <;> fin_cases j <;> simp [torchRoll, setEntry]
  have h2 : torchPitch p = !![cos p, 0, sin p; 0, 1, 0; -sin p, 0, cos p] := by
    ext i j; fin_cases i <;> fin_cases j <;> simp [torchPitch, setEntry]
  have h3 : torchYaw y = !![cos y, -sin y, 0; sin y, cos y, 0; 0, 0, 1] := by
    ext i j; fin_cases i <;> fin_cases j <;> simp [torchYaw, setEntry]
  have d1 : torchDRoll r = !![0, 0, 0; 0, -sin r, -cos r; 0, cos r, -sin r] := by
    ext i j; fin_cases i <;> fin_cases j <;> simp [torchDRoll, setEntry]
  have d2 : torchDPitch p = !![-sin p, 0, cos p; 0, 0, 0; -cos p, 0, -sin p] := by
    ext i j; fin_cases i <;> fin_cases j <;> simp [torchDPitch, setEntry]
  have d3 : torchDYaw y = !![-sin y, -cos y, 0; cos y, -sin y, 0; 0, 0, 0] := by
    ext i j; fin_cases i <;> fin_cases j <;> simp [torchDYaw, setEntry]
  simp [rpyGradTorch, rpyGradNp, h1, h2, h3, d1, d2, d3]

/-- C53. Multiplying by the matrix is turning by roll about the first axis, then by pitch about the second, then by
yaw about the third. -/
theorem C53_turns (r p y : ℝ) (v : Fin 3 → ℝ) :
    rpy2rotmatNp r p y *ᵥ v = turn ![0, 0, 1] y (turn ![0, 1, 0] p (turn ![1, 0, 0] r v)) := by
  rw [rpy2rotmatNp, ← Matrix.mulVec_mulVec, ← Matrix.mulVec_mulVec]
  have h1 : ∀ v : Fin 3 → ℝ, !![1, 0, 0; 0, cos r, -sin r; 0, sin r, cos r] *ᵥ v = turn ![1, 0, 0] r v := by
    intro v
    ext i
    fin_cases i <;> simp [turn, Matrix.mulVec, dotProduct, Fin.sum_univ_three, crossProduct, vecHead, vecTail] <;> ring
  have h2 : ∀ v : Fin 3 → ℝ, !![cos p, 0, sin p; 0, 1, 0; -sin p, 0, cos p] *ᵥ v = turn ![0, 1, 0] p v := by
    intro v
    ext i
    fin_cases i <;> simp [turn, Matrix.mulVec, dotProduct, Fin.sum_univ_three, crossProduct, vecHead, vecTail] <;> ring
  have h3 : ∀ v : Fin 3 → ℝ, !![cos y, -sin y, 0; sin y, cos y, 0; 0, 0, 1] *ᵥ v = turn ![0, 0, 1] y v := by
    intro v
    ext i
    fin_cases i <;> simp [turn, Matrix.mulVec, dotProduct, Fin.sum_univ_three, crossProduct, vecHead, vecTail] <;> ring
  rw [h1, h2, h3]

/-- C53. The matrix is a rotation: orthogonal with determinant 1. -/
theorem C53_rotation (r p y : ℝ) :
    rpy2rotmatNp r p y ∈ Matrix.specialOrthogonalGroup (Fin 3) ℝ := by
  have s1 := sin_sq_add_cos_sq r
  have s2 := sin_sq_add_cos_sq p
  have s3 := sin_sq_add_cos_sq y
  have m : ∀ A : Mat3, A * Aᵀ = 1 → A.det = 1 → A ∈ Matrix.specialOrthogonalGroup (Fin 3) ℝ := by
    intro A h1 h2
    rw [Matrix.mem_specialOrthogonalGroup_iff]
    exact ⟨(Matrix.mem_orthogonalGroup_iff _ _).2 h1, h2⟩
  refine mul_mem (mul_mem (m _ ?_ ?_) (m _ ?_ ?_)) (m _ ?_ ?_)
  all_goals first
    | (simp [Matrix.det_fin_three]; nlinarith)
    | (ext i j; fin_cases i <;> fin_cases j <;>
        simp [Matrix.mul_apply, Fin.sum_univ_three] <;> nlinarith)

theorem deriv_prod {A B C : ℝ → Mat3} {A' B' C' : Mat3} {t : ℝ}
    (hA : ∀ i j, HasDerivAt (fun t => A t i j) (A' i j) t) (hB : ∀ i j, HasDerivAt (fun t => B t i j) (B' i j) t)
    (hC : ∀ i j, HasDerivAt (fun t => C t i j) (C' i j) t) (i j : Fin 3) :
    HasDerivAt (fun t => (A t * B t * C t) i j) ((A' * B t * C t + A t * B' * C t + A t * B t * C') i j) t := by
  simp only [Matrix.mul_apply, Matrix.add_apply, Fin.sum_univ_three]
  have h : ∀ k, HasDerivAt (fun t => (A t i 0 * B t 0 k + A t i 1 * B t 1 k + A t i 2 * B t 2 k) * C t k j)
      ((A' i 0 * B t 0 k + A t i 0 * B' 0 k + (A' i 1 * B t 1 k + A t i 1 * B' 1 k) +
        (A' i 2 * B t 2 k + A t i 2 * B' 2 k)) * C t k j +
        (A t i 0 * B t 0 k + A t i 1 * B t 1 k + A t i 2 * B t 2 k) * C' k j) t := fun k =>
    ((((hA i 0).mul (hB 0 k)).add ((hA i 1).mul (hB 1 k))).add ((hA i 2).mul (hB 2 k))).mul (hC k j)
  exact (((h 0).add (h 1)).add (h 2)).congr_deriv (by ring)

theorem deriv_const3 (A : Mat3) (t : ℝ) (i j : Fin 3) : HasDerivAt (fun _ : ℝ => A i j) ((0 : Mat3) i j) t :=
  hasDerivAt_const t _

/-- C53. The gradient holds the partial derivatives. -/
theorem C53_gradient (r p y : ℝ) (i j : Fin 3) :
    HasDerivAt (fun r => rpy2rotmatNp r p y i j) ((rpyGradNp r p y).1 i j) r ∧
      HasDerivAt (fun p => rpy2rotmatNp r p y i j) ((rpyGradNp r p y).2.1 i j) p ∧
      HasDerivAt (fun y => rpy2rotmatNp r p y i j) ((rpyGradNp r p y).2.2 i j) y := by
  have z : ∀ t, HasDerivAt (fun _ : ℝ => (0 : ℝ)) 0 t := fun t => hasDerivAt_const t _
  have o : ∀ t, HasDerivAt (fun _ : ℝ => (1 : ℝ)) 0 t := fun t => hasDerivAt_const t _
  have c := Real.hasDerivAt_cos
  have s := Real.hasDerivAt_sin
  have n : ∀ t, HasDerivAt (fun t => -sin t) (-cos t) t := fun t => (s t).neg
  refine ⟨?_, ?_, ?_⟩
  · have := deriv_prod (A := fun _ => !![cos y, -sin y, 0; sin y, cos y, 0; 0, 0, 1])
      (B := fun _ => !![cos p, 0, sin p; 0, 1, 0; -sin p, 0, cos p])
      (C := fun r => !![1, 0, 0; 0, cos r, -sin r; 0, sin r, cos r])
      (C' := !![0, 0, 0; 0, -sin r, -cos r; 0, cos r, -sin r])
      (fun i j => deriv_const3 _ r i j) (fun i j => deriv_const3 _ r i j)
      (by intro i j; fin_cases i <;> fin_cases j <;> simp [z, o, c, s, n]) i j
    simpa [rpy2rotmatNp, rpyGradNp] using this
  · have := deriv_prod (A := fun _ => !![cos y, -sin y, 0; sin y, cos y, 0; 0, 0, 1])
      (B := fun p => !![cos p, 0, sin p; 0, 1, 0; -sin p, 0, cos p])
      (C := fun _ => !![1, 0, 0; 0, cos r, -sin r; 0, sin r, cos r])
      (B' := !![-sin p, 0, cos p; 0, 0, 0; -cos p, 0, -sin p])
      (fun i j => deriv_const3 _ p i j)
      (by intro i j; fin_cases i <;> fin_cases j <;> simp [z, o, c, s, n])
      (fun i j => deriv_const3 _ p i j) i j
    simpa [rpy2rotmatNp, rpyGradNp] using this
  · have := deriv_prod (A := fun y => !![cos y, -sin y, 0; sin y, cos y, 0; 0, 0, 1])
      (B := fun _ => !![cos p, 0, sin p; 0, 1, 0; -sin p, 0, cos p])
      (C := fun _ => !![1, 0, 0; 0, cos r, -sin r; 0, sin r, cos r])
      (A' := !![-sin y, -cos y, 0; cos y, -sin y, 0; 0, 0, 0])
      (by intro i j; fin_cases i <;> fin_cases j <;> simp [z, o, c, s, n])
      (fun i j => deriv_const3 _ y i j) (fun i j => deriv_const3 _ y i j) i j
    simpa [rpy2rotmatNp, rpyGradNp] using this

/-- A quarter turn of yaw takes the first axis to the second. -/
example : rpy2rotmatNp 0 0 (π / 2) *ᵥ ![1, 0, 0] = ![0, 1, 0] := by
  ext i
  fin_cases i <;> simp [rpy2rotmatNp, Matrix.mulVec, dotProduct, Fin.sum_univ_three]

end NNL.Props
