import Verif.Props.LqrCost
import Mathlib.Algebra.Order.Star.Real

/-!
# C122: instances

Parameters for which the Riccati equations of the examples have simple solutions: the hypotheses of the theorems of C122 are
met.
-/

namespace NNL.Props

open Matrix Set NNL.Spec NNL.Model NNL.Lemmas Topology Filter

variable {n p : ℕ}

/-- A routine which returns a positive definite solution whenever there is one. -/
noncomputable def exCare (n p : ℕ) : Care n p := fun A B Q R =>
  open Classical in if h : ∃ S, Riccati A B Q R S ∧ S.PosDef then some h.choose else none

theorem exCare_solver (n p : ℕ) : RiccatiSolver (exCare n p) := by
  intro A B Q R S _ _ h
  unfold exCare at h
  split at h
  · rename_i hex
    obtain rfl := Option.some.inj h
    exact hex.choose_spec
  · exact absurd h (by simp)

theorem exCare_eq {A : Matrix (Fin n) (Fin n) ℝ} {B : Matrix (Fin n) (Fin p) ℝ} {Q : Matrix (Fin n) (Fin n) ℝ}
    {R : Matrix (Fin p) (Fin p) ℝ} {S : Matrix (Fin n) (Fin n) ℝ} (hQ : Q.PosDef) (hR : R.PosDef)
    (h : Riccati A B Q R S) (hS : S.PosDef) : exCare n p A B Q R = some S := by
  have hex : ∃ S, Riccati A B Q R S ∧ S.PosDef := ⟨S, h, hS⟩
  unfold exCare
  rw [dif_pos hex]
  exact congrArg some (C122_unique hQ hR hex.choose_spec.2 hS hex.choose_spec.1 h)

/-- A way to check a Riccati equation. -/
theorem riccati_of {A : Matrix (Fin n) (Fin n) ℝ} {B : Matrix (Fin n) (Fin p) ℝ} {Q : Matrix (Fin n) (Fin n) ℝ}
    {R : Matrix (Fin p) (Fin p) ℝ} {S : Matrix (Fin n) (Fin n) ℝ} (hS : Sᵀ = S) {M : Matrix (Fin n) (Fin n) ℝ}
    {N : Matrix (Fin n) (Fin p) ℝ} {Ri : Matrix (Fin p) (Fin p) ℝ} (hRi : R * Ri = 1) (hM : S * A = M) (hN : S * B = N)
    (h : ∀ i j, M j i + M i j - ∑ k, (∑ l, N i l * Ri l k) * N j k + Q i j = 0) : Riccati A B Q R S := by
  have h1 : R⁻¹ = Ri := Matrix.inv_eq_right_inv hRi
  have h2 : Aᵀ * S = Mᵀ := by rw [← hM, Matrix.transpose_mul, hS]
  have h3 : S * B * R⁻¹ * Bᵀ * S = N * Ri * Nᵀ := by
    rw [h1, Matrix.mul_assoc _ Bᵀ S, hN, ← hN, Matrix.transpose_mul, hS]
  unfold Riccati
  rw [h2, hM, h3]
  ext i j
  simpa [Matrix.mul_apply] using h i j

/-- A pendulum, and its gain `-(3, 3)`. -/
example : ∃ K, (⟨1, 1, 1, 0⟩ : Pendulum).lqrControl (exCare 2 1) !![3, 0; 0, 3] 1 = some K ∧ K = !![-3, -3] ∧
    LocallyExpStable (⟨1, 1, 1, 0⟩ : Pendulum).dyn (fun x => K *ᵥ (x - ![Real.pi, 0])) ![Real.pi, 0] := by
  have hQ : (!![3, 0; 0, 3] : Matrix (Fin 2) (Fin 2) ℝ).PosDef := posDef_two (by norm_num) (by norm_num)
  have hS : (!![6, 3; 3, 3] : Matrix (Fin 2) (Fin 2) ℝ).PosDef := posDef_two (by norm_num) (by norm_num)
  have hric : Riccati ((⟨1, 1, 1, 0⟩ : Pendulum).grad ![Real.pi, 0]).1 ((⟨1, 1, 1, 0⟩ : Pendulum).grad ![Real.pi, 0]).2
      !![3, 0; 0, 3] 1 !![6, 3; 3, 3] := by
    refine riccati_of (posDef_transpose hS) (Ri := 1) (M := !![3, 6; 3, 3]) (N := !![3; 3]) (by simp) ?_ ?_ fun i j => ?_
    · ext i j
      fin_cases i <;> fin_cases j <;> simp [Pendulum.grad]
    · ext i j
      fin_cases i <;> fin_cases j <;> simp [Pendulum.grad]
    · fin_cases i <;> fin_cases j <;> simp <;> norm_num
  have hc := exCare_eq hQ PosDef.one hric hS
  have hK : (⟨1, 1, 1, 0⟩ : Pendulum).lqrControl (exCare 2 1) !![3, 0; 0, 3] 1 = some !![-3, -3] := by
    unfold Pendulum.lqrControl
    simp only [hc, Option.bind_some, npSolve_posDef PosDef.one, Option.map_some]
    refine congrArg some ?_
    ext i j
    fin_cases i
    fin_cases j <;> simp [Pendulum.grad, Matrix.mul_apply, Fin.sum_univ_two]
  exact ⟨_, hK, rfl, (C122_pendulum _ (by norm_num) (by norm_num) (exCare_solver 2 1) hQ PosDef.one hK).1⟩

theorem chain_pos {a b c d : ℝ} (h : ¬(a = 0 ∧ b = 0 ∧ c = 0 ∧ d = 0)) :
    0 < 4 * (a + 3 / 2 * b + c + 1 / 4 * d) ^ 2 + 11 * (b + 9 / 11 * c + 5 / 22 * d) ^ 2 +
      95 / 11 * (c + 13 / 38 * d) ^ 2 + 165 / 76 * d ^ 2 := by
  by_contra hn
  have h1 := sq_nonneg (a + 3 / 2 * b + c + 1 / 4 * d)
  have h2 := sq_nonneg (b + 9 / 11 * c + 5 / 22 * d)
  have h3 := sq_nonneg (c + 13 / 38 * d)
  have h4 := sq_nonneg d
  have e4 : d = 0 := by apply pow_eq_zero_iff two_ne_zero |>.1; linarith
  subst e4
  have e3 : c = 0 := by apply pow_eq_zero_iff two_ne_zero |>.1; nlinarith
  subst e3
  have e2 : b = 0 := by apply pow_eq_zero_iff two_ne_zero |>.1; nlinarith
  subst e2
  have e1 : a = 0 := by apply pow_eq_zero_iff two_ne_zero |>.1; nlinarith
  exact h ⟨e1, rfl, rfl, rfl⟩

theorem pair_pos {a b : ℝ} (h : ¬(a = 0 ∧ b = 0)) : 0 < 2 * a ^ 2 + 2 * a * b + 2 * b ^ 2 := by
  by_contra hn
  have h1 := sq_nonneg (a + b)
  have h2 := sq_nonneg a
  have h3 := sq_nonneg b
  have e1 : a = 0 := by apply pow_eq_zero_iff two_ne_zero |>.1; nlinarith
  have e2 : b = 0 := by apply pow_eq_zero_iff two_ne_zero |>.1; nlinarith
  exact h ⟨e1, e2⟩

theorem chain_pair_pos {a b c d e f : ℝ} (h : ¬(a = 0 ∧ b = 0 ∧ c = 0 ∧ d = 0 ∧ e = 0 ∧ f = 0)) :
    0 < 4 * (a + 3 / 2 * b + c + 1 / 4 * d) ^ 2 + 11 * (b + 9 / 11 * c + 5 / 22 * d) ^ 2 +
      95 / 11 * (c + 13 / 38 * d) ^ 2 + 165 / 76 * d ^ 2 + (2 * e ^ 2 + 2 * e * f + 2 * f ^ 2) := by
  by_cases h1 : a = 0 ∧ b = 0 ∧ c = 0 ∧ d = 0
  · obtain ⟨rfl, rfl, rfl, rfl⟩ := h1
    have := pair_pos (a := e) (b := f) fun ⟨h2, h3⟩ => h ⟨rfl, rfl, rfl, rfl, h2, h3⟩
    simpa using this
  · have h2 := chain_pos h1
    have h3 : 0 ≤ 2 * e ^ 2 + 2 * e * f + 2 * f ^ 2 := by nlinarith [sq_nonneg (e + f), sq_nonneg e, sq_nonneg f]
    linarith

set_option maxHeartbeats 1000000 in
/-- The planar quadrotor of unit parameters. -/
example : ∃ K S, (⟨1, 1, 1, 1⟩ : Planar).lqrControl (exCare 6 2) (diagonal ![1, 1, 6, 4, 2, 4]) (diagonal ![2, 2])
      ![0, 0, 0, 0, 0, 0] (⟨1, 1, 1, 1⟩ : Planar).quadHover = some (K, S) ∧
    lqrV S 0 ![1, 0, 0, 0, 0, 0] = 4 ∧
    LocallyExpStable (⟨1, 1, 1, 1⟩ : Planar).quadDyn
      (lqrU K ![0, 0, 0, 0, 0, 0] (⟨1, 1, 1, 1⟩ : Planar).quadHover) ![0, 0, 0, 0, 0, 0] := by
  have hQ : (diagonal ![1, 1, 6, 4, 2, 4] : Matrix (Fin 6) (Fin 6) ℝ).PosDef := by
    refine PosDef.diagonal fun i => ?_
    fin_cases i <;> simp
  have hR : (diagonal ![2, 2] : Matrix (Fin 2) (Fin 2) ℝ).PosDef := by
    refine PosDef.diagonal fun i => ?_
    fin_cases i <;> simp
  let S : Matrix (Fin 6) (Fin 6) ℝ := !![4, 0, -4, 6, 0, -1; 0, 2, 0, 0, 1, 0; -4, 0, 20, -15, 0, 6; 6, 0, -15, 20, 0, -4;
    0, 1, 0, 0, 2, 0; -1, 0, 6, -4, 0, 4]
  have hS : S.PosDef := by
    refine PosDef.of_dotProduct_mulVec_pos ?_ fun x hx => ?_
    · ext i j
      fin_cases i <;> fin_cases j <;> rfl
    · have e := chain_pair_pos (a := -x 0) (b := -x 3) (c := x 2) (d := x 5) (e := x 1) (f := x 4) fun h => hx (by
        obtain ⟨h0, h3, h2, h5, h1, h4⟩ := h
        ext i
        fin_cases i <;> simp_all)
      refine lt_of_lt_of_eq e ?_
      simp [S, Matrix.mulVec, dotProduct, Fin.sum_univ_succ]
      ring
  have hric : Riccati ((⟨1, 1, 1, 1⟩ : Planar).quadGrad ![0, 0, 0, 0, 0, 0] (⟨1, 1, 1, 1⟩ : Planar).quadHover).1
      ((⟨1, 1, 1, 1⟩ : Planar).quadGrad ![0, 0, 0, 0, 0, 0] (⟨1, 1, 1, 1⟩ : Planar).quadHover).2
      (diagonal ![1, 1, 6, 4, 2, 4]) (diagonal ![2, 2]) S := by
    have hA : ((⟨1, 1, 1, 1⟩ : Planar).quadGrad ![0, 0, 0, 0, 0, 0] (⟨1, 1, 1, 1⟩ : Planar).quadHover).1 =
        !![0, 0, 0, 1, 0, 0; 0, 0, 0, 0, 1, 0; 0, 0, 0, 0, 0, 1; 0, 0, -1, 0, 0, 0; 0, 0, 0, 0, 0, 0; 0, 0, 0, 0, 0, 0] := by
      simp [Planar.quadGrad, Planar.quadHover]
      norm_num
    have hB : ((⟨1, 1, 1, 1⟩ : Planar).quadGrad ![0, 0, 0, 0, 0, 0] (⟨1, 1, 1, 1⟩ : Planar).quadHover).2 =
        !![0, 0; 0, 0; 0, 0; 0, 0; 1, 1; 1, -1] := by
      simp [Planar.quadGrad]
    rw [hA, hB]
    refine riccati_of (posDef_transpose hS) (Ri := diagonal ![1 / 2, 1 / 2])
      (M := !![0, 0, -6, 4, 0, -4; 0, 0, 0, 0, 2, 0; 0, 0, 15, -4, 0, 20; 0, 0, -20, 6, 0, -15; 0, 0, 0, 0, 1, 0;
        0, 0, 4, -1, 0, 6]) (N := !![-1, 1; 1, 1; 6, -6; -4, 4; 2, 2; 4, -4]) ?_ ?_ ?_ fun i j => ?_
    · ext i j
      fin_cases i <;> fin_cases j <;> simp [Matrix.mul_apply, Matrix.diagonal]
    · ext i j
      fin_cases i <;> fin_cases j <;> simp [S, Matrix.mul_apply, Fin.sum_univ_succ]
    · ext i j
      fin_cases i <;> fin_cases j <;> simp [S, Matrix.mul_apply, Fin.sum_univ_succ]
    · fin_cases i <;> fin_cases j <;> simp [Fin.sum_univ_two, Matrix.diagonal] <;> norm_num
  have hc := exCare_eq hQ hR hric hS
  have hK : ∃ K, (⟨1, 1, 1, 1⟩ : Planar).lqrControl (exCare 6 2) (diagonal ![1, 1, 6, 4, 2, 4]) (diagonal ![2, 2])
      ![0, 0, 0, 0, 0, 0] (⟨1, 1, 1, 1⟩ : Planar).quadHover = some (K, S) := by
    unfold Planar.lqrControl
    simp only [hc, Option.bind_some, npSolve_posDef hR, Option.map_some]
    exact ⟨_, rfl⟩
  obtain ⟨K, hK⟩ := hK
  exact ⟨K, S, hK, by simp [lqrV, S, Matrix.mulVec, dotProduct, Fin.sum_univ_succ],
    C122_quadrotor2d _ (by norm_num) (exCare_solver 6 2) hQ hR 0 0 hK⟩

set_option maxHeartbeats 1000000 in
/-- A rocket. -/
example : ∃ K S, (⟨2, 1, 1, 1⟩ : Planar).rocketLqr (exCare 6 2)
      !![1, 0, -1, 0, 0, 0; 0, 1, 0, 0, 0, 0; -1, 0, 7, 0, 0, 0; 0, 0, 0, 4, 0, -4; 0, 0, 0, 0, 2, 0; 0, 0, 0, -4, 0, 8]
      1 = some (K, S) ∧ LocallyExpStable (⟨2, 1, 1, 1⟩ : Planar).rocketDyn (lqrU K 0 ![0, 1]) 0 := by
  let Q : Matrix (Fin 6) (Fin 6) ℝ :=
    !![1, 0, -1, 0, 0, 0; 0, 1, 0, 0, 0, 0; -1, 0, 7, 0, 0, 0; 0, 0, 0, 4, 0, -4; 0, 0, 0, 0, 2, 0; 0, 0, 0, -4, 0, 8]
  have hQ : Q.PosDef := by
    refine PosDef.of_dotProduct_mulVec_pos ?_ fun x hx => ?_
    · ext i j
      fin_cases i <;> fin_cases j <;> rfl
    · have e : star x ⬝ᵥ Q *ᵥ x = (x 0 - x 2) ^ 2 + 6 * x 2 ^ 2 + x 1 ^ 2 + 2 * x 4 ^ 2 + 4 * (x 3 - x 5) ^ 2 + 4 * x 5 ^ 2 := by
        simp [Q, Matrix.mulVec, dotProduct, Fin.sum_univ_succ]
        ring
      rw [e]
      by_contra hn
      have h0 := sq_nonneg (x 0 - x 2)
      have h1 := sq_nonneg (x 1)
      have h2 := sq_nonneg (x 2)
      have h3 := sq_nonneg (x 3 - x 5)
      have h4 := sq_nonneg (x 4)
      have h5 := sq_nonneg (x 5)
      have e2 : x 2 = 0 := by apply pow_eq_zero_iff two_ne_zero |>.1; linarith
      have e5 : x 5 = 0 := by apply pow_eq_zero_iff two_ne_zero |>.1; linarith
      have e1 : x 1 = 0 := by apply pow_eq_zero_iff two_ne_zero |>.1; linarith
      have e4 : x 4 = 0 := by apply pow_eq_zero_iff two_ne_zero |>.1; linarith
      have e0 : x 0 - x 2 = 0 := by apply pow_eq_zero_iff two_ne_zero |>.1; linarith
      have e3 : x 3 - x 5 = 0 := by apply pow_eq_zero_iff two_ne_zero |>.1; linarith
      exact hx (by ext i; fin_cases i <;> simp_all)
  let S : Matrix (Fin 6) (Fin 6) ℝ := !![4, 0, -8, 6, 0, -7; 0, 2, 0, 0, 1, 0; -8, 0, 32, -21, 0, 28; 6, 0, -21, 20, 0, -24;
    0, 1, 0, 0, 2, 0; -7, 0, 28, -24, 0, 32]
  have hS : S.PosDef := by
    refine PosDef.of_dotProduct_mulVec_pos ?_ fun x hx => ?_
    · ext i j
      fin_cases i <;> fin_cases j <;> rfl
    · have e := chain_pair_pos (a := -x 0 + x 2) (b := -x 3 + x 5) (c := x 2) (d := x 5) (e := x 1) (f := x 4) fun h => hx (by
        obtain ⟨h0, h3, h2, h5, h1, h4⟩ := h
        ext i
        fin_cases i <;> simp_all)
      refine lt_of_lt_of_eq e ?_
      simp [S, Matrix.mulVec, dotProduct, Fin.sum_univ_succ]
      ring
  have hric : Riccati ((⟨2, 1, 1, 1⟩ : Planar).rocketGrad 0 ![0, (⟨2, 1, 1, 1⟩ : Planar).hoverThrust]).1
      ((⟨2, 1, 1, 1⟩ : Planar).rocketGrad 0 ![0, (⟨2, 1, 1, 1⟩ : Planar).hoverThrust]).2 Q 1 S := by
    have hA : ((⟨2, 1, 1, 1⟩ : Planar).rocketGrad 0 ![0, (⟨2, 1, 1, 1⟩ : Planar).hoverThrust]).1 =
        !![0, 0, 0, 1, 0, 0; 0, 0, 0, 0, 1, 0; 0, 0, 0, 0, 0, 1; 0, 0, -1, 0, 0, 0; 0, 0, 0, 0, 0, 0; 0, 0, 0, 0, 0, 0] := by
      simp [Planar.rocketGrad, Planar.hoverThrust]
    have hB : ((⟨2, 1, 1, 1⟩ : Planar).rocketGrad 0 ![0, (⟨2, 1, 1, 1⟩ : Planar).hoverThrust]).2 =
        !![0, 0; 0, 0; 0, 0; 1, 0; 0, 1; 1, 0] := by
      simp [Planar.rocketGrad]
    rw [hA, hB]
    refine riccati_of (posDef_transpose hS) (Ri := 1)
      (M := !![0, 0, -6, 4, 0, -8; 0, 0, 0, 0, 2, 0; 0, 0, 21, -8, 0, 32; 0, 0, -20, 6, 0, -21; 0, 0, 0, 0, 1, 0;
        0, 0, 24, -7, 0, 28]) (N := !![-1, 0; 0, 1; 7, 0; -4, 0; 0, 2; 8, 0]) (by simp) ?_ ?_ fun i j => ?_
    · ext i j
      fin_cases i <;> fin_cases j <;> simp [S, Matrix.mul_apply, Fin.sum_univ_succ]
    · ext i j
      fin_cases i <;> fin_cases j <;> simp [S, Matrix.mul_apply, Fin.sum_univ_succ] <;> norm_num
    · fin_cases i <;> fin_cases j <;> simp [Q, Fin.sum_univ_two, Matrix.one_apply] <;> norm_num
  have hc := exCare_eq hQ PosDef.one hric hS
  have hK : ∃ K, (⟨2, 1, 1, 1⟩ : Planar).rocketLqr (exCare 6 2) Q 1 = some (K, S) := by
    unfold Planar.rocketLqr
    simp only [hc, Option.bind_some, npSolve_posDef PosDef.one, Option.map_some]
    exact ⟨_, rfl⟩
  obtain ⟨K, hK⟩ := hK
  have h := C122_rocket _ (by norm_num) (exCare_solver 6 2) hQ PosDef.one hK
  refine ⟨K, S, hK, ?_⟩
  simpa [Planar.hoverThrust] using h

/-- The double integrator with unit costs. -/
example : ∃ K P, doubleIntegratorLqr 1 1 = some (K, P) ∧ P.PosDef := by
  obtain ⟨K, P, h, hP, -⟩ := C122_double_integrator PosDef.one one_pos
  exact ⟨K, P, h, hP⟩

/-- A simulation which stays at the upright state. -/
example : costsToGo ([0, 1].map fun t : ℝ => (fun _ : ℝ => (![Real.pi, 0, 0] : Fin 3 → ℝ)) t 2) = [0, 0] := by
  have hM : Motion ((⟨1, 1, 1, 0⟩ : Pendulum).stateCostDot 1 1) (fun _ => ![Real.pi, 0, 0]) (fun _ => 0) := by
    intro t _ i
    fin_cases i <;> simp [Pendulum.stateCostDot, Pendulum.dyn] <;> exact hasDerivWithinAt_const _ _ _
  rw [(C122_dataset ⟨1, 1, 1, 0⟩ PosDef.one PosDef.one (X := fun _ => ![Real.pi, 0]) (by simp) hM [0, 1] (by simp)
    (by simp)).2]
  simp [runningCost]

/-- Three samples. -/
example : costsToGo [0, 2, 5] = [5, 3, 0] := by
  rw [C122_costs _ (by simp)]
  simp
  norm_num

end NNL.Props
