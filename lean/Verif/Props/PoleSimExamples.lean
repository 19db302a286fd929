import Verif.Props.PoleSim
import Verif.Props.LqrExamples

/-!
# C127: an instance
-/

namespace NNL.Props

open Matrix Set NNL.Spec NNL.Model NNL.Lemmas

/-- A routine which returns the gain whenever the Riccati equation has a positive definite solution. -/
noncomputable def exDrakeLqr : DrakeLqr 7 3 := fun A B Q R => (exCare 7 3 A B Q R).map fun S => (R⁻¹ * (Bᵀ * S), S)

theorem exDrakeLqr_routine : LqrRoutine exDrakeLqr := by
  intro A B Q R K S hQ hR h
  obtain ⟨S', hS', hKS⟩ := Option.map_eq_some_iff.1 h
  obtain ⟨rfl, rfl⟩ := Prod.mk.inj hKS
  obtain ⟨h1, h2⟩ := exCare_solver 7 3 _ _ _ _ _ hQ hR hS'
  refine ⟨h1, h2, ?_⟩
  rw [← Matrix.mul_assoc, Matrix.mul_nonsing_inv _ (isUnit_iff_ne_zero.2 hR.det_pos.ne'), Matrix.one_mul]

theorem triple_pos {p w v : ℝ} (h : ¬(p = 0 ∧ w = 0 ∧ v = 0)) :
    0 < 15 * p ^ 2 + 4 * w ^ 2 + 10 * v ^ 2 + 10 * p * w + 22 * p * v + 10 * w * v := by
  have e : 15 * p ^ 2 + 4 * w ^ 2 + 10 * v ^ 2 + 10 * p * w + 22 * p * v + 10 * w * v =
      4 * (w + 5 / 4 * p + 5 / 4 * v) ^ 2 + 35 / 4 * (p + 19 / 35 * v) ^ 2 + 41 / 35 * v ^ 2 := by ring
  rw [e]
  by_contra hn
  have h1 := sq_nonneg (w + 5 / 4 * p + 5 / 4 * v)
  have h2 := sq_nonneg (p + 19 / 35 * v)
  have h3 := sq_nonneg v
  have e3 : v = 0 := by apply pow_eq_zero_iff two_ne_zero |>.1; linarith
  subst e3
  have e2 : p = 0 := by apply pow_eq_zero_iff two_ne_zero |>.1; linarith
  subst e2
  have e1 : w = 0 := by apply pow_eq_zero_iff two_ne_zero |>.1; linarith
  exact h ⟨rfl, e1, rfl⟩

/-- The pole of unit parameters. -/
noncomputable def unitPole : PoleDyn := ⟨1, 1, 1, 1⟩

/-- The solution of its Riccati equation. -/
def unitPoleS : Matrix (Fin 7) (Fin 7) ℝ := !![15, 0, 5, 0, 0, 11, 0; 0, 15, 0, 5, 0, 0, 11; 5, 0, 4, 0, 0, 5, 0;
  0, 5, 0, 4, 0, 0, 5; 0, 0, 0, 0, 2, 0, 0; 11, 0, 5, 0, 0, 10, 0; 0, 11, 0, 5, 0, 0, 10]

theorem unitPoleS_posDef : unitPoleS.PosDef := by
  refine PosDef.of_dotProduct_mulVec_pos ?_ fun x hx => ?_
  · ext i j
    fin_cases i <;> fin_cases j <;> rfl
  · have e : star x ⬝ᵥ unitPoleS *ᵥ x =
        (15 * x 0 ^ 2 + 4 * x 2 ^ 2 + 10 * x 5 ^ 2 + 10 * x 0 * x 2 + 22 * x 0 * x 5 + 10 * x 2 * x 5) +
        (15 * x 1 ^ 2 + 4 * x 3 ^ 2 + 10 * x 6 ^ 2 + 10 * x 1 * x 3 + 22 * x 1 * x 6 + 10 * x 3 * x 6) + 2 * x 4 ^ 2 := by
      simp [unitPoleS, Matrix.mulVec, dotProduct, Fin.sum_univ_succ]
      ring
    rw [e]
    have nn : ∀ p w v : ℝ, 0 ≤ 15 * p ^ 2 + 4 * w ^ 2 + 10 * v ^ 2 + 10 * p * w + 22 * p * v + 10 * w * v := fun p w v => by
      by_cases h : p = 0 ∧ w = 0 ∧ v = 0
      · obtain ⟨rfl, rfl, rfl⟩ := h
        simp
      · exact (triple_pos h).le
    have hz := sq_nonneg (x 4)
    by_cases h1 : x 0 = 0 ∧ x 2 = 0 ∧ x 5 = 0
    · by_cases h2 : x 1 = 0 ∧ x 3 = 0 ∧ x 6 = 0
      · have h4 : x 4 ≠ 0 := fun h4 => hx (by
          ext i
          fin_cases i <;> simp_all)
        have : 0 < x 4 ^ 2 := by positivity
        linarith [nn (x 0) (x 2) (x 5), nn (x 1) (x 3) (x 6)]
      · linarith [nn (x 0) (x 2) (x 5), triple_pos h2]
    · linarith [nn (x 1) (x 3) (x 6), triple_pos h1]

theorem unitPole_riccati : Riccati (uprightA unitPole) (uprightB unitPole) (diagonal ![2, 2, 1, 1, 1, 3, 3]) 1 unitPoleS := by
  have hA : uprightA unitPole = !![0, 0, 0, 0, 0, 1, 0; 0, 0, 0, 0, 0, 0, 1; -1, 0, 0, 0, 0, 0, 0; 0, -1, 0, 0, 0, 0, 0;
      0, 0, 0, 0, 0, 0, 0; 2, 0, 0, 0, 0, 0, 0; 0, 2, 0, 0, 0, 0, 0] := by
    simp [uprightA, unitPole]
    norm_num
  have hB : uprightB unitPole = !![0, 0, 0; 0, 0, 0; 1, 0, 0; 0, 1, 0; 0, 0, 1 / 2; -1, 0, 0; 0, -1, 0] := by
    simp [uprightB, unitPole]
    norm_num
  rw [hA, hB]
  refine riccati_of (posDef_transpose unitPoleS_posDef) (Ri := 1)
    (M := !![17, 0, 0, 0, 0, 15, 0; 0, 17, 0, 0, 0, 0, 15; 6, 0, 0, 0, 0, 5, 0; 0, 6, 0, 0, 0, 0, 5; 0, 0, 0, 0, 0, 0, 0;
      15, 0, 0, 0, 0, 11, 0; 0, 15, 0, 0, 0, 0, 11])
    (N := !![-6, 0, 0; 0, -6, 0; -1, 0, 0; 0, -1, 0; 0, 0, 1; -5, 0, 0; 0, -5, 0]) (by simp) ?_ ?_ fun i j => ?_
  · ext i j
    fin_cases i <;> fin_cases j <;> simp [unitPoleS, Matrix.mul_apply, Fin.sum_univ_succ] <;> norm_num
  · ext i j
    fin_cases i <;> fin_cases j <;> simp [unitPoleS, Matrix.mul_apply, Fin.sum_univ_succ] <;> norm_num
  · fin_cases i <;> fin_cases j <;> simp [Fin.sum_univ_succ, Matrix.diagonal] <;> norm_num

/-- The gain of the pole of unit parameters: the hypotheses of `C127_stable` and `C127_balance` are met. -/
example : unitPole.lqrGain exDrakeLqr (diagonal ![2, 2, 1, 1, 1, 3, 3]) 1 =
      some !![-6, 0, -1, 0, 0, -5, 0; 0, -6, 0, -1, 0, 0, -5; 0, 0, 0, 0, 1, 0, 0] ∧
    LocallyExpStable (fun x u => (unitPole.dyn x u).getD 0) (fun x =>
      (-!![-6, 0, -1, 0, 0, -5, 0; 0, -6, 0, -1, 0, 0, -5; 0, 0, 0, 0, 1, 0, 0] : Matrix (Fin 3) (Fin 7) ℝ) *ᵥ x +
        unitPole.uEq) 0 := by
  have hQ : (diagonal ![2, 2, 1, 1, 1, 3, 3] : Matrix (Fin 7) (Fin 7) ℝ).PosDef := by
    refine PosDef.diagonal fun i => ?_
    fin_cases i <;> simp
  have h1 : (0 : ℝ) < unitPole.mSphere := by simp [unitPole]
  have h2 : (0 : ℝ) < unitPole.mEe := by simp [unitPole]
  have h3 : (0 : ℝ) < unitPole.length := by simp [unitPole]
  have hK : unitPole.lqrGain exDrakeLqr (diagonal ![2, 2, 1, 1, 1, 3, 3]) 1 =
      some !![-6, 0, -1, 0, 0, -5, 0; 0, -6, 0, -1, 0, 0, -5; 0, 0, 0, 0, 1, 0, 0] := by
    unfold PoleDyn.lqrGain exDrakeLqr
    rw [(C127_linearisation unitPole h1 h2 h3).2]
    simp only [Option.bind_some, exCare_eq hQ PosDef.one unitPole_riccati unitPoleS_posDef, Option.map_some]
    refine congrArg some ?_
    rw [inv_one, Matrix.one_mul]
    ext i j
    fin_cases i <;> fin_cases j <;>
      simp [uprightB, unitPole, unitPoleS, Matrix.mul_apply, Fin.sum_univ_succ] <;> norm_num
  exact ⟨hK, C127_stable unitPole h1 h2 h3 exDrakeLqr_routine hQ PosDef.one hK⟩

/-- A motion to which `C127_balance` applies: the plate, pushed upwards, slows down under the controller. -/
example : RodBodies unitPole.length unitPole.mEe unitPole.mSphere unitPole.gravity
    (fun t => ![0, 0, -2 * Real.exp (-t / 2)]) (fun t => ![0, 0, Real.exp (-t / 2)])
    (fun t => ![0, 0, 1 - 2 * Real.exp (-t / 2)]) (fun t => ![0, 0, Real.exp (-t / 2)])
    (fun t => unitPole.lqrForce !![-6, 0, -1, 0, 0, -5, 0; 0, -6, 0, -1, 0, 0, -5; 0, 0, 0, 0, 1, 0, 0]
      ![0, 0, 1 - 2 * Real.exp (-t / 2)] ![0, 0, Real.exp (-t / 2)] ![0, 0, -2 * Real.exp (-t / 2)]
      ![0, 0, Real.exp (-t / 2)]) := by
  have hE : ∀ t : ℝ, HasDerivAt (fun s => Real.exp (-s / 2)) (-Real.exp (-t / 2) / 2) t := fun t => by
    have h : HasDerivAt (fun s : ℝ => -s / 2) (-1 / 2) t := (hasDerivAt_id t).neg.div_const 2
    refine h.exp.congr_deriv ?_
    ring
  refine ⟨fun t _ i => ?_, fun t _ i => ?_, fun t _ => ?_, fun t _ => ?_, fun t _ => ?_⟩
  · fin_cases i
    · exact hasDerivWithinAt_const _ _ _
    · exact hasDerivWithinAt_const _ _ _
    · refine ((hE t).const_mul (-2)).hasDerivWithinAt.congr_deriv ?_
      simp
      ring
  · fin_cases i
    · exact hasDerivWithinAt_const _ _ _
    · exact hasDerivWithinAt_const _ _ _
    · refine (((hE t).const_mul 2).const_sub 1).hasDerivWithinAt.congr_deriv ?_
      simp
      ring
  · simp [unitPole, dotProduct, Fin.sum_univ_succ]
  · simp
  · refine ⟨![0, 0, -Real.exp (-t / 2) / 2], ![0, 0, -Real.exp (-t / 2) / 2], 1 - Real.exp (-t / 2) / 2, fun i => ?_,
      fun i => ?_, ?_, ?_⟩
    · fin_cases i
      · exact hasDerivWithinAt_const _ _ _
      · exact hasDerivWithinAt_const _ _ _
      · exact (hE t).hasDerivWithinAt
    · fin_cases i
      · exact hasDerivWithinAt_const _ _ _
      · exact hasDerivWithinAt_const _ _ _
      · exact (hE t).hasDerivWithinAt
    · ext i
      fin_cases i <;>
        simp [unitPole, PoleDyn.lqrForce, PoleDyn.uEq, vecHead, vecTail] <;> ring
    · ext i
      fin_cases i <;> simp [unitPole] <;> ring

end NNL.Props
