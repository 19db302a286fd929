import Verif.Props.CarSim
import Verif.Props.QuadEnvExamples

/-!
Examples for C124.
-/

namespace NNL.Props

open NNL NNL.Model NNL.Spec Set Real

/-- A wall at `x = 1`. -/
def exWall : Set (Fin 3 → ℝ) := {p | 1 ≤ p 0}

/-- The ray test for the wall. -/
noncomputable def exCast (a b : Fin 3 → ℝ) : ℝ :=
  if 1 ≤ a 0 then 0 else if 1 ≤ b 0 then (1 - a 0) / (b 0 - a 0) else 1

theorem exCast_firstHit : FirstHit exWall exCast := by
  intro a b
  unfold exCast exWall
  simp only [mem_ofPred_eq, Pi.add_apply, Pi.smul_apply, Pi.sub_apply, smul_eq_mul, not_le]
  split
  · rename_i ha
    exact ⟨le_rfl, zero_le_one, fun f h0 h1 => by linarith, fun _ => by linarith⟩
  · rename_i ha
    have ha' := not_le.1 ha
    split
    · rename_i hb
      have hd : 0 < b 0 - a 0 := by linarith
      refine ⟨div_nonneg (by linarith) hd.le, by rw [div_le_one hd]; linarith, fun f h0 h1 => ?_, fun _ => ?_⟩
      · rw [lt_div_iff₀ hd] at h1
        linarith
      · rw [div_mul_cancel₀ _ hd.ne']
        linarith
    · rename_i hb
      have hb' := not_le.1 hb
      refine ⟨zero_le_one, le_rfl, fun f h0 h1 => ?_, fun h => absurd h (lt_irrefl _)⟩
      nlinarith

/-- Facing the wall the car sees one unit far. -/
example : ∃ d, (getDistances exCast 0 100 [0] false ![0, 0, 0])[0]? = some d ∧ SeesUpTo exWall 0 100 ![0, 0, 0] 0 d ∧ d = 1 := by
  obtain ⟨d, h1, h2⟩ := (C124_distances exCast_firstHit (R := 100) (by norm_num) 0 [0] ![0, 0, 0]).2 0 0 rfl
  refine ⟨d, h1, h2, ?_⟩
  simp only [getDistances, Bool.false_eq_true, if_false, List.map_cons, List.map_nil, List.getElem?_cons_zero, Option.some.injEq] at h1
  rw [← h1]
  simp [exCast, rayFrom, rayTo]

/-- The scan of the program. -/
example (s : Fin 3 → ℝ) : (getDistances exCast 0.075 100 (psiFull 101) true s).length = 100 :=
  (C124_scan exCast 0.075 (by norm_num) (by norm_num) s).1

/-- An obstacle on the right. -/
example : ∃ ω, opticalFlow 2 (π / 3) [2, 1] = some (0.7, ω) ∧ 0 < ω := by
  obtain ⟨ω, h1, -, h3⟩ := C124_avoids 1 (psiMax := π / 3) (by positivity) (by linarith [Real.pi_pos]) [2, 1] rfl (by simp)
  exact ⟨ω, h1, (h3 fun k hk => by
    have : k = 0 := by omega
    subst this
    norm_num).2 ⟨0, by norm_num, by norm_num⟩⟩

/-- The innermost ray on the right of the program's sensor. -/
example : (psiNominal 30 (π / 3)).getD 15 0 = π / 87 ∧ (linspace 0 (π / 3) 15).getD 0 0 = 0 := by
  refine ⟨?_, ?_⟩
  · rw [(C124_angles (mid := 15) (k := 0) (by norm_num) (by norm_num) (psiMax := π / 3) (by positivity) (by linarith [Real.pi_pos])).1]
    push_cast
    ring
  · rw [getD_linspace _ _ _ _ (by norm_num)]
    simp

/-- The motion of the car with a constant control. -/
noncomputable def exDrive (s : Fin 3 → ℝ) (u : Fin 2 → ℝ) (t : ℝ) : Fin 3 → ℝ :=
  ![s 0 + ∫ r in (0 : ℝ)..t, u 0 * cos (s 2 + u 1 * r), s 1 + ∫ r in (0 : ℝ)..t, u 0 * sin (s 2 + u 1 * r), s 2 + u 1 * t]

/-- Exact integration exists. -/
theorem exDrive_samples : Samples unicycleDyn exDrive := by
  intro s u dt _
  refine ⟨exDrive s u, ?_, fun t _ i => HasDerivAt.hasDerivWithinAt ?_, rfl⟩
  · funext i
    fin_cases i <;> simp [exDrive]
  · fin_cases i
    · exact hasDerivAt_prim (s 0) (f := fun r => u 0 * cos (s 2 + u 1 * r)) (by fun_prop) t
    · exact hasDerivAt_prim (s 1) (f := fun r => u 0 * sin (s 2 + u 1 * r)) (by fun_prop) t
    · refine (((hasDerivAt_id t).const_mul (u 1)).const_add (s 2)).congr_deriv ?_
      simp [unicycleDyn]

/-- One step without obstacles towards a goal at `(5, 5)`: the simulation returns. -/
example : ∃ data, simulateController exDrive { CarParams.default with horizon := 1 }
    [(⟨fun _ _ => 1, fun _ => true⟩, [(5, 5), (6, 6)])] = some data ∧ data.length = 1 ∧
      ∀ rows, data[0]? = some rows → rows.length = 1 := by
  set P : CarParams := { CarParams.default with horizon := 1 } with hP
  set W : CarWorld := ⟨fun _ _ => 1, fun _ => true⟩ with hW
  have hpi := Real.pi_pos
  have hp : P.psiMax < π / 2 := by
    simp only [hP, CarParams.default]
    linarith
  have hy : getDistances W.cast P.height P.senseRadius (psiNominal P.raysControl P.psiMax) false ![0, 1, π / 2] =
      List.replicate 30 (100 : ℝ) := by
    rw [List.eq_replicate_iff]
    refine ⟨by simp [getDistances, psiNominal, hP, CarParams.default, linspace], fun b hb => ?_⟩
    simp only [getDistances, Bool.false_eq_true, if_false, List.mem_map] at hb
    obtain ⟨_, -, rfl⟩ := hb
    simp [hP, hW, CarParams.default]
  have hmin : (List.replicate 30 (100 : ℝ)).min? = some 100 := by
    rw [List.min?_eq_some_iff]
    exact ⟨by simp, fun b hb => by rw [List.eq_of_mem_replicate hb]⟩
  have hdist : ¬goalDist (5, 5) ![0, 1, π / 2] < P.thr := by
    simp only [goalDist, Matrix.cons_val_zero, Matrix.cons_val_one, hP, CarParams.default, not_lt]
    exact le_sqrt_of_sq_le (by norm_num)
  obtain ⟨u, yaw, hg⟩ : ∃ u yaw, opticalFlowGoal P.raysControl P.psiMax P.thr (List.replicate 30 100) (some (5, 5)) ![0, 1, π / 2] 0 =
      some (.pair u yaw) := by
    unfold opticalFlowGoal
    rw [show P.raysControl = 2 * 15 from rfl, opticalFlow_eq 15 hp _ (by simp), Option.bind_some]
    simp only [hmin, Option.bind_some]
    rw [if_pos (by norm_num), if_neg hdist]
    exact ⟨_, _, rfl⟩
  obtain ⟨rows, hrows⟩ : ∃ rows, controllerLoop exDrive P W P.horizon ![0, 1, π / 2] 0 (5, 5) [(6, 6)] = some rows := by
    rw [show P.horizon = 0 + 1 from rfl, controllerLoop]
    simp only [hy, hg, Option.bind_some]
    split <;> simp [drawFree, controllerLoop, hW]
  obtain ⟨data, hdata⟩ : ∃ data, simulateController exDrive P [(W, [(5, 5), (6, 6)])] = some data := by
    simp only [simulateController, drawFree]
    rw [if_pos rfl, Option.bind_some]
    simp only [hrows, Option.bind_some]
    exact ⟨_, rfl⟩
  obtain ⟨h1, h2⟩ := C124_controller exDrive_samples P _ data hdata
  exact ⟨data, hdata, h1, fun rows hr => (h2 0 _ rows rfl hr).1⟩

/-- A random sample: the first candidate, at `(-8, -8)`, collides, the second, at `(0, 0)`, does not. -/
example : ∃ r, carSampleLoop exDrive CarParams.default ⟨fun _ _ => 1, fun p => decide (p.1 = 0)⟩
    [([(0, 0, 0), (0.5, 0.5, 0.5)], 0.5, 0.5)] = some [r] ∧ r.state 0 = 0 ∧ r.u = (1.5, 0) := by
  have h : drawFree (fun s : Fin 3 → ℝ => decide (s 0 = 0)) [![-8, -8, -1.5 * π], ![0, 0, 0]] = some (![0, 0, 0], []) := by
    norm_num [drawFree]
  have hc : [((0 : ℝ), (0 : ℝ), (0 : ℝ)), (0.5, 0.5, 0.5)].map (fun r => (![-8 + (8 - -8) * r.1, -8 + (8 - -8) * r.2.1,
      -1.5 * π + (1.5 * π - -1.5 * π) * r.2.2] : Fin 3 → ℝ)) = [![-8, -8, -1.5 * π], ![0, 0, 0]] := by
    simp only [List.map_cons, List.map_nil, List.cons.injEq, and_true]
    constructor <;> (funext i; fin_cases i <;> simp <;> ring)
  simp only [carSampleLoop, hc, h, Option.bind_some, Option.map_some]
  exact ⟨_, rfl, rfl, by norm_num⟩

end NNL.Props
