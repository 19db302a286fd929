import Verif.Props.QuadEnv
import Mathlib.MeasureTheory.Integral.IntervalIntegral.FundThmCalculus
import Mathlib.Topology.Algebra.Polynomial

/-!
Examples for C123: the motions of the quadrotor under constant thrusts exist, so that exact integration is possible.
-/

namespace NNL.Props

open NNL NNL.Model NNL.Spec Set

/-- The pitch under constant thrusts. -/
noncomputable def exPitch (x : Fin 6 → ℝ) (u : Fin 2 → ℝ) (t : ℝ) : ℝ :=
  x 2 + x 5 * t + Planar.quad.length / Planar.quad.inertia * (u 0 - u 1) * t ^ 2 / 2

/-- The horizontal velocity. -/
noncomputable def exVx (x : Fin 6 → ℝ) (u : Fin 2 → ℝ) (t : ℝ) : ℝ :=
  x 3 + ∫ s in (0 : ℝ)..t, -Real.sin (exPitch x u s) / Planar.quad.mass * (u 0 + u 1)

/-- The vertical velocity. -/
noncomputable def exVz (x : Fin 6 → ℝ) (u : Fin 2 → ℝ) (t : ℝ) : ℝ :=
  x 4 + ∫ s in (0 : ℝ)..t, (Real.cos (exPitch x u s) / Planar.quad.mass * (u 0 + u 1) - Planar.quad.gravity)

/-- The motion of the quadrotor under constant thrusts. -/
noncomputable def exFlow (x : Fin 6 → ℝ) (u : Fin 2 → ℝ) (t : ℝ) : Fin 6 → ℝ :=
  ![x 0 + ∫ s in (0 : ℝ)..t, exVx x u s, x 1 + ∫ s in (0 : ℝ)..t, exVz x u s, exPitch x u t, exVx x u t, exVz x u t,
    x 5 + Planar.quad.length / Planar.quad.inertia * (u 0 - u 1) * t]

theorem hasDerivAt_prim (c : ℝ) {f : ℝ → ℝ} (hf : Continuous f) (t : ℝ) : HasDerivAt (fun t => c + ∫ s in (0 : ℝ)..t, f s) (f t) t :=
  ((hf.integral_hasStrictDerivAt 0 t).hasDerivAt).const_add c

theorem exPitch_cont (x : Fin 6 → ℝ) (u : Fin 2 → ℝ) : Continuous (exPitch x u) := by
  unfold exPitch
  fun_prop

theorem exVx_deriv (x : Fin 6 → ℝ) (u : Fin 2 → ℝ) (t : ℝ) :
    HasDerivAt (exVx x u) (-Real.sin (exPitch x u t) / Planar.quad.mass * (u 0 + u 1)) t :=
  hasDerivAt_prim (x 3) (f := fun s => -Real.sin (exPitch x u s) / Planar.quad.mass * (u 0 + u 1))
    (by have := exPitch_cont x u; fun_prop) t

theorem exVz_deriv (x : Fin 6 → ℝ) (u : Fin 2 → ℝ) (t : ℝ) :
    HasDerivAt (exVz x u) (Real.cos (exPitch x u t) / Planar.quad.mass * (u 0 + u 1) - Planar.quad.gravity) t :=
  hasDerivAt_prim (x 4) (f := fun s => Real.cos (exPitch x u s) / Planar.quad.mass * (u 0 + u 1) - Planar.quad.gravity)
    (by have := exPitch_cont x u; fun_prop) t

/-- Exact integration exists. -/
theorem exFlow_samples : Samples Planar.quad.quadDyn exFlow := by
  intro x u dt _
  refine ⟨exFlow x u, ?_, fun t _ i => HasDerivAt.hasDerivWithinAt ?_, rfl⟩
  · funext i
    fin_cases i <;> simp [exFlow, exVx, exVz, exPitch]
  · fin_cases i
    · exact hasDerivAt_prim (x 0) (continuous_iff_continuousAt.2 fun t => (exVx_deriv x u t).continuousAt) t
    · exact hasDerivAt_prim (x 1) (continuous_iff_continuousAt.2 fun t => (exVz_deriv x u t).continuousAt) t
    · have h1 := ((hasDerivAt_id t).const_mul (x 5)).const_add (x 2)
      have h2 := (((hasDerivAt_id t).pow 2).const_mul (Planar.quad.length / Planar.quad.inertia * (u 0 - u 1))).div_const 2
      refine (h1.add h2).congr_deriv ?_
      simp [Planar.quadDyn, exFlow]
      ring
    · exact exVx_deriv x u t
    · exact exVz_deriv x u t
    · have h1 := ((hasDerivAt_id t).const_mul (Planar.quad.length / Planar.quad.inertia * (u 0 - u 1))).const_add (x 5)
      refine h1.congr_deriv ?_
      simp [Planar.quadDyn]

/-- Ten steps of hovering have the return zero. -/
example : discounted 0.99 (((answers (quadEnv exFlow fun _ _ => 0) quadEnvInit (List.replicate 10 fun _ => 0.486 * 9.81 / 2)).1).map
    fun q => q.2.1) = 0 :=
  (C123_optimal exFlow _ exFlow_samples (by norm_num) quadEnvInit _).2.2.1 rfl (by simp)

/-- A step without thrust has a negative reward. -/
example : ((quadEnv exFlow fun _ _ => 0).step quadEnvInit 0).1.2.1 < 0 := by
  obtain ⟨-, h1, h2, -⟩ := C123_reward exFlow (fun _ _ => 0) quadEnvInit 0 _ _ _ _ rfl
  refine lt_of_le_of_ne h1 fun h => ?_
  have := congrFun (h2.1 h).2 0
  norm_num at this

/-- Falling out of the box. -/
example : ∃ (s : QuadEnvSt) (a : Fin 2 → ℝ), (∀ i, quadEnvLo i ≤ s.x i ∧ s.x i ≤ -quadEnvLo i) ∧ (∀ i, 0 ≤ a i ∧ a i ≤ 8) ∧
    ((quadEnv exFlow fun _ _ => 0).step s a).1.1 1 < quadEnvLo 1 :=
  C123_leaves exFlow _ exFlow_samples

/-- The middle of the box. -/
example : ((quadEnv exFlow fun _ _ => 0.5).reset quadEnvInit).1 = 0 ∧ ∀ i, quadEnvLo i ≤ ((quadEnv exFlow fun _ _ => 0.5).reset quadEnvInit).1 i :=
  ⟨by funext i; simp [quadEnv, quadEnvReset]; ring,
    fun i => ((C123_reset exFlow (fun _ _ => 0.5) quadEnvInit (fun _ => by norm_num)).1 i).1⟩

/-- A sequence of three actions. -/
example : ((answers (quadEnv exFlow fun _ _ => 0) quadEnvInit [0, fun _ => 8, 0]).2.t = 0.03) := by
  rw [(C123_history exFlow (fun _ _ => 0) exFlow_samples quadEnvInit [0, fun _ => 8, 0]).2.2.1]
  norm_num [quadEnvInit]

/-- A counter as environment: the observation counts the steps, the reward is the action. -/
def exCounter : GymEnv ℕ ℕ ℚ ℚ := ⟨fun _ => (0, 0), fun e a => ((e + 1, a, false), e + 1)⟩

/-- Two episodes of three steps. -/
example : testAgent exCounter (fun o => (o : ℚ)) 3 2 7 = some 3 := by
  rw [(C123_test_agent exCounter (fun o => (o : ℚ)) (fun _ _ => rfl) 3 2 7).2.1 (by norm_num)]
  simp [rollouts, rollout, exCounter]
  norm_num

example : (∃ s', runPolicyLoop exCounter (fun o => (o : ℚ)) (some 3) 2 6 (runPolicyInit exCounter 7) = some s' ∧
    plotted s' = [[1, 2, 3], [1, 2, 3]]) ∧
    ∀ fuel, runPolicyLoop exCounter (fun o => (o : ℚ)) none 2 fuel (runPolicyInit exCounter 7) = none :=
  ⟨(C123_run_policy exCounter (fun o => (o : ℚ)) (fun _ _ => rfl) 2 3 7).1 (by norm_num),
    fun fuel => ((C123_run_policy exCounter (fun o => (o : ℚ)) (fun _ _ => rfl) 2 3 7).2 (by norm_num) fuel).1⟩

/-- The averages of testing in the quadrotor environment. -/
example (pol : (Fin 6 → ℝ) → Fin 2 → ℝ) (e : QuadEnvSt) : testAgent (quadEnv exFlow fun _ _ => 0) pol 1000 10 e =
    some (((rollouts (quadEnv exFlow fun _ _ => 0) pol 1000 10 e).1.map fun l => (l.map fun q => q.2.1).sum).sum / (10 : ℕ)) :=
  (C123_test_agent _ pol (quadEnv_never_done exFlow _) 1000 10 e).2.1 (by norm_num)

/-- Training in the quadrotor environment: the loop runs, so `C123_td3` applies. -/
example : ∃ s : Td3St QuadEnvSt (Fin 6 → ℝ) (Fin 2 → ℝ) ℝ Unit Unit,
    td3Loop (M := Unit) (quadEnv exFlow fun _ _ => 0.5) (fun _ _ (_ : Unit) _ => 1)
      ⟨fun q _ _ _ => q, fun p _ _ => p, fun _ q _ => q, fun _ p _ => ((), p), fun _ q _ => ((), q)⟩
      ⟨0.995, 3, 2, 2, 2, 4, 5⟩ (fun _ => ⟨0, (), fun _ => [0], fun _ => ()⟩) 9
      (td3Init (quadEnv exFlow fun _ _ => 0.5) 0 0 ⟨0.995, 3, 2, 2, 2, 4, 5⟩ ⟨[1], [2], [1], [2], [0], [0], (), ()⟩ quadEnvInit) = some s ∧
    ∀ tr, s.log[8]? = some tr → ∀ i, quadEnvLo i ≤ tr.obs i := by
  obtain ⟨s, hs⟩ := Option.isSome_iff_exists.1 (C114_returns (quadEnv exFlow fun _ _ => 0.5) (fun _ _ (_ : Unit) _ => 1)
    (⟨fun q _ _ _ => q, fun p _ _ => p, fun _ q _ => q, fun _ p _ => ((), p), fun _ q _ => ((), q)⟩ :
      Td3Fns ℝ (Batch (Fin 6 → ℝ) (Fin 2 → ℝ) ℝ × Unit) Unit Unit)
    (⟨0.995, 3, 2, 2, 2, 4, 5⟩ : Td3Cfg ℝ) (fun _ => ⟨0, (), fun _ => [0], fun _ => ()⟩) 0 0 ⟨[1], [2], [1], [2], [0], [0], (), ()⟩ quadEnvInit
    (by norm_num) (by norm_num) (by norm_num) (by intro t j i hi; simp at hi; subst hi; simp) 9)
  exact ⟨s, hs, fun tr ht i => ((C123_td3 exFlow (fun _ _ => 0.5) _ _ _ (by norm_num) _ _ _ _ _ 9 s (fun _ _ => by norm_num) hs 8 tr ht).2.2.1
    (by norm_num) i).1⟩

end NNL.Props
