import Verif.Model.Integrator
import Verif.Lemmas.Rk4
import Verif.Model.Physics
import Mathlib.Analysis.SpecialFunctions.ExpDeriv
import Mathlib.Analysis.SpecialFunctions.Trigonometric.Deriv

/-!
# C95: simulation with a piecewise constant control
-/

set_option linter.unusedSectionVars false

namespace NNL.Props

open NNL.Model Filter Topology Asymptotics

section

variable {K E U : Type} [Field K] [AddCommGroup E] [Module K E]

theorem rk4Loop_add (f : E → U → E) (dt : K) (u : U) : ∀ (m n : ℕ) (x : E),
    rk4Loop f dt u (m + n) x = rk4Loop f dt u n (rk4Loop f dt u m x)
  | 0, n, x => by simp [rk4Loop]
  | m + 1, n, x => by
    rw [Nat.add_right_comm]
    exact rk4Loop_add f dt u m n _

/-- C95. The control is the one of the initial state during the whole simulation, the simulation of zero steps does not move, and a
simulation of `m + n` steps is one of `m` steps continued by `n` steps with the same control. -/
theorem C95_control (f : E → U → E) (controller : E → U) (x0 : E) (dt : K) (m n : ℕ) :
    (rk4ConstantControl f controller x0 dt n).2 = controller x0 ∧ (rk4ConstantControl f controller x0 dt 0).1 = x0 ∧
      (rk4ConstantControl f controller x0 dt (m + n)).1 =
        (rk4ConstantControl f (fun _ => controller x0) (rk4ConstantControl f controller x0 dt m).1 dt n).1 :=
  ⟨rfl, rfl, rk4Loop_add f dt _ m n x0⟩

/-- C95. An equilibrium of the closed loop is not left. -/
theorem C95_equilibrium (f : E → U → E) (controller : E → U) (x0 : E) (h : f x0 (controller x0) = 0) (dt : K) (n : ℕ) :
    (rk4ConstantControl f controller x0 dt n).1 = x0 := by
  have hs : rk4Step f dt (controller x0) x0 = x0 := by simp [rk4Step, h]
  have : ∀ n, rk4Loop f dt (controller x0) n x0 = x0 := by
    intro n
    induction n with
    | zero => rfl
    | succ n ih => rw [rk4Loop, hs, ih]
  exact this n

end

section

variable {E U : Type} [NormedAddCommGroup E] [NormedSpace ℝ E]

/-- C95. The error of one step is of fifth order: for dynamics with four continuous derivatives and a motion `y` under the constant
control from `x0`, the distance between one step of length `dt` and `y dt` is `O(dt ^ 5)`. -/
theorem C95_order (f : E → U → E) (controller : E → U) (x0 : E) (hf : ContDiffAt ℝ 4 (fun x => f x (controller x0)) x0)
    {y : ℝ → E} {δ : ℝ} (hδ : 0 < δ) (hy : ∀ t ∈ Set.Ico 0 δ, HasDerivWithinAt y (f (y t) (controller x0)) (Set.Ici t) t)
    (hyc : ContinuousOn y (Set.Ico 0 δ)) (h0 : y 0 = x0) :
    (fun dt => (rk4ConstantControl f controller x0 dt 1).1 - y dt) =O[𝓝[≥] 0] fun dt : ℝ => dt ^ 5 := by
  have H := Rk4.expansion_of_contDiffAt hf
  have h1 := H.step rfl
  have h2 := H.flow (v := fun t => y t - x0) hδ (fun t ht => by simpa using (hy t ht).sub_const x0)
    (hyc.sub continuousOn_const) (by simp [h0])
  refine (h1.sub h2).congr fun dt => ?_
  simp only [rk4ConstantControl, rk4Loop, rk4Step]
  abel

theorem lip_sub {g : E → E} {L : NNReal} (hg : LipschitzWith L g) (a b : E) : ‖g a - g b‖ ≤ L * ‖a - b‖ := by
  simpa [dist_eq_norm] using hg.dist_le_mul a b

/-- The increment of one step is Lipschitz. -/
theorem rk4Step_lip {f : E → U → E} {u : U} {L : NNReal} (hf : LipschitzWith L fun x => f x u) {h : ℝ} (h0 : 0 ≤ h)
    (hL : L * h ≤ 1) (a b : E) : ‖rk4Step f h u a - rk4Step f h u b‖ ≤ (1 + 2 * L * h) * ‖a - b‖ := by
  have l : ∀ a b, ‖f a u - f b u‖ ≤ L * ‖a - b‖ := lip_sub hf
  have stage : ∀ (c ρ : ℝ) (ka kb : E), 0 ≤ c → c ≤ 1 → ‖ka - kb‖ ≤ L * ρ * ‖a - b‖ → 0 ≤ ρ →
      ‖f (a + (c * h) • ka) u - f (b + (c * h) • kb) u‖ ≤ L * (1 + c * ρ) * ‖a - b‖ := by
    intro c ρ ka kb hc hc1 hk hρ
    refine (l _ _).trans ?_
    have e : a + (c * h) • ka - (b + (c * h) • kb) = (a - b) + (c * h) • (ka - kb) := by
      rw [smul_sub]
      abel
    have hch : 0 ≤ c * h := mul_nonneg hc h0
    have : ‖a + (c * h) • ka - (b + (c * h) • kb)‖ ≤ (1 + c * ρ) * ‖a - b‖ := by
      rw [e]
      refine (norm_add_le _ _).trans ?_
      rw [norm_smul, Real.norm_of_nonneg hch]
      have h1 : c * h * ‖ka - kb‖ ≤ c * h * (L * ρ * ‖a - b‖) := mul_le_mul_of_nonneg_left hk hch
      have h2 : c * h * (L * ρ * ‖a - b‖) = (L * h) * (c * ρ * ‖a - b‖) := by ring
      have h3 : (L * h) * (c * ρ * ‖a - b‖) ≤ 1 * (c * ρ * ‖a - b‖) := mul_le_mul_of_nonneg_right hL (by positivity)
      linarith
    rw [mul_assoc]
    exact mul_le_mul_of_nonneg_left this L.coe_nonneg
  set a1 := f a u
  set b1 := f b u
  set a2 := f (a + (h / 2) • a1) u
  set b2 := f (b + (h / 2) • b1) u
  set a3 := f (a + (h / 2) • a2) u
  set b3 := f (b + (h / 2) • b2) u
  set a4 := f (a + h • a3) u
  set b4 := f (b + h • b3) u
  have k1 : ‖a1 - b1‖ ≤ L * 1 * ‖a - b‖ := by simpa using l a b
  have k2 : ‖a2 - b2‖ ≤ L * (3 / 2) * ‖a - b‖ := by
    have := stage (1 / 2) 1 a1 b1 (by norm_num) (by norm_num) k1 (by norm_num)
    rw [show 1 / 2 * h = h / 2 by ring] at this
    exact this.trans_eq (by ring)
  have k3 : ‖a3 - b3‖ ≤ L * (7 / 4) * ‖a - b‖ := by
    have := stage (1 / 2) (3 / 2) a2 b2 (by norm_num) (by norm_num) k2 (by norm_num)
    rw [show 1 / 2 * h = h / 2 by ring] at this
    exact this.trans_eq (by ring)
  have k4 : ‖a4 - b4‖ ≤ L * (11 / 4) * ‖a - b‖ := by
    have := stage 1 (7 / 4) a3 b3 (by norm_num) (by norm_num) k3 (by norm_num)
    rw [one_mul] at this
    exact this.trans_eq (by ring)
  have e : rk4Step f h u a - rk4Step f h u b = (a - b) + (1 / 6 * h) • ((a1 - b1) + (2 : ℝ) • (a2 - b2) + (2 : ℝ) • (a3 - b3) +
      (a4 - b4)) := by
    change a + (1 / 6 * h) • (a1 + (2 : ℝ) • a2 + (2 : ℝ) • a3 + a4) - (b + (1 / 6 * h) • (b1 + (2 : ℝ) • b2 + (2 : ℝ) • b3 + b4)) = _
    module
  rw [e]
  have hn : ‖(a1 - b1) + (2 : ℝ) • (a2 - b2) + (2 : ℝ) • (a3 - b3) + (a4 - b4)‖ ≤ 12 * (L * ‖a - b‖) := by
    refine (norm_add_le _ _).trans (?_ : _ ≤ _)
    have t1 := norm_add_le ((a1 - b1) + (2 : ℝ) • (a2 - b2)) ((2 : ℝ) • (a3 - b3))
    have t2 := norm_add_le (a1 - b1) ((2 : ℝ) • (a2 - b2))
    rw [norm_smul, Real.norm_of_nonneg (by norm_num : (0 : ℝ) ≤ 2)] at t1 t2
    have : 0 ≤ L * ‖a - b‖ := by positivity
    linarith
  refine (norm_add_le _ _).trans ?_
  rw [norm_smul, Real.norm_of_nonneg (by positivity : (0 : ℝ) ≤ 1 / 6 * h)]
  have := mul_le_mul_of_nonneg_left hn (by positivity : (0 : ℝ) ≤ 1 / 6 * h)
  linarith

/-- One step differs from the step of Euler by a term of second order. -/
theorem rk4Step_euler {f : E → U → E} {u : U} {L : NNReal} (hf : LipschitzWith L fun x => f x u) {h M : ℝ} (h0 : 0 ≤ h)
    (hL : L * h ≤ 1) (a : E) (hM : ‖f a u‖ ≤ M) : ‖rk4Step f h u a - (a + h • f a u)‖ ≤ L * M * h ^ 2 := by
  have l : ∀ a b, ‖f a u - f b u‖ ≤ L * ‖a - b‖ := lip_sub hf
  have hM0 : 0 ≤ M := (norm_nonneg _).trans hM
  set a1 := f a u
  have stage : ∀ (c ρ : ℝ) (k : E), 0 ≤ c → ‖k‖ ≤ ρ * M →
      ‖f (a + (c * h) • k) u - a1‖ ≤ (c * ρ) * ((L * h) * M) := by
    intro c ρ k hc hk
    refine (l _ _).trans ?_
    have hch : 0 ≤ c * h := mul_nonneg hc h0
    rw [add_sub_cancel_left, norm_smul, Real.norm_of_nonneg hch]
    have := mul_le_mul_of_nonneg_left (mul_le_mul_of_nonneg_left hk hch) L.coe_nonneg
    exact this.trans_eq (by ring)
  have bound : ∀ (ρ : ℝ) (k : E), 0 ≤ ρ → ‖k - a1‖ ≤ ρ * ((L * h) * M) → ‖k‖ ≤ (1 + ρ) * M := by
    intro ρ k hρ hk
    have h1 : ‖k‖ ≤ ‖a1‖ + ‖k - a1‖ := by
      have := norm_add_le a1 (k - a1)
      simpa using this
    have h2 : ρ * ((L * h) * M) ≤ ρ * (1 * M) := mul_le_mul_of_nonneg_left (mul_le_mul_of_nonneg_right hL hM0) hρ
    linarith
  set a2 := f (a + (h / 2) • a1) u
  set a3 := f (a + (h / 2) • a2) u
  set a4 := f (a + h • a3) u
  have k2 : ‖a2 - a1‖ ≤ (1 / 2) * ((L * h) * M) := by
    have := stage (1 / 2) 1 a1 (by norm_num) (by simpa using hM)
    rw [show 1 / 2 * h = h / 2 by ring] at this
    exact this.trans_eq (by ring)
  have k3 : ‖a3 - a1‖ ≤ (3 / 4) * ((L * h) * M) := by
    have := stage (1 / 2) _ a2 (by norm_num) (bound _ _ (by norm_num) k2)
    rw [show 1 / 2 * h = h / 2 by ring] at this
    exact this.trans_eq (by ring)
  have k4 : ‖a4 - a1‖ ≤ (7 / 4) * ((L * h) * M) := by
    have := stage 1 _ a3 (by norm_num) (bound _ _ (by norm_num) k3)
    rw [one_mul] at this
    exact this.trans_eq (by ring)
  have e : rk4Step f h u a - (a + h • a1) = (1 / 6 * h) • ((2 : ℝ) • (a2 - a1) + (2 : ℝ) • (a3 - a1) + (a4 - a1)) := by
    change a + (1 / 6 * h) • (a1 + (2 : ℝ) • a2 + (2 : ℝ) • a3 + a4) - (a + h • a1) = _
    module
  rw [e, norm_smul, Real.norm_of_nonneg (by positivity : (0 : ℝ) ≤ 1 / 6 * h)]
  have hn : ‖(2 : ℝ) • (a2 - a1) + (2 : ℝ) • (a3 - a1) + (a4 - a1)‖ ≤ 6 * ((L * h) * M) := by
    have t1 := norm_add_le ((2 : ℝ) • (a2 - a1) + (2 : ℝ) • (a3 - a1)) (a4 - a1)
    have t2 := norm_add_le ((2 : ℝ) • (a2 - a1)) ((2 : ℝ) • (a3 - a1))
    rw [norm_smul, norm_smul, Real.norm_of_nonneg (by norm_num : (0 : ℝ) ≤ 2)] at t2
    have : 0 ≤ (L * h) * M := by positivity
    linarith
  have := mul_le_mul_of_nonneg_left hn (by positivity : (0 : ℝ) ≤ 1 / 6 * h)
  exact this.trans_eq (by ring)

/-- C95. The error of the whole simulation: if the dynamics are Lipschitz with constant `L` under the control and not faster than `M`
along the motion, then after `n` steps of length `h ≤ 1 / L` the distance to the motion is at most
`2 L M (n h) h exp (2 L n h)`. -/
theorem C95_error (f : E → U → E) (controller : E → U) (x0 : E) {L : NNReal} (hf : LipschitzWith L fun x => f x (controller x0))
    {y : ℝ → E} {T M : ℝ} (hyc : ContinuousOn y (Set.Icc 0 T))
    (hy : ∀ t ∈ Set.Ico 0 T, HasDerivWithinAt y (f (y t) (controller x0)) (Set.Ici t) t) (h0 : y 0 = x0)
    (hM : ∀ t ∈ Set.Icc 0 T, ‖f (y t) (controller x0)‖ ≤ M) {h : ℝ} (hh : 0 ≤ h) (hL : L * h ≤ 1) (n : ℕ) (hn : n * h ≤ T) :
    ‖(rk4ConstantControl f controller x0 h n).1 - y (n * h)‖ ≤ 2 * L * M * (n * h) * h * Real.exp (2 * L * (n * h)) := by
  set u := controller x0
  have l : ∀ a b, ‖f a u - f b u‖ ≤ L * ‖a - b‖ := lip_sub hf
  have hTn : 0 ≤ T := (by positivity : 0 ≤ (n : ℝ) * h).trans hn
  have hM0 : 0 ≤ M := (norm_nonneg _).trans (hM 0 ⟨le_rfl, hTn⟩)
  -- the motion moves at most at speed `M`
  have hmove : ∀ s t, 0 ≤ s → s ≤ t → t ≤ T → ‖y t - y s‖ ≤ M * (t - s) := by
    intro s t hs hst ht
    exact norm_image_sub_le_of_norm_deriv_right_le_segment (hyc.mono fun r hr => ⟨hs.trans hr.1, hr.2.trans ht⟩)
      (fun r hr => hy r ⟨hs.trans hr.1, hr.2.trans_le ht⟩) (fun r hr => hM r ⟨hs.trans hr.1, hr.2.le.trans ht⟩) t ⟨hst, le_rfl⟩
  -- and differs from its tangent by a term of second order
  have htan : ∀ s, 0 ≤ s → s + h ≤ T → ‖y (s + h) - (y s + h • f (y s) u)‖ ≤ L * M * h ^ 2 := by
    intro s hs hsT
    have hsT' : s ≤ T := by linarith
    have key := norm_image_sub_le_of_norm_deriv_right_le_segment (f := fun r => y r - (r - s) • f (y s) u)
      (f' := fun r => f (y r) u - f (y s) u) (a := s) (b := s + h) (C := L * M * h)
      ((hyc.mono fun r hr => ⟨hs.trans hr.1, hr.2.trans hsT⟩).sub (by fun_prop))
      (fun r hr => by
        have h1 := hy r ⟨hs.trans hr.1, hr.2.trans_le hsT⟩
        have h2 : HasDerivWithinAt (fun r : ℝ => (r - s) • f (y s) u) ((1 : ℝ) • f (y s) u) (Set.Ici r) r :=
          (((hasDerivAt_id r).sub_const s).smul_const _).hasDerivWithinAt
        rw [one_smul] at h2
        exact h1.sub h2)
      (fun r hr => by
        refine (l _ _).trans ?_
        have := hmove s r hs hr.1 (hr.2.le.trans hsT)
        have h3 : M * (r - s) ≤ M * h := mul_le_mul_of_nonneg_left (by linarith [hr.2]) hM0
        have := mul_le_mul_of_nonneg_left (this.trans h3) L.coe_nonneg
        exact this.trans_eq (by ring))
      (s + h) ⟨by linarith, le_rfl⟩
    have e : y (s + h) - (s + h - s) • f (y s) u - (y s - (s - s) • f (y s) u) = y (s + h) - (y s + h • f (y s) u) := by
      rw [add_sub_cancel_left, sub_self, zero_smul]
      abel
    rw [e] at key
    exact key.trans_eq (by ring)
  have main : ∀ m : ℕ, m ≤ n → ‖rk4Loop f h u m x0 - y (m * h)‖ ≤ 2 * L * M * h ^ 2 * m * (1 + 2 * L * h) ^ m := by
    intro m
    induction m with
    | zero => intro _; simp [rk4Loop, h0]
    | succ m ih =>
      intro hm
      have ih := ih (by omega)
      have hmT : (m : ℝ) * h + h ≤ T := by
        have : ((m + 1 : ℕ) : ℝ) * h ≤ n * h := mul_le_mul_of_nonneg_right (by exact_mod_cast hm) hh
        push_cast at this
        linarith
      have hm0 : 0 ≤ (m : ℝ) * h := by positivity
      have e : rk4Loop f h u (m + 1) x0 - y ((m + 1 : ℕ) * h) =
          (rk4Step f h u (rk4Loop f h u m x0) - rk4Step f h u (y (m * h))) +
          (rk4Step f h u (y (m * h)) - (y (m * h) + h • f (y (m * h)) u)) -
          (y (m * h + h) - (y (m * h) + h • f (y (m * h)) u)) := by
        rw [rk4Loop_add, show ((m + 1 : ℕ) : ℝ) * h = m * h + h by push_cast; ring]
        simp only [rk4Loop]
        abel
      rw [e]
      have t1 := rk4Step_lip hf hh hL (rk4Loop f h u m x0) (y (m * h))
      have t2 := rk4Step_euler hf hh hL (y (m * h)) (hM _ ⟨hm0, by linarith⟩)
      have t3 := htan (m * h) hm0 hmT
      have t4 : ‖rk4Step f h u (rk4Loop f h u m x0) - rk4Step f h u (y (m * h)) +
          (rk4Step f h u (y (m * h)) - (y (m * h) + h • f (y (m * h)) u)) -
          (y (m * h + h) - (y (m * h) + h • f (y (m * h)) u))‖ ≤
          (1 + 2 * L * h) * ‖rk4Loop f h u m x0 - y (m * h)‖ + L * M * h ^ 2 + L * M * h ^ 2 :=
        (norm_sub_le _ _).trans (add_le_add ((norm_add_le _ _).trans (add_le_add t1 t2)) t3)
      refine t4.trans ?_
      set q : ℝ := 1 + 2 * L * h with hq
      have hq1 : 1 ≤ q := by
        have : 0 ≤ 2 * L * h := by positivity
        linarith
      have hqm : 1 ≤ q ^ (m + 1) := one_le_pow₀ hq1
      have u1 := mul_le_mul_of_nonneg_left ih (by linarith : (0 : ℝ) ≤ q)
      have u2 : 2 * (L * M * h ^ 2) * 1 ≤ 2 * (L * M * h ^ 2) * q ^ (m + 1) :=
        mul_le_mul_of_nonneg_left hqm (by positivity)
      push_cast
      have e1 : 2 * L * M * h ^ 2 * (m + 1) * q ^ (m + 1) =
          q * (2 * L * M * h ^ 2 * m * q ^ m) + 2 * (L * M * h ^ 2) * q ^ (m + 1) := by
        rw [pow_succ]
        ring
      rw [e1]
      linarith
  refine (main n le_rfl).trans ?_
  have hexp : (1 + 2 * L * h) ^ n ≤ Real.exp (2 * L * (n * h)) := by
    have h1 : 1 + 2 * L * h ≤ Real.exp (2 * L * h) := by
      have := Real.add_one_le_exp (2 * L * h)
      linarith
    calc (1 + 2 * L * h) ^ n ≤ Real.exp (2 * L * h) ^ n := pow_le_pow_left₀ (by positivity) h1 n
      _ = _ := by
        rw [← Real.exp_nat_mul]
        congr 1
        ring
  have := mul_le_mul_of_nonneg_left hexp (by positivity : 0 ≤ 2 * L * M * h ^ 2 * n)
  refine this.trans_eq ?_
  ring

/-- C95. The simulation converges to the motion when the number of steps grows. -/
theorem C95_converges (f : E → U → E) (controller : E → U) (x0 : E) {L : NNReal} (hf : LipschitzWith L fun x => f x (controller x0))
    {y : ℝ → E} {T : ℝ} (hT : 0 ≤ T) (hyc : ContinuousOn y (Set.Icc 0 T))
    (hy : ∀ t ∈ Set.Ico 0 T, HasDerivWithinAt y (f (y t) (controller x0)) (Set.Ici t) t) (h0 : y 0 = x0) :
    Tendsto (fun n : ℕ => (rk4ConstantControl f controller x0 (T / n) n).1) atTop (𝓝 (y T)) := by
  have hc : ContinuousOn (fun t => f (y t) (controller x0)) (Set.Icc 0 T) := hf.continuous.comp_continuousOn hyc
  obtain ⟨M, hM⟩ := isCompact_Icc.exists_bound_of_continuousOn hc
  have ht : Tendsto (fun n : ℕ => T / (n : ℝ)) atTop (𝓝 0) := tendsto_const_div_atTop_nhds_zero_nat T
  rw [tendsto_iff_norm_sub_tendsto_zero]
  have hlim : Tendsto (fun n : ℕ => 2 * L * M * T * (T / n) * Real.exp (2 * L * T)) atTop (𝓝 0) := by
    have := (ht.const_mul (2 * L * M * T)).mul_const (Real.exp (2 * L * T))
    simpa using this
  refine squeeze_zero' (Eventually.of_forall fun n => norm_nonneg _) ?_ hlim
  have hev : ∀ᶠ n : ℕ in atTop, (L : ℝ) * (T / n) < 1 := by
    have : Tendsto (fun n : ℕ => (L : ℝ) * (T / n)) atTop (𝓝 (L * 0)) := ht.const_mul _
    rw [mul_zero] at this
    exact this.eventually (gt_mem_nhds one_pos)
  filter_upwards [hev, eventually_gt_atTop 0] with n hn hn0
  have hn' : (n : ℝ) ≠ 0 := by positivity
  have e : (n : ℝ) * (T / n) = T := by field_simp
  have := C95_error f controller x0 hf hyc hy h0 hM (h := T / n) (by positivity) hn.le n e.le
  rwa [e] at this

end

/-! ## The hypotheses are met: the unicycle, and a linear system with its exact motion -/

example (u : Fin 2 → ℝ) (x : Fin 3 → ℝ) : ContDiffAt ℝ 4 (fun x => unicycleDyn x u) x := by
  apply ContDiff.contDiffAt
  rw [contDiff_pi]
  intro i
  fin_cases i <;> simp [unicycleDyn] <;> fun_prop

/-- The linear system with the state `x` and the rate `u`. -/
example (a x0 : ℝ) : ∃ y : ℝ → ℝ, y 0 = x0 ∧ Continuous y ∧
    (∀ t, HasDerivWithinAt y ((fun x u : ℝ => u * x) (y t) a) (Set.Ici t) t) ∧
    (fun dt => (rk4ConstantControl (fun x u : ℝ => u * x) (fun _ => a) x0 dt 1).1 - y dt) =O[𝓝[≥] 0] (fun dt : ℝ => dt ^ 5) ∧
    Tendsto (fun n : ℕ => (rk4ConstantControl (fun x u : ℝ => u * x) (fun _ => a) x0 ((1 : ℝ) / n) n).1) atTop (𝓝 (y 1)) := by
  have hy : ∀ t : ℝ, HasDerivAt (fun t => Real.exp (a * t) * x0) (a * (Real.exp (a * t) * x0)) t := by
    intro t
    have := (((hasDerivAt_id t).const_mul a).exp).mul_const x0
    refine this.congr_deriv ?_
    simp only [id, mul_one]
    ring
  have hL : LipschitzWith ‖a‖₊ fun x : ℝ => a * x := by
    refine LipschitzWith.of_dist_le_mul fun x y => ?_
    rw [Real.dist_eq, Real.dist_eq, ← mul_sub, abs_mul]
    simp
  have hcont : Continuous fun t : ℝ => Real.exp (a * t) * x0 := by fun_prop
  refine ⟨fun t => Real.exp (a * t) * x0, by simp, hcont, fun t => (hy t).hasDerivWithinAt, ?_, ?_⟩
  · exact C95_order (fun x u : ℝ => u * x) (fun _ => a) x0 (by fun_prop) one_pos (fun t _ => (hy t).hasDerivWithinAt) hcont.continuousOn (by simp)
  · exact C95_converges (fun x u : ℝ => u * x) (fun _ => a) x0 (y := fun t => Real.exp (a * t) * x0) hL zero_le_one hcont.continuousOn
      (fun t _ => (hy t).hasDerivWithinAt) (by simp)

end NNL.Props
