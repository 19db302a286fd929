import Verif.Spec.QuadEnv
import Verif.Model.QuadEnv
import Verif.Props.Td3
import Mathlib.Analysis.Calculus.MeanValue
import Mathlib.Analysis.Calculus.Deriv.Pow
import Mathlib.Analysis.SpecialFunctions.Trigonometric.Deriv
import Mathlib.Tactic.FinCases
import Mathlib.Tactic.Positivity

/-!
C123: the quadrotor environment, and running a policy in an environment.
-/

set_option linter.unusedSectionVars false

namespace NNL.Props

open NNL NNL.Model NNL.Spec Set Matrix

/-! ## Rewards -/

theorem hoverCost_nonneg {len : ℝ} (hl : 0 < len) (thrust : ℝ) (x : Fin 6 → ℝ) (u : Fin 2 → ℝ) : 0 ≤ hoverCost len thrust x u := by
  have h5 : 0 ≤ len / (2 * Real.pi) * x 5 ^ 2 := by positivity
  have hu : 0 ≤ (u 0 - thrust) ^ 2 + (u 0 - thrust) * (u 1 - thrust) + (u 1 - thrust) ^ 2 := by
    nlinarith [sq_nonneg (u 0 - thrust + (u 1 - thrust)), sq_nonneg (u 0 - thrust), sq_nonneg (u 1 - thrust)]
  unfold hoverCost
  have := sq_nonneg (x 0); have := sq_nonneg (x 1); have := sq_nonneg (x 2); have := sq_nonneg (x 3); have := sq_nonneg (x 4)
  linarith

theorem hoverCost_zero {len : ℝ} (hl : 0 < len) (thrust : ℝ) (x : Fin 6 → ℝ) (u : Fin 2 → ℝ) :
    hoverCost len thrust x u = 0 ↔ x = 0 ∧ u = fun _ => thrust := by
  constructor
  · intro h
    have hc : 0 < len / (2 * Real.pi) := by positivity
    have h5 : 0 ≤ len / (2 * Real.pi) * x 5 ^ 2 := by positivity
    have hsum : 0 ≤ (u 0 - thrust + (u 1 - thrust)) ^ 2 := sq_nonneg _
    have a0 := sq_nonneg (x 0); have a1 := sq_nonneg (x 1); have a2 := sq_nonneg (x 2); have a3 := sq_nonneg (x 3)
    have a4 := sq_nonneg (x 4); have b0 := sq_nonneg (u 0 - thrust); have b1 := sq_nonneg (u 1 - thrust)
    have hq : (u 0 - thrust) ^ 2 + (u 0 - thrust) * (u 1 - thrust) + (u 1 - thrust) ^ 2 =
        ((u 0 - thrust) ^ 2 + (u 1 - thrust) ^ 2 + (u 0 - thrust + (u 1 - thrust)) ^ 2) / 2 := by ring
    unfold hoverCost at h
    rw [hq] at h
    have sq0 : ∀ {a : ℝ}, a ^ 2 = 0 → a = 0 := fun ha => pow_eq_zero_iff two_ne_zero |>.1 ha
    have e0 : x 0 = 0 := sq0 (by linarith)
    have e1 : x 1 = 0 := sq0 (by linarith)
    have e2 : x 2 = 0 := sq0 (by linarith)
    have e3 : x 3 = 0 := sq0 (by linarith)
    have e4 : x 4 = 0 := sq0 (by linarith)
    have e5' : len / (2 * Real.pi) * x 5 ^ 2 = 0 := by linarith
    have e5 : x 5 = 0 := sq0 ((mul_eq_zero.1 e5').resolve_left hc.ne')
    have f0 : u 0 - thrust = 0 := sq0 (by linarith)
    have f1 : u 1 - thrust = 0 := sq0 (by linarith)
    refine ⟨?_, ?_⟩ <;> funext i <;> fin_cases i <;> simp <;> linarith
  · rintro ⟨rfl, rfl⟩
    simp [hoverCost]

section Env

variable (next : (Fin 6 → ℝ) → (Fin 2 → ℝ) → ℝ → Fin 6 → ℝ) (draw : ℕ → Fin 6 → ℝ)

theorem quad_length : 0 < Planar.quad.length := by norm_num [Planar.quad]

theorem quadEnv_step (s : QuadEnvSt) (a : Fin 2 → ℝ) : (quadEnv next draw).step s a =
    ((next s.x a 0.01, -hoverCost Planar.quad.length (Planar.quad.mass * Planar.quad.gravity / 2) (next s.x a 0.01) a, false),
      ⟨next s.x a 0.01, s.t + 0.01, s.used⟩) := by
  simp only [quadEnv, quadEnvStep]
  congr 3
  simp [hoverCost, quadEnvR, quadEnvQ, dotProduct, mulVec, Fin.sum_univ_succ, Matrix.diagonal, Planar.quadHover]
  ring

/-- **C123** (a step). The reward of a step is minus the cost of the state it leads to and of its action: it is never positive, and zero
exactly for the thrusts of hovering, if they lead to the origin. The observation is the new state, an episode is never ended. -/
theorem C123_reward (s : QuadEnvSt) (a : Fin 2 → ℝ) (o : Fin 6 → ℝ) (r : ℝ) (d : Bool) (s' : QuadEnvSt)
    (h : (quadEnv next draw).step s a = ((o, r, d), s')) :
    r = -hoverCost 0.25 (0.486 * 9.81 / 2) o a ∧ r ≤ 0 ∧ (r = 0 ↔ o = 0 ∧ a = fun _ => 0.486 * 9.81 / 2) ∧ d = false ∧
      s'.x = o ∧ s'.t = s.t + 0.01 := by
  rw [quadEnv_step] at h
  simp only [Prod.mk.injEq] at h
  obtain ⟨⟨rfl, rfl, rfl⟩, rfl⟩ := h
  have e1 : Planar.quad.length = 0.25 := rfl
  have e2 : Planar.quad.mass * Planar.quad.gravity / 2 = 0.486 * 9.81 / 2 := rfl
  rw [e1, e2]
  refine ⟨rfl, ?_, ?_, rfl, rfl, rfl⟩
  · have := hoverCost_nonneg (len := 0.25) (by norm_num) (0.486 * 9.81 / 2) (next s.x a 0.01) a
    linarith
  · rw [neg_eq_zero]
    exact hoverCost_zero (by norm_num) _ _ _

/-- **C123** (reset). Draws from `[0, 1)` give observations in the box of the observation space, every point of which but its upper faces is
possible; the clock is set to zero. -/
theorem C123_reset (s : QuadEnvSt) (hd : ∀ i, 0 ≤ draw s.used i ∧ draw s.used i < 1) :
    (∀ i, quadEnvLo i ≤ ((quadEnv next draw).reset s).1 i ∧ ((quadEnv next draw).reset s).1 i < -quadEnvLo i) ∧
      ((quadEnv next draw).reset s).2.x = ((quadEnv next draw).reset s).1 ∧ ((quadEnv next draw).reset s).2.t = 0 ∧
      ∀ x : Fin 6 → ℝ, (∀ i, quadEnvLo i ≤ x i ∧ x i < -quadEnvLo i) →
        ∃ v : Fin 6 → ℝ, (∀ i, 0 ≤ v i ∧ v i < 1) ∧ ((quadEnv next fun _ => v).reset s).1 = x := by
  have hlo : ∀ i, quadEnvLo i < 0 := by
    intro i
    have := Real.pi_pos
    fin_cases i <;> simp [quadEnvLo] <;> linarith
  refine ⟨fun i => ?_, rfl, rfl, fun x hx => ⟨fun i => (x i - quadEnvLo i) / (-quadEnvLo i - quadEnvLo i), fun i => ?_, ?_⟩⟩
  · simp only [quadEnv, quadEnvReset]
    have := hd i
    have := hlo i
    constructor <;> nlinarith
  · have := hlo i
    have := hx i
    rw [div_lt_one (by linarith)]
    exact ⟨div_nonneg (by linarith) (by linarith), by linarith⟩
  · funext i
    simp only [quadEnv, quadEnvReset]
    have := hlo i
    rw [div_mul_cancel₀ _ (by linarith)]
    ring

/-! ## Histories -/

/-- **C123** (histories). In any sequence of actions each observation is where a motion of the quadrotor under that action, started at the
observation before, is 0.01 later; no episode is ended, and the clock counts the steps. -/
theorem C123_history (hn : Samples Planar.quad.quadDyn next) (s : QuadEnvSt) (as : List (Fin 2 → ℝ)) :
    let out := (answers (quadEnv next draw) s as).1
    out.length = as.length ∧ (∀ q ∈ out, q.2.2 = false) ∧ (answers (quadEnv next draw) s as).2.t = s.t + 0.01 * as.length ∧
      ∀ (k : ℕ) a, as[k]? = some a → ∃ x y : Fin 6 → ℝ, (s.x :: out.map Prod.fst)[k]? = some x ∧ (out.map Prod.fst)[k]? = some y ∧
        ∃ X : ℝ → Fin 6 → ℝ, X 0 = x ∧ X 0.01 = y ∧
          ∀ t ∈ Icc (0 : ℝ) 0.01, ∀ i, HasDerivWithinAt (fun v => X v i) (Planar.quad.quadDyn (X t) a i) (Icc 0 0.01) t := by
  induction as generalizing s with
  | nil => simp [answers]
  | cons a as ih =>
    obtain ⟨i1, i2, i3, i4⟩ := ih ((quadEnv next draw).step s a).2
    simp only [answers]
    refine ⟨by simp [i1], ?_, ?_, ?_⟩
    · intro q hq
      rcases List.mem_cons.1 hq with rfl | hq
      · rfl
      · exact i2 q hq
    · rw [i3, quadEnv_step]
      push_cast [List.length_cons]
      ring
    · intro k b hb
      cases k with
      | zero =>
        simp only [List.getElem?_cons_zero, Option.some.injEq] at hb
        subst hb
        obtain ⟨X, h0, hX, h1⟩ := hn s.x a 0.01 (by norm_num)
        exact ⟨s.x, _, by simp, by simp; rfl, X, h0, by rw [← h1]; rfl, hX⟩
      | succ k =>
        rw [List.getElem?_cons_succ] at hb
        obtain ⟨x, y, hx, hy, X⟩ := i4 k b hb
        refine ⟨x, y, ?_, ?_, X⟩
        · rw [List.getElem?_cons_succ, List.map_cons]
          exact hx
        · rw [List.map_cons, List.getElem?_cons_succ]
          exact hy

theorem discounted_nonpos {γ : ℝ} (hγ : 0 ≤ γ) {rs : List ℝ} (h : ∀ r ∈ rs, r ≤ 0) : discounted γ rs ≤ 0 := by
  induction rs with
  | nil => exact le_rfl
  | cons r rs ih =>
    have h1 := ih fun r hr => h r (List.mem_cons_of_mem _ hr)
    have h2 := h r List.mem_cons_self
    simp only [discounted]
    nlinarith

theorem discounted_zero {γ : ℝ} (hγ : 0 < γ) {rs : List ℝ} (h : ∀ r ∈ rs, r ≤ 0) : discounted γ rs = 0 ↔ ∀ r ∈ rs, r = 0 := by
  induction rs with
  | nil => simp [discounted]
  | cons r rs ih =>
    have hr := fun r hr => h r (List.mem_cons_of_mem _ hr)
    have h1 := discounted_nonpos hγ.le hr
    have h2 := h r List.mem_cons_self
    rw [List.forall_mem_cons, ← ih hr]
    simp only [discounted]
    constructor
    · intro hz
      have h3 : γ * discounted γ rs ≤ 0 := mul_nonpos_of_nonneg_of_nonpos hγ.le h1
      have h4 : r = 0 := by linarith
      exact ⟨h4, by
        have : γ * discounted γ rs = 0 := by linarith
        exact (mul_eq_zero.1 this).resolve_left hγ.ne'⟩
    · rintro ⟨e1, e2⟩
      rw [e1, e2]
      ring

/-- A function with derivative zero on an interval stays where it starts. -/
theorem const_of_deriv_zero {f : ℝ → ℝ} {T : ℝ} (hf : ∀ t ∈ Icc 0 T, HasDerivWithinAt f 0 (Icc 0 T) t) :
    ∀ t ∈ Icc 0 T, f t = f 0 := by
  intro t ht
  have h0 : (0 : ℝ) ∈ Icc 0 T := ⟨le_rfl, ht.1.trans ht.2⟩
  have := (convex_Icc 0 T).norm_image_sub_le_of_norm_hasDerivWithin_le (f := f) (f' := fun _ => 0) (C := 0)
    (fun x hx => hf x hx) (fun x _ => by simp) h0 ht
  rw [zero_mul, norm_le_zero_iff, sub_eq_zero] at this
  exact this

/-- Hovering is a fixed point of exact integration. -/
theorem samples_hover (hn : Samples Planar.quad.quadDyn next) {dt : ℝ} (hdt : 0 ≤ dt) : next 0 Planar.quad.quadHover dt = 0 := by
  obtain ⟨X, h0, hX, h1⟩ := hn 0 Planar.quad.quadHover dt hdt
  have hd : dt ∈ Icc 0 dt := ⟨hdt, le_rfl⟩
  have z : ∀ i, X 0 i = 0 := fun i => by rw [h0]; rfl
  have k5 : ∀ t ∈ Icc 0 dt, X t 5 = 0 := by
    intro t ht
    rw [const_of_deriv_zero (f := fun s => X s 5) (fun t ht => ?_) t ht]
    · exact z 5
    · have := hX t ht 5
      simpa [Planar.quadDyn, Planar.quadHover] using this
  have k2 : ∀ t ∈ Icc 0 dt, X t 2 = 0 := by
    intro t ht
    rw [const_of_deriv_zero (f := fun s => X s 2) (fun t ht => ?_) t ht]
    · exact z 2
    · have := hX t ht 2
      simpa [Planar.quadDyn, k5 t ht] using this
  have k3 : ∀ t ∈ Icc 0 dt, X t 3 = 0 := by
    intro t ht
    rw [const_of_deriv_zero (f := fun s => X s 3) (fun t ht => ?_) t ht]
    · exact z 3
    · have := hX t ht 3
      simpa [Planar.quadDyn, k2 t ht] using this
  have k4 : ∀ t ∈ Icc 0 dt, X t 4 = 0 := by
    intro t ht
    rw [const_of_deriv_zero (f := fun s => X s 4) (fun t ht => ?_) t ht]
    · exact z 4
    · have := hX t ht 4
      have e : Planar.quad.quadDyn (X t) Planar.quad.quadHover 4 = 0 := by
        simp [Planar.quadDyn, k2 t ht, Planar.quadHover, Planar.quad]
        norm_num
      rwa [e] at this
  have k0 : ∀ t ∈ Icc 0 dt, X t 0 = 0 := by
    intro t ht
    rw [const_of_deriv_zero (f := fun s => X s 0) (fun t ht => ?_) t ht]
    · exact z 0
    · have := hX t ht 0
      simpa [Planar.quadDyn, k3 t ht] using this
  have k1 : ∀ t ∈ Icc 0 dt, X t 1 = 0 := by
    intro t ht
    rw [const_of_deriv_zero (f := fun s => X s 1) (fun t ht => ?_) t ht]
    · exact z 1
    · have := hX t ht 1
      simpa [Planar.quadDyn, k4 t ht] using this
  rw [h1]
  funext i
  fin_cases i
  exacts [k0 dt hd, k1 dt hd, k2 dt hd, k3 dt hd, k4 dt hd, k5 dt hd]

/-- **C123** (hovering is optimal). The discounted return of any sequence of actions is at most zero. It is zero only if every action is the
thrust of hovering and every observation is the origin; at the origin, where the environment is created, that sequence of actions
does have the return zero, and it respects the limits of the actions. -/
theorem C123_optimal (hn : Samples Planar.quad.quadDyn next) {γ : ℝ} (hγ : 0 < γ) (s : QuadEnvSt) (as : List (Fin 2 → ℝ)) :
    let out := (answers (quadEnv next draw) s as).1
    discounted γ (out.map fun q => q.2.1) ≤ 0 ∧
      (discounted γ (out.map fun q => q.2.1) = 0 →
        (∀ a ∈ as, a = fun _ => 0.486 * 9.81 / 2) ∧ ∀ q ∈ out, q.1 = 0) ∧
      (s.x = 0 → as = List.replicate as.length (fun _ => 0.486 * 9.81 / 2) → discounted γ (out.map fun q => q.2.1) = 0) ∧
      quadEnvInit.x = 0 ∧ (0 : ℝ) ≤ 0.486 * 9.81 / 2 ∧ (0.486 * 9.81 / 2 : ℝ) ≤ 8 := by
  have key : ∀ s : QuadEnvSt, (∀ r ∈ ((answers (quadEnv next draw) s as).1.map fun q => q.2.1), r ≤ 0) ∧
      ((∀ r ∈ ((answers (quadEnv next draw) s as).1.map fun q => q.2.1), r = 0) →
        (∀ a ∈ as, a = fun _ => 0.486 * 9.81 / 2) ∧ ∀ q ∈ (answers (quadEnv next draw) s as).1, q.1 = 0) ∧
      (s.x = 0 → (∀ a ∈ as, a = fun _ => 0.486 * 9.81 / 2) →
        ∀ r ∈ ((answers (quadEnv next draw) s as).1.map fun q => q.2.1), r = 0) := by
    induction as with
    | nil => intro s; simp [answers]
    | cons a as ih =>
      intro s
      obtain ⟨i1, i2, i3⟩ := ih ((quadEnv next draw).step s a).2
      obtain ⟨-, c2, c3, -, c5, -⟩ := C123_reward next draw s a _ _ _ _ rfl
      simp only [answers, List.map_cons, List.forall_mem_cons]
      refine ⟨⟨c2, i1⟩, ?_, ?_⟩
      · rintro ⟨h1, h2⟩
        obtain ⟨b1, b2⟩ := c3.1 h1
        obtain ⟨d1, d2⟩ := i2 h2
        exact ⟨⟨b2, d1⟩, b1, d2⟩
      · rintro h0 ⟨rfl, h2⟩
        have hz : ((quadEnv next draw).step s fun _ => 0.486 * 9.81 / 2).1.1 = 0 := by
          rw [quadEnv_step, h0]
          exact samples_hover next hn (by norm_num)
        exact ⟨c3.2 ⟨hz, rfl⟩, i3 (c5.trans hz) h2⟩
  obtain ⟨k1, k2, k3⟩ := key s
  refine ⟨discounted_nonpos hγ.le k1, fun hz => k2 ((discounted_zero hγ k1).1 hz), fun h0 has => ?_, rfl, by norm_num, by norm_num⟩
  refine (discounted_zero hγ k1).2 (k3 h0 fun a ha => ?_)
  rw [has] at ha
  exact List.eq_of_mem_replicate ha

/-- **C123** (the observation space is not respected). From a state of the box an action within its limits leads out of the box: without
thrust the quadrotor falls through the lower side. -/
theorem C123_leaves (hn : Samples Planar.quad.quadDyn next) : ∃ (s : QuadEnvSt) (a : Fin 2 → ℝ),
    (∀ i, quadEnvLo i ≤ s.x i ∧ s.x i ≤ -quadEnvLo i) ∧ (∀ i, 0 ≤ a i ∧ a i ≤ 8) ∧
      ((quadEnv next draw).step s a).1.1 1 < quadEnvLo 1 := by
  refine ⟨⟨![0, -0.3, 0, 0, 0, 0], 0, 0⟩, 0, ?_, fun i => ⟨le_rfl, by norm_num⟩, ?_⟩
  · intro i
    have := Real.pi_pos
    fin_cases i <;> simp [quadEnvLo] <;> (norm_num; try exact this.le)
  · obtain ⟨X, h0, hX, h1⟩ := hn ![0, -0.3, 0, 0, 0, 0] 0 0.01 (by norm_num)
    have hg : Planar.quad.gravity = 9.81 := rfl
    have e : ∀ i, X 0 i = (![0, -0.3, 0, 0, 0, 0] : Fin 6 → ℝ) i := fun i => by rw [h0]
    have k4 : ∀ t ∈ Icc (0 : ℝ) 0.01, X t 4 = -9.81 * t := by
      intro t ht
      have hd : ∀ t ∈ Icc (0 : ℝ) 0.01, HasDerivWithinAt (fun s => X s 4 + 9.81 * s) 0 (Icc 0 0.01) t := by
        intro t ht
        have := (hX t ht 4).add ((hasDerivWithinAt_id t (Icc 0 0.01)).const_mul 9.81)
        refine this.congr_deriv ?_
        simp [Planar.quadDyn, hg]
      have := const_of_deriv_zero hd t ht
      simp only [e] at this
      simp at this
      linarith
    have k1 : ∀ t ∈ Icc (0 : ℝ) 0.01, X t 1 = -0.3 - 9.81 / 2 * t ^ 2 := by
      intro t ht
      have hd : ∀ t ∈ Icc (0 : ℝ) 0.01, HasDerivWithinAt (fun s => X s 1 + 9.81 / 2 * s ^ 2) 0 (Icc 0 0.01) t := by
        intro t ht
        have := (hX t ht 1).add (((hasDerivWithinAt_id t (Icc 0 0.01)).pow 2).const_mul (9.81 / 2))
        refine this.congr_deriv ?_
        simp [Planar.quadDyn, k4 t ht]
        ring
      have := const_of_deriv_zero hd t ht
      simp only [e] at this
      simp at this
      linarith
    rw [quadEnv_step]
    simp only [h1]
    rw [k1 0.01 ⟨by norm_num, le_rfl⟩]
    simp [quadEnvLo]
    norm_num

/-! ## Policies -/

/-- **C123** (training). `td3` in this environment resets it exactly every `max_ep_len` steps, never records `done`, and all rewards it
stores are minus the costs. -/
theorem C123_td3 {N M SP SQ : Type} (act : List ℝ → (Fin 6 → ℝ) → N → Fin 2 → ℝ)
    (F : Td3Fns ℝ (Batch (Fin 6 → ℝ) (Fin 2 → ℝ) ℝ × M) SP SQ) (c : Td3Cfg ℝ) (hc : 0 < c.maxEpLen)
    (w : ℕ → Td3Draw (Fin 2 → ℝ) N M) (o0 : Fin 6 → ℝ) (a0 : Fin 2 → ℝ) (n : Td3Nets ℝ SP SQ) (e0 : QuadEnvSt) (T : ℕ)
    (s : Td3St QuadEnvSt (Fin 6 → ℝ) (Fin 2 → ℝ) ℝ SP SQ) (hd : ∀ k i, 0 ≤ draw k i ∧ draw k i < 1)
    (h : td3Loop (quadEnv next draw) act F c w T (td3Init (quadEnv next draw) o0 a0 c n e0) = some s) (t : ℕ)
    (tr : Transition (Fin 6 → ℝ) (Fin 2 → ℝ) ℝ) (ht : s.log[t]? = some tr) :
    tr.done = 0 ∧ tr.rew = -hoverCost 0.25 (0.486 * 9.81 / 2) tr.nextObs tr.act ∧
      (t % c.maxEpLen = 0 → ∀ i, quadEnvLo i ≤ tr.obs i ∧ tr.obs i < -quadEnvLo i) ∧
      ((t + 1) % c.maxEpLen ≠ 0 → ∀ tr', s.log[t + 1]? = some tr' → tr'.obs = tr.nextObs) := by
  obtain ⟨-, e, o, start, hE⟩ := C114_episodes (quadEnv next draw) act F c w o0 a0 n e0 T s h
  have hstart : ∀ t ≤ s.log.length, start t = t - t % c.maxEpLen := by
    intro t
    induction t with
    | zero => intro _; rw [hE.first.2]; simp
    | succ t ih =>
      intro hlt
      have hi := ih (by omega)
      obtain ⟨d, e', hs, s1, -, s3⟩ := hE.step t s.log[t] (List.getElem?_eq_getElem _)
      have hdf : d = false := (C123_reward next draw _ _ _ _ _ _ hs).2.2.2.1
      have hm := Nat.mod_lt t hc
      have hle := Nat.mod_le t c.maxEpLen
      by_cases hm' : t + 1 - start t = c.maxEpLen
      · rw [(s1 hm').2.2]
        have : (t + 1) % c.maxEpLen = 0 := by
          rw [Nat.add_mod, show t % c.maxEpLen = c.maxEpLen - 1 by omega]
          rcases Nat.lt_or_ge 1 c.maxEpLen with h1 | h1
          · rw [Nat.mod_eq_of_lt h1, show c.maxEpLen - 1 + 1 = c.maxEpLen by omega, Nat.mod_self]
          · have : c.maxEpLen = 1 := by omega
            simp [this]
        omega
      · rw [(s3 hm' hdf).2.2, hi]
        have : (t + 1) % c.maxEpLen = t % c.maxEpLen + 1 := by
          have h1 : t % c.maxEpLen + 1 < c.maxEpLen := by omega
          rw [← Nat.mod_add_mod, Nat.mod_eq_of_lt h1]
        omega
  have htl : t < s.log.length := (List.getElem?_eq_some_iff.1 ht).1
  obtain ⟨d, e', hs, s1, -, s3⟩ := hE.step t tr ht
  obtain ⟨r1, -, -, hdf, -, -⟩ := C123_reward next draw _ _ _ _ _ _ hs
  have hbox : ∀ t, (∃ e1, (o t, e t) = (quadEnv next draw).reset e1) → ∀ i, quadEnvLo i ≤ o t i ∧ o t i < -quadEnvLo i := by
    rintro t ⟨e1, he⟩ i
    have := (C123_reset next draw e1 (hd _)).1 i
    rwa [← he] at this
  refine ⟨?_, r1, fun hm => ?_, fun hm tr' ht' => ?_⟩
  · by_cases hm' : t + 1 - start t = c.maxEpLen
    · exact (s1 hm').1
    · exact (s3 hm' hdf).1
  · rw [(hE.before t tr ht).2]
    apply hbox
    cases t with
    | zero => exact ⟨e0, hE.first.1⟩
    | succ t =>
      obtain ⟨d, e'', hs', s1', -, s3'⟩ := hE.step t s.log[t] (List.getElem?_eq_getElem _)
      have hdf' : d = false := (C123_reward next draw _ _ _ _ _ _ hs').2.2.2.1
      by_cases hm' : t + 1 - start t = c.maxEpLen
      · exact ⟨e'', (s1' hm').2.1⟩
      · have h1 := (s3' hm' hdf').2.2
        rw [hstart (t + 1) (by omega), hstart t (by omega), hm] at h1
        omega
  · have htl' : t + 1 < s.log.length := (List.getElem?_eq_some_iff.1 ht').1
    by_cases hm' : t + 1 - start t = c.maxEpLen
    · have h1 := (s1 hm').2.2
      rw [hstart (t + 1) htl'.le] at h1
      have := Nat.mod_le (t + 1) c.maxEpLen
      omega
    · have h1 := (s3 hm' hdf).2.1
      rw [(hE.before (t + 1) tr' ht').2]
      exact congrArg Prod.fst h1

end Env

section Loops

variable {K E O A : Type} [Field K] (G : GymEnv E O A K) (pol : O → A)

theorem testEpisode_eq (hG : ∀ e a, (G.step e a).1.2.2 = false) (k : ℕ) (e : E) (o : O) (ret : K) :
    testEpisode G pol k e o false ret =
      (ret + ((rollout G pol k e o).1.map fun q => q.2.1).sum, (rollout G pol k e o).2) := by
  induction k generalizing e o ret with
  | zero => simp [testEpisode, rollout]
  | succ k ih =>
    simp only [testEpisode, rollout, Bool.false_eq_true, if_false, hG]
    rw [ih]
    simp [add_assoc]

theorem testEpisodes_eq (hG : ∀ e a, (G.step e a).1.2.2 = false) (k num : ℕ) (e : E) (m : K) :
    testEpisodes G pol k num e m =
      (m + ((rollouts G pol k num e).1.map fun l => (l.map fun q => q.2.1).sum).sum, (rollouts G pol k num e).2) := by
  induction num generalizing e m with
  | zero => simp [testEpisodes, rollouts]
  | succ num ih =>
    simp only [testEpisodes, rollouts, testEpisode_eq G pol hG, zero_add]
    rw [ih]
    simp [add_assoc]

theorem rollout_length (k : ℕ) (e : E) (o : O) : (rollout G pol k e o).1.length = k := by
  induction k generalizing e o with
  | zero => rfl
  | succ k ih => simp [rollout, ih]

theorem rollouts_length (k num : ℕ) (e : E) :
    (rollouts G pol k num e).1.length = num ∧ ∀ l ∈ (rollouts G pol k num e).1, l.length = k := by
  induction num generalizing e with
  | zero => simp [rollouts]
  | succ num ih =>
    obtain ⟨h1, h2⟩ := ih (rollout G pol k (G.reset e).2 (G.reset e).1).2
    simp only [rollouts]
    refine ⟨by simp [h1], ?_⟩
    intro l hl
    rcases List.mem_cons.1 hl with rfl | hl
    · exact rollout_length G pol _ _ _
    · exact h2 l hl

/-- **C123** (testing). In an environment which never ends an episode the value logged by `test_agent` is the average of the returns of
`num_test_episodes` episodes of `max_ep_len` steps each, every one after a reset; without an episode it raises. -/
theorem C123_test_agent (hG : ∀ e a, (G.step e a).1.2.2 = false) (maxLen num : ℕ) (e : E) :
    (testAgent G pol maxLen num e = none ↔ num = 0) ∧
      (num ≠ 0 → testAgent G pol maxLen num e =
        some (((rollouts G pol maxLen num e).1.map fun l => (l.map fun q => q.2.1).sum).sum / num)) ∧
      (rollouts G pol maxLen num e).1.length = num ∧ ∀ l ∈ (rollouts G pol maxLen num e).1, l.length = maxLen := by
  refine ⟨?_, fun hn => ?_, rollouts_length G pol _ _ _⟩
  · unfold testAgent
    split <;> simp_all
  · unfold testAgent
    rw [if_neg hn, testEpisodes_eq G pol hG, zero_add]

theorem appendLast_append {α : Type} (ls : List (List α)) (l : List α) (a : α) : appendLast (ls ++ [l]) a = ls ++ [l ++ [a]] := by
  induction ls with
  | nil => rfl
  | cons m ls ih =>
    cases ls with
    | nil => rfl
    | cons m' ls => simpa [appendLast] using ih

/-- The passes of one episode. -/
theorem runPolicy_episode (hG : ∀ e a, (G.step e a).1.2.2 = false) (num maxLen : ℕ) (k : ℕ) :
    ∀ (fuel : ℕ) (s : RunPolicySt E O A) (eps : List (List O)) (l : List O) (acts : List (List A)) (m : List A),
      s.n < num → s.epLen + (k + 1) = maxLen → s.episodes = eps ++ [l] → s.actions = acts ++ [m] →
      ∃ m' : List A,
        runPolicyLoop G pol (some maxLen) num (fuel + (k + 1)) s = runPolicyLoop G pol (some maxLen) num fuel
          ⟨(G.reset (rollout G pol (k + 1) s.env s.obs).2).2, (G.reset (rollout G pol (k + 1) s.env s.obs).2).1, 0, s.n + 1,
            (eps ++ [l ++ (rollout G pol (k + 1) s.env s.obs).1.map Prod.fst]) ++ [[]], (acts ++ [m']) ++ [[]]⟩ := by
  induction k with
  | zero =>
    intro fuel s eps l acts m hn hl he ha
    refine ⟨m ++ [pol s.obs], ?_⟩
    rw [show fuel + (0 + 1) = fuel + 1 by omega, runPolicyLoop, if_pos hn]
    congr 1
    simp only [runPolicyStep, hG, he, ha, appendLast_append, rollout, Bool.false_or, Option.some.injEq, decide_eq_true_eq]
    rw [if_pos (by omega)]
    simp
  | succ k ih =>
    intro fuel s eps l acts m hn hl he ha
    have hstep : runPolicyStep G pol (some maxLen) s = ⟨(G.step s.env (pol s.obs)).2, (G.step s.env (pol s.obs)).1.1, s.epLen + 1, s.n,
        eps ++ [l ++ [(G.step s.env (pol s.obs)).1.1]], acts ++ [m ++ [pol s.obs]]⟩ := by
      simp only [runPolicyStep, hG, he, ha, appendLast_append, Bool.false_or, Option.some.injEq, decide_eq_true_eq]
      rw [if_neg (by omega)]
    obtain ⟨m', h⟩ := ih fuel (runPolicyStep G pol (some maxLen) s) eps (l ++ [(G.step s.env (pol s.obs)).1.1]) acts (m ++ [pol s.obs])
      (by rw [hstep]; exact hn) (by rw [hstep]; simp only; omega) (by rw [hstep]) (by rw [hstep])
    refine ⟨m', ?_⟩
    rw [show fuel + (k + 1 + 1) = (fuel + (k + 1)) + 1 by omega, runPolicyLoop, if_pos hn]
    rw [h, hstep]
    simp [rollout]

/-- The loop of `run_policy` from a reset. -/
theorem runPolicy_rest (hG : ∀ e a, (G.step e a).1.2.2 = false) (num maxLen : ℕ) (hm : 0 < maxLen) (j : ℕ) :
    ∀ (e : E) (n : ℕ) (eps : List (List O)) (acts : List (List A)), n + j = num →
      ∃ s', runPolicyLoop G pol (some maxLen) num (j * maxLen) ⟨(G.reset e).2, (G.reset e).1, 0, n, eps ++ [[]], acts ++ [[]]⟩ = some s' ∧
        plotted s' = eps ++ (rollouts G pol maxLen j e).1.map fun l => l.map Prod.fst := by
  induction j with
  | zero =>
    intro e n eps acts hn
    rw [runPolicyLoop.eq_def]
    refine ⟨⟨(G.reset e).2, (G.reset e).1, 0, n, eps ++ [[]], acts ++ [[]]⟩, by simp; omega, ?_⟩
    simp [plotted, rollouts]
  | succ j ih =>
    intro e n eps acts hn
    obtain ⟨k, rfl⟩ : ∃ k, maxLen = k + 1 := ⟨maxLen - 1, by omega⟩
    obtain ⟨m', h⟩ := runPolicy_episode G pol hG num (k + 1) k (j * (k + 1)) ⟨(G.reset e).2, (G.reset e).1, 0, n, eps ++ [[]], acts ++ [[]]⟩
      eps [] acts [] (by simp only; omega) (by simp) rfl rfl
    rw [Nat.add_mul, one_mul, h]
    obtain ⟨s', h1, h2⟩ := ih (rollout G pol (k + 1) (G.reset e).2 (G.reset e).1).2 (n + 1)
      (eps ++ [(rollout G pol (k + 1) (G.reset e).2 (G.reset e).1).1.map Prod.fst]) (acts ++ [m']) (by omega)
    refine ⟨s', ?_, ?_⟩
    · simpa using h1
    · rw [h2]
      simp [rollouts]

theorem runPolicy_forever (hG : ∀ e a, (G.step e a).1.2.2 = false) (maxLen : Option ℕ) (hm : maxLen = none ∨ maxLen = some 0)
    (num fuel : ℕ) (s : RunPolicySt E O A) (hs : s.n < num) : runPolicyLoop G pol maxLen num fuel s = none := by
  induction fuel generalizing s with
  | zero => rw [runPolicyLoop, if_pos hs]
  | succ fuel ih =>
    rw [runPolicyLoop, if_pos hs]
    apply ih
    have : (runPolicyStep G pol maxLen s).n = s.n := by
      simp only [runPolicyStep, hG, Bool.false_or]
      rw [if_neg]
      rcases hm with rfl | rfl <;> simp
    rw [this]
    exact hs

/-- **C123** (running a policy). With a positive `max_ep_len` in an environment which never ends an episode `run_policy` ends after
`num_episodes * max_ep_len` steps and plots `num_episodes` rollouts, which are the observations of `max_ep_len` steps under the
policy after a reset each. With the default `None`, or zero, it never ends, unless it is to run no episode. -/
theorem C123_run_policy (hG : ∀ e a, (G.step e a).1.2.2 = false) (num maxLen : ℕ) (e : E) :
    (0 < maxLen → ∃ s', runPolicyLoop G pol (some maxLen) num (num * maxLen) (runPolicyInit G e) = some s' ∧
      plotted s' = (rollouts G pol maxLen num e).1.map fun l => l.map Prod.fst) ∧
      (0 < num → ∀ fuel, runPolicyLoop G pol none num fuel (runPolicyInit G e) = none ∧
        runPolicyLoop G pol (some 0) num fuel (runPolicyInit G e) = none) := by
  refine ⟨fun hm => ?_, fun hn fuel => ⟨?_, ?_⟩⟩
  · obtain ⟨s', h1, h2⟩ := runPolicy_rest G pol hG num maxLen hm num e 0 [] [] (by omega)
    exact ⟨s', by simpa [runPolicyInit] using h1, by simpa using h2⟩
  · exact runPolicy_forever G pol hG _ (Or.inl rfl) _ _ _ (by simpa [runPolicyInit] using hn)
  · exact runPolicy_forever G pol hG _ (Or.inr rfl) _ _ _ (by simpa [runPolicyInit] using hn)

end Loops

/-- The quadrotor environment never ends an episode. -/
theorem quadEnv_never_done (next : (Fin 6 → ℝ) → (Fin 2 → ℝ) → ℝ → Fin 6 → ℝ) (draw : ℕ → Fin 6 → ℝ) (e : QuadEnvSt) (a : Fin 2 → ℝ) :
    ((quadEnv next draw).step e a).1.2.2 = false := rfl

end NNL.Props
