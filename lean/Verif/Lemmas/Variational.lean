import Mathlib.Analysis.ODE.Gronwall
import Mathlib.Analysis.Calculus.MeanValue
import Mathlib.Topology.MetricSpace.Thickening
import Mathlib.Topology.UniformSpace.HeineCantor
import Mathlib.Analysis.Normed.Module.FiniteDimension

/-!
# The variational equation

The derivative of the motion of `xdot = f(x)` with respect to its start solves the linearized equation.
-/

namespace NNL

open Set Metric Topology

variable {E : Type*} [NormedAddCommGroup E] [NormedSpace ℝ E]

/-- A ball around every point of a motion, on which `f` is Lipschitz and has a derivative uniformly approximated by the one at
the point. -/
theorem tube [FiniteDimensional ℝ E] {f : E → E} {J : E → E →L[ℝ] E} {U : Set E} (hU : IsOpen U)
    (hf : ∀ x ∈ U, HasFDerivAt f (J x) x) (hJ : ContinuousOn J U) {X : ℝ → E} {T : ℝ}
    (hX : ContinuousOn X (Icc 0 T)) (hXU : ∀ t ∈ Icc 0 T, X t ∈ U) :
    ∃ δ > 0, ∃ K : NNReal, (∀ t ∈ Icc 0 T, closedBall (X t) δ ⊆ U ∧ LipschitzOnWith K f (closedBall (X t) δ)) ∧
      ∀ η > 0, ∃ ρ > 0, ρ ≤ δ ∧ ∀ t ∈ Icc 0 T, ∀ w : E, ‖w‖ ≤ ρ → ‖f (X t + w) - f (X t) - J (X t) w‖ ≤ η * ‖w‖ := by
  have : ProperSpace E := FiniteDimensional.proper ℝ E
  have hc : IsCompact (X '' Icc 0 T) := isCompact_Icc.image_of_continuousOn hX
  obtain ⟨δ, hδ, hsub⟩ := hc.exists_cthickening_subset_open hU (by rintro _ ⟨t, ht, rfl⟩; exact hXU t ht)
  have hck : IsCompact (cthickening δ (X '' Icc 0 T)) := hc.cthickening
  have hball : ∀ t ∈ Icc 0 T, closedBall (X t) δ ⊆ cthickening δ (X '' Icc 0 T) := fun t ht =>
    closedBall_subset_cthickening (mem_image_of_mem X ht) δ
  obtain ⟨C, hC⟩ := (hck.exists_bound_of_continuousOn (hJ.mono hsub))
  refine ⟨δ, hδ, C.toNNReal, fun t ht => ⟨(hball t ht).trans hsub, ?_⟩, fun η hη => ?_⟩
  · refine (convex_closedBall (X t) δ).lipschitzOnWith_of_nnnorm_hasFDerivWithin_le (f' := J)
      (fun x hx => (hf x (hsub (hball t ht hx))).hasFDerivWithinAt) fun x hx => ?_
    rw [← NNReal.coe_le_coe, coe_nnnorm]
    exact (hC x (hball t ht hx)).trans (Real.le_coe_toNNReal C)
  · obtain ⟨ρ, hρ, hu⟩ := Metric.uniformContinuousOn_iff.1 (hck.uniformContinuousOn_of_continuous (hJ.mono hsub)) η hη
    refine ⟨min δ (ρ / 2), by positivity, min_le_left _ _, fun t ht w hw => ?_⟩
    have hsub2 : closedBall (X t) (min δ (ρ / 2)) ⊆ closedBall (X t) δ := closedBall_subset_closedBall (min_le_left _ _)
    have := (convex_closedBall (X t) (min δ (ρ / 2))).norm_image_sub_le_of_norm_hasFDerivWithin_le' (f := f) (f' := J)
      (φ := J (X t)) (C := η) (x := X t) (y := X t + w)
      (fun x hx => (hf x (hsub (hball t ht (hsub2 hx)))).hasFDerivWithinAt)
      (fun x hx => by
        rw [← dist_eq_norm]
        refine (hu x (hball t ht (hsub2 hx)) (X t) (hball t ht (mem_closedBall_self hδ.le)) ?_).le
        have : dist x (X t) ≤ ρ / 2 := (mem_closedBall.1 hx).trans (min_le_right _ _)
        linarith)
      (mem_closedBall_self (by positivity)) (by simpa [mem_closedBall, dist_eq_norm] using hw)
    simpa using this

/-- Derivative from the right of a motion. -/
theorem right_deriv {X : ℝ → E} {X' : E} {T t : ℝ} (h : HasDerivWithinAt X X' (Icc 0 T) t) (ht : t ∈ Ico 0 T) :
    HasDerivWithinAt X X' (Ici t) t :=
  h.mono_of_mem_nhdsWithin (Icc_mem_nhdsGE_of_mem ht)

/-- Motions which start near each other stay near. -/
theorem stays {f : E → E} {X Y : ℝ → E} {T δ : ℝ} {K : NNReal}
    (hL : ∀ t ∈ Icc 0 T, LipschitzOnWith K f (closedBall (X t) δ)) (hδ : 0 ≤ δ)
    (hX : ∀ t ∈ Icc 0 T, HasDerivWithinAt X (f (X t)) (Icc 0 T) t)
    (hY : ∀ t ∈ Icc 0 T, HasDerivWithinAt Y (f (Y t)) (Icc 0 T) t) (h0 : dist (Y 0) (X 0) * Real.exp (K * T) < δ) :
    ∀ t ∈ Icc 0 T, dist (Y t) (X t) ≤ dist (Y 0) (X 0) * Real.exp (K * T) := by
  have cX : ContinuousOn X (Icc 0 T) := fun t ht => (hX t ht).continuousWithinAt
  have cY : ContinuousOn Y (Icc 0 T) := fun t ht => (hY t ht).continuousWithinAt
  have key : ∀ b ∈ Icc 0 T, (∀ t ∈ Ico 0 b, dist (Y t) (X t) ≤ δ) → dist (Y b) (X b) ≤ dist (Y 0) (X 0) * Real.exp (K * T) := by
    intro b hb hd
    have hs : ∀ t ∈ Ico 0 b, t ∈ Ico 0 T := fun t ht => ⟨ht.1, ht.2.trans_le hb.2⟩
    have := dist_le_of_trajectories_ODE_of_mem (v := fun _ => f) (s := fun t => closedBall (X t) δ) (K := K) (f := Y) (g := X)
      (a := 0) (b := b) (δ := dist (Y 0) (X 0)) (fun t ht => hL t (Ico_subset_Icc_self (hs t ht)))
      (cY.mono (Icc_subset_Icc_right hb.2)) (fun t ht => right_deriv (hY t (Ico_subset_Icc_self (hs t ht))) (hs t ht))
      (fun t ht => mem_closedBall.2 (hd t ht)) (cX.mono (Icc_subset_Icc_right hb.2))
      (fun t ht => right_deriv (hX t (Ico_subset_Icc_self (hs t ht))) (hs t ht)) (fun t ht => mem_closedBall_self hδ) le_rfl
      b ⟨hb.1, le_rfl⟩
    refine this.trans (mul_le_mul_of_nonneg_left (Real.exp_le_exp.2 ?_) dist_nonneg)
    rw [sub_zero]
    exact mul_le_mul_of_nonneg_left hb.2 K.2
  by_contra hne
  push Not at hne
  obtain ⟨t1, ht1, hlt⟩ := hne
  -- the first time at the distance `δ`
  set S := {t | t ∈ Icc 0 T ∧ δ ≤ dist (Y t) (X t)} with hS
  have hSc : IsCompact S := by
    have : S = Icc 0 T ∩ (fun t => dist (Y t) (X t)) ⁻¹' Ici δ := by ext t; rfl
    rw [this]
    exact isCompact_Icc.of_isClosed_subset ((continuous_dist.comp_continuousOn (cY.prodMk cX)).preimage_isClosed_of_isClosed isClosed_Icc isClosed_Ici)
      inter_subset_left
  by_cases hemp : S.Nonempty
  · obtain ⟨b, hb, hmin⟩ := hSc.exists_isLeast hemp
    have := key b hb.1 fun t ht => by
      by_contra hc
      exact absurd (hmin ⟨⟨ht.1, (ht.2.trans_le hb.1.2).le⟩, (not_le.1 hc).le⟩) (not_le.2 ht.2)
    exact absurd (hb.2.trans this) (not_le.2 h0)
  · have := key t1 ht1 fun t ht => by
      by_contra hc
      exact hemp ⟨t, ⟨ht.1, (ht.2.trans_le ht1.2).le⟩, (not_le.1 hc).le⟩
    exact absurd this (not_le.2 hlt)

theorem gronwallBound_scale (K ε x : ℝ) : gronwallBound 0 K ε x = ε * gronwallBound 0 K 1 x := by
  unfold gronwallBound
  split_ifs <;> ring

/-- **Variational equation.** If `φ · y` solves `xdot = f(x)` from `y` for the `y` near `x0`, and `M` solves the equation
linearized along `φ · x0` from the identity, then `M t` is the derivative of the state at the time `t` with respect to the
start. -/
theorem variational [FiniteDimensional ℝ E] {f : E → E} {J : E → E →L[ℝ] E} {U : Set E} (hU : IsOpen U)
    (hf : ∀ x ∈ U, HasFDerivAt f (J x) x) (hJ : ContinuousOn J U) {φ : ℝ → E → E} {M : ℝ → E →L[ℝ] E} {T : ℝ} (hT : 0 ≤ T)
    {x0 : E} (h0 : ∀ᶠ y in 𝓝 x0, φ 0 y = y ∧ ∀ t ∈ Icc 0 T, HasDerivWithinAt (fun s => φ s y) (f (φ t y)) (Icc 0 T) t)
    (hXU : ∀ t ∈ Icc 0 T, φ t x0 ∈ U) (hM0 : M 0 = ContinuousLinearMap.id ℝ E)
    (hM : ∀ t ∈ Icc 0 T, HasDerivWithinAt M ((J (φ t x0)).comp (M t)) (Icc 0 T) t) :
    ∃ K : NNReal, (∀ᶠ y in 𝓝 x0, ∀ t ∈ Icc 0 T, dist (φ t y) (φ t x0) ≤ dist y x0 * Real.exp (K * T)) ∧
      ∀ t ∈ Icc 0 T, HasFDerivAt (φ t) (M t) x0 := by
  obtain ⟨i0, hX⟩ := h0.self_of_nhds
  have cX : ContinuousOn (fun t => φ t x0) (Icc 0 T) := fun t ht => (hX t ht).continuousWithinAt
  have cM : ContinuousOn M (Icc 0 T) := fun t ht => (hM t ht).continuousWithinAt
  obtain ⟨δ, hδ, K, hL, hrem⟩ := tube hU hf hJ cX hXU
  have hsmall : ∀ r > 0, ∀ᶠ y in 𝓝 x0, dist y x0 < r := fun r hr => ball_mem_nhds x0 hr
  have hnear : ∀ᶠ y in 𝓝 x0, dist y x0 * Real.exp (K * T) < δ := by
    filter_upwards [hsmall (δ / Real.exp (K * T)) (by positivity)] with y hy
    rwa [lt_div_iff₀ (Real.exp_pos _)] at hy
  have hst : ∀ᶠ y in 𝓝 x0, ∀ t ∈ Icc 0 T, dist (φ t y) (φ t x0) ≤ dist y x0 * Real.exp (K * T) := by
    filter_upwards [h0, hnear] with y hy hn
    have := stays (X := fun t => φ t x0) (Y := fun t => φ t y) (fun t ht => (hL t ht).2) hδ.le hX hy.2
      (by rw [hy.1, i0]; exact hn)
    simpa only [hy.1, i0] using this
  refine ⟨K, hst, fun t ht => ?_⟩
  obtain ⟨B, hB⟩ := isCompact_Icc.exists_bound_of_continuousOn cM
  have hB0 : 0 ≤ B := (norm_nonneg _).trans (hB 0 ⟨le_rfl, hT⟩)
  rw [hasFDerivAt_iff_isLittleO, Asymptotics.isLittleO_iff]
  intro c hc
  set G := gronwallBound 0 K 1 T with hG
  have hGn : 0 ≤ G := by
    have := gronwallBound_mono (δ := 0) (K := K) (ε := 1) le_rfl zero_le_one K.2 hT
    rwa [gronwallBound_x0] at this
  set η := c / (B * G + 1) with hη
  have hηpos : 0 < η := by positivity
  obtain ⟨ρ, hρ, hρδ, hr⟩ := hrem η hηpos
  filter_upwards [h0, hnear, hst, hsmall (ρ / (B + 1)) (by positivity)] with y hy hn hs hv
  set v := y - x0 with hvdef
  have hMv : ∀ s ∈ Icc 0 T, ‖M s v‖ ≤ B * ‖v‖ := fun s hs => ((M s).le_opNorm v).trans
    (mul_le_mul_of_nonneg_right (hB s hs) (norm_nonneg _))
  have hMρ : ∀ s ∈ Icc 0 T, ‖M s v‖ ≤ ρ := by
    intro s hs
    refine (hMv s hs).trans ?_
    rw [dist_eq_norm, lt_div_iff₀ (by positivity)] at hv
    nlinarith [norm_nonneg v]
  have hZ : ∀ s ∈ Icc 0 T, HasDerivWithinAt (fun s => φ s x0 + M s v) (f (φ s x0) + J (φ s x0) (M s v)) (Icc 0 T) s := by
    intro s hs
    have h1 := (hM s hs).clm_apply (hasDerivWithinAt_const s (Icc 0 T) v)
    simp only [ContinuousLinearMap.comp_apply, map_zero, add_zero] at h1
    exact (hX s hs).add h1
  have cZ : ContinuousOn (fun s => φ s x0 + M s v) (Icc 0 T) := fun s hs => (hZ s hs).continuousWithinAt
  have cY : ContinuousOn (fun s => φ s y) (Icc 0 T) := fun s hs => (hy.2 s hs).continuousWithinAt
  have hkey := dist_le_of_approx_trajectories_ODE_of_mem (v := fun _ => f) (s := fun s => closedBall (φ s x0) δ) (K := K)
    (f := fun s => φ s y) (f' := fun s => f (φ s y)) (g := fun s => φ s x0 + M s v)
    (g' := fun s => f (φ s x0) + J (φ s x0) (M s v)) (a := 0) (b := T) (δ := 0) (εf := 0) (εg := η * (B * ‖v‖))
    (fun s hs => (hL s (Ico_subset_Icc_self hs)).2) cY
    (fun s hs => right_deriv (hy.2 s (Ico_subset_Icc_self hs)) hs) (fun s hs => by simp)
    (fun s hs' => mem_closedBall.2 ((hs s (Ico_subset_Icc_self hs')).trans hn.le)) cZ
    (fun s hs => right_deriv (hZ s (Ico_subset_Icc_self hs)) hs)
    (fun s hs => by
      rw [dist_eq_norm, ← norm_neg]
      have := hr s (Ico_subset_Icc_self hs) (M s v) (hMρ s (Ico_subset_Icc_self hs))
      refine le_trans (le_of_eq ?_) (this.trans (mul_le_mul_of_nonneg_left (hMv s (Ico_subset_Icc_self hs)) hηpos.le))
      congr 1
      abel)
    (fun s hs => by
      rw [mem_closedBall, dist_eq_norm, add_sub_cancel_left]
      exact (hMρ s (Ico_subset_Icc_self hs)).trans hρδ)
    (by rw [hy.1, i0, hM0]; simp [hvdef]) t ht
  rw [dist_eq_norm, gronwallBound_scale, zero_add, sub_zero] at hkey
  have hGt : gronwallBound 0 K 1 t ≤ G := gronwallBound_mono (δ := 0) (K := K) (ε := 1) le_rfl zero_le_one K.2 ht.2
  have e : φ t y - φ t x0 - M t v = φ t y - (φ t x0 + M t v) := by abel
  rw [e]
  refine hkey.trans ((mul_le_mul_of_nonneg_left hGt (by positivity)).trans ?_)
  rw [hη]
  have : c / (B * G + 1) * (B * ‖v‖) * G = c * ‖v‖ * ((B * G) / (B * G + 1)) := by ring
  rw [this]
  refine mul_le_of_le_one_right (by positivity) ?_
  rw [div_le_one (by positivity)]
  linarith

/-- The derivative with respect to the time and the start together. -/
theorem variational_joint [FiniteDimensional ℝ E] {f : E → E} {J : E → E →L[ℝ] E} {U : Set E} (hU : IsOpen U)
    (hf : ∀ x ∈ U, HasFDerivAt f (J x) x) (hJ : ContinuousOn J U) {φ : ℝ → E → E} {M : ℝ → E →L[ℝ] E} {T : ℝ}
    {x0 : E} (h0 : ∀ᶠ y in 𝓝 x0, φ 0 y = y ∧ ∀ t ∈ Icc 0 T, HasDerivWithinAt (fun s => φ s y) (f (φ t y)) (Icc 0 T) t)
    (hXU : ∀ t ∈ Icc 0 T, φ t x0 ∈ U) (hM0 : M 0 = ContinuousLinearMap.id ℝ E)
    (hM : ∀ t ∈ Icc 0 T, HasDerivWithinAt M ((J (φ t x0)).comp (M t)) (Icc 0 T) t) {t0 : ℝ} (ht0 : t0 ∈ Ioo 0 T) :
    HasFDerivAt (fun p : ℝ × E => φ p.1 p.2)
      ((ContinuousLinearMap.fst ℝ ℝ E).smulRight (f (φ t0 x0)) + (M t0).comp (ContinuousLinearMap.snd ℝ ℝ E)) (t0, x0) := by
  have hT : 0 ≤ T := (ht0.1.trans ht0.2).le
  obtain ⟨K, hst, hd⟩ := variational hU hf hJ hT h0 hXU hM0 hM
  have hd0 := hd t0 (Ioo_subset_Icc_self ht0)
  obtain ⟨-, hX⟩ := h0.self_of_nhds
  have hmem : Icc 0 T ∈ 𝓝 t0 := Icc_mem_nhds ht0.1 ht0.2
  have cX : ContinuousAt (fun t => φ t x0) t0 := ((hX t0 (Ioo_subset_Icc_self ht0)).hasDerivAt hmem).continuousAt
  have cf : ContinuousAt f (φ t0 x0) := (hf _ (hXU t0 (Ioo_subset_Icc_self ht0))).continuousAt
  rw [hasFDerivAt_iff_isLittleO, Asymptotics.isLittleO_iff]
  intro c hc
  -- `f` is nearly constant near the point
  obtain ⟨r, hr, hfr⟩ := Metric.continuousAt_iff.1 cf (c / 2) (by positivity)
  obtain ⟨r2, hr2, hXr⟩ := Metric.continuousAt_iff.1 cX (r / 2) (by positivity)
  have e1 := (hasFDerivAt_iff_isLittleO.1 hd0)
  rw [Asymptotics.isLittleO_iff] at e1
  have e2 := e1 (c := c / 2) (by positivity)
  have hy1 : ∀ᶠ y in 𝓝 x0, dist y x0 * Real.exp (K * T) < r / 2 := by
    have : ∀ᶠ y in 𝓝 x0, dist y x0 < r / 2 / Real.exp (K * T) := ball_mem_nhds x0 (by positivity)
    filter_upwards [this] with y hy
    rwa [lt_div_iff₀ (Real.exp_pos _)] at hy
  have ht1 : ∀ᶠ t in 𝓝 t0, dist t t0 < r2 := ball_mem_nhds t0 hr2
  obtain ⟨ε, hε, hball⟩ := Metric.mem_nhds_iff.1 hmem
  have ht2 : ∀ᶠ t in 𝓝 t0, t ∈ ball t0 ε := ball_mem_nhds t0 hε
  rw [nhds_prod_eq]
  filter_upwards [((ht1.and ht2).prod_mk ((h0.and hst).and (hy1.and e2)))] with p hp
  obtain ⟨⟨pt1, pt2⟩, ⟨py0, pst⟩, py1, pe⟩ := hp
  set t := p.1
  set y := p.2
  have hseg : ∀ s ∈ segment ℝ t0 t, s ∈ ball t0 ε ∩ ball t0 r2 := by
    intro s hs
    exact ((convex_ball t0 ε).inter (convex_ball t0 r2)).segment_subset ⟨mem_ball_self hε, mem_ball_self hr2⟩
      ⟨pt2, mem_ball.2 pt1⟩ hs
  have hmv : ‖(φ t y - t • f (φ t0 x0)) - (φ t0 y - t0 • f (φ t0 x0))‖ ≤ c / 2 * ‖t - t0‖ := by
    refine (convex_segment t0 t).norm_image_sub_le_of_norm_hasDerivWithin_le
      (f := fun s => φ s y - s • f (φ t0 x0)) (f' := fun s => f (φ s y) - f (φ t0 x0)) (fun s hs => ?_) (fun s hs => ?_)
      (left_mem_segment ℝ t0 t) (right_mem_segment ℝ t0 t)
    · have hs1 : s ∈ Icc 0 T := hball (hseg s hs).1
      have h1 : HasDerivWithinAt (fun s => φ s y) (f (φ s y)) (segment ℝ t0 t) s :=
        (py0.2 s hs1).mono fun u hu => hball (hseg u hu).1
      have h2 : HasDerivWithinAt (fun s : ℝ => s • f (φ t0 x0)) (f (φ t0 x0)) (segment ℝ t0 t) s := by
        simpa using (hasDerivWithinAt_id s (segment ℝ t0 t)).smul_const (f (φ t0 x0))
      exact h1.sub h2
    · have hs1 : s ∈ Icc 0 T := hball (hseg s hs).1
      rw [← dist_eq_norm]
      refine (hfr ?_).le
      have a1 := pst s hs1
      have a2 := hXr (mem_ball.1 (hseg s hs).2)
      calc dist (φ s y) (φ t0 x0) ≤ dist (φ s y) (φ s x0) + dist (φ s x0) (φ t0 x0) := dist_triangle _ _ _
        _ < r := by linarith
  have e : φ t y - φ t0 x0 - ((ContinuousLinearMap.fst ℝ ℝ E).smulRight (f (φ t0 x0)) +
      (M t0).comp (ContinuousLinearMap.snd ℝ ℝ E)) (p - (t0, x0)) =
      ((φ t y - t • f (φ t0 x0)) - (φ t0 y - t0 • f (φ t0 x0))) + (φ t0 y - φ t0 x0 - M t0 (y - x0)) := by
    simp only [_root_.add_apply, ContinuousLinearMap.smulRight_apply, ContinuousLinearMap.comp_apply,
      ContinuousLinearMap.coe_fst', ContinuousLinearMap.coe_snd', Prod.fst_sub, Prod.snd_sub, sub_smul]
    abel
  show ‖φ t y - φ t0 x0 - _‖ ≤ c * ‖p - (t0, x0)‖
  rw [e]
  refine (norm_add_le _ _).trans ((add_le_add hmv pe).trans ?_)
  have n1 : ‖t - t0‖ ≤ ‖p - (t0, x0)‖ := norm_fst_le (p - (t0, x0))
  have n2 : ‖y - x0‖ ≤ ‖p - (t0, x0)‖ := norm_snd_le (p - (t0, x0))
  nlinarith

end NNL
