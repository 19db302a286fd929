import Mathlib.Analysis.Calculus.MeanValue
import Mathlib.Analysis.Calculus.ContDiff.RCLike
import Mathlib.Analysis.Calculus.FDeriv.Symmetric
import Mathlib.Analysis.Asymptotics.Lemmas
import Mathlib.Tactic.Module

/-!
# Expansions in powers of the step length
-/

set_option linter.unusedSectionVars false

namespace NNL.Rk4

open Asymptotics Filter Topology

variable {E : Type*} [NormedAddCommGroup E] [NormedSpace ℝ E]

/-- `F h = O(h ^ k)` as `h` decreases to zero. -/
def Ord (k : ℕ) (F : ℝ → E) : Prop := F =O[𝓝[≥] 0] fun h : ℝ => h ^ k

theorem Ord.add {k : ℕ} {F G : ℝ → E} (hF : Ord k F) (hG : Ord k G) : Ord k (fun h => F h + G h) := IsBigO.add hF hG

theorem Ord.sub {k : ℕ} {F G : ℝ → E} (hF : Ord k F) (hG : Ord k G) : Ord k (fun h => F h - G h) := IsBigO.sub hF hG

theorem Ord.const_smul {k : ℕ} {F : ℝ → E} (hF : Ord k F) (c : ℝ) : Ord k (fun h => c • F h) := IsBigO.const_smul_left hF c

theorem Ord.mono {j k : ℕ} {F : ℝ → E} (hF : Ord k F) (h : j ≤ k) : Ord j F := by
  refine IsBigO.trans hF (IsBigO.of_bound 1 ?_)
  have h1 : ∀ᶠ x : ℝ in 𝓝[≥] 0, x < 1 := nhdsWithin_le_nhds (Iio_mem_nhds one_pos)
  filter_upwards [h1, self_mem_nhdsWithin] with x hx hx'
  rw [one_mul, Real.norm_of_nonneg (pow_nonneg hx' k), Real.norm_of_nonneg (pow_nonneg hx' j)]
  exact pow_le_pow_of_le_one hx' hx.le h

theorem Ord.pow_smul {k : ℕ} {F : ℝ → E} (hF : Ord k F) (j : ℕ) : Ord (k + j) (fun h => h ^ j • F h) := by
  have := (isBigO_refl (fun h : ℝ => h ^ j) (𝓝[≥] 0)).smul hF
  refine this.congr_right fun h => ?_
  rw [smul_eq_mul, pow_add, mul_comm]

theorem Ord.smul {k : ℕ} {F : ℝ → E} (hF : Ord k F) : Ord (k + 1) (fun h => h • F h) := by
  simpa using hF.pow_smul 1

theorem ord_const (e : E) : Ord 0 (fun _ => e) := by
  simpa [Ord] using isBigO_const_const e (one_ne_zero (α := ℝ)) (𝓝[≥] (0 : ℝ))

theorem Ord.zero (k : ℕ) : Ord k (fun _ => (0 : E)) := isBigO_zero _ _

theorem Ord.apply {k : ℕ} {G : Type*} [NormedAddCommGroup G] [NormedSpace ℝ G] {F : ℝ → E} (hF : Ord k F) (A : E →L[ℝ] G) :
    Ord k (fun h => A (F h)) := (A.isBigO_comp F _).trans hF

theorem Ord.bilin {j k : ℕ} {H : Type*} [NormedAddCommGroup H] [NormedSpace ℝ H]
    {F : ℝ → E →L[ℝ] H} {v : ℝ → E} (hF : Ord j F) (hv : Ord k v) : Ord (j + k) (fun h => F h (v h)) := by
  have h1 : (fun h => F h (v h)) =O[𝓝[≥] 0] fun h => ‖F h‖ * ‖v h‖ :=
    IsBigO.of_bound 1 (Eventually.of_forall fun h => by
      rw [one_mul, norm_mul, norm_norm, norm_norm]
      exact (F h).le_opNorm _)
  refine h1.trans ?_
  have := hF.norm_left.mul hv.norm_left
  refine this.congr_right fun h => ?_
  rw [pow_add]

theorem Ord.congr {k : ℕ} {F G : ℝ → E} (hF : Ord k F) (h : ∀ x, F x = G x) : Ord k G := by
  have : F = G := funext h
  exact this ▸ hF

/-- The value, the derivatives and the error of the third order expansion of `f` at `x`. -/
structure Expansion (f : E → E) (x a : E) (A : E →L[ℝ] E) (B : E →L[ℝ] E →L[ℝ] E) (C : E →L[ℝ] E →L[ℝ] E →L[ℝ] E) : Prop where
  symm : ∀ v w, B v w = B w v
  error : (fun v => f (x + v) - (a + A v + (1 / 2 : ℝ) • B v v + (1 / 6 : ℝ) • C v v v)) =O[𝓝 0] fun v => ‖v‖ ^ 4

variable {f : E → E} {x a : E} {A : E →L[ℝ] E} {B : E →L[ℝ] E →L[ℝ] E} {C : E →L[ℝ] E →L[ℝ] E →L[ℝ] E}

theorem Expansion.along (H : Expansion f x a A B C) {w : ℝ → E} (hw : Ord 0 w) :
    Ord 4 (fun h => f (x + h • w h) - (a + h • A (w h) + (h ^ 2 / 2) • B (w h) (w h) + (h ^ 3 / 6) • C (w h) (w h) (w h))) := by
  have hv : Ord 1 (fun h => h • w h) := hw.smul
  have ht : Tendsto (fun h => h • w h) (𝓝[≥] 0) (𝓝 0) := by
    refine IsBigO.trans_tendsto hv ?_
    have : Tendsto (fun h : ℝ => h ^ 1) (𝓝 0) (𝓝 (0 ^ 1)) := (continuous_pow 1).tendsto 0
    simpa using this.mono_left nhdsWithin_le_nhds
  have h1 := H.error.comp_tendsto ht
  have h2 : (fun h : ℝ => ‖h • w h‖ ^ 4) =O[𝓝[≥] 0] fun h : ℝ => h ^ 4 := by
    have := hv.norm_left.pow 4
    simpa using this
  refine Ord.congr (h1.trans h2) fun h => ?_
  simp only [Function.comp, map_smul, smul_apply]
  module

/-- The expansion with approximations of the direction in place of the direction. -/
theorem Expansion.subst (H : Expansion f x a A B C) {w p q r : ℝ → E} (hw : Ord 0 w) (hq : Ord 0 q) (hr : Ord 0 r)
    {i j m k : ℕ} (h1 : Ord i (fun h => w h - p h)) (h2 : Ord j (fun h => w h - q h)) (h3 : Ord m (fun h => w h - r h))
    (k4 : k ≤ 4) (ki : k ≤ i + 1) (kj : k ≤ j + 2) (km : k ≤ m + 3) :
    Ord k (fun h => f (x + h • w h) - (a + h • A (p h) + (h ^ 2 / 2) • B (q h) (q h) + (h ^ 3 / 6) • C (r h) (r h) (r h))) := by
  have e0 := (H.along hw).mono k4
  have e1 := ((h1.apply A).smul).mono ki
  have e2 : Ord j (fun h => B (w h) (w h) - B (q h) (q h)) := by
    have b1 : Ord j (fun h => B (w h - q h) (w h)) := by simpa using (h2.apply B).bilin hw
    have b2 : Ord j (fun h => B (q h) (w h - q h)) := by simpa using (hq.apply B).bilin h2
    refine (b1.add b2).congr fun h => ?_
    simp only [map_sub, sub_apply]
    abel
  have e2' := ((e2.pow_smul 2).const_smul (1 / 2)).mono kj
  have e3 : Ord m (fun h => C (w h) (w h) (w h) - C (r h) (r h) (r h)) := by
    have b1 : Ord m (fun h => C (w h - r h) (w h) (w h)) := by simpa using ((h3.apply C).bilin hw).bilin hw
    have b2 : Ord m (fun h => C (r h) (w h - r h) (w h)) := by simpa using ((hr.apply C).bilin h3).bilin hw
    have b3 : Ord m (fun h => C (r h) (r h) (w h - r h)) := by simpa using ((hr.apply C).bilin hr).bilin h3
    refine ((b1.add b2).add b3).congr fun h => ?_
    simp only [map_sub, sub_apply]
    abel
  have e3' := ((e3.pow_smul 3).const_smul (1 / 6)).mono km
  refine (((e0.add e1).add e2').add e3').congr fun h => ?_
  simp only [map_sub]
  module

/-- Integration gains one power. -/
theorem Ord.integrate {v v' P P' : ℝ → E} {δ : ℝ} (hδ : 0 < δ) {k : ℕ}
    (hv : ∀ t ∈ Set.Ico 0 δ, HasDerivWithinAt v (v' t) (Set.Ici t) t) (hvc : ContinuousOn v (Set.Ico 0 δ))
    (hP : ∀ t, HasDerivAt P (P' t) t) (h0 : v 0 = P 0) (h : Ord k (fun t => v' t - P' t)) :
    Ord (k + 1) (fun t => v t - P t) := by
  obtain ⟨c, hc⟩ := IsBigO.bound h
  rw [eventually_nhdsWithin_iff, Metric.eventually_nhds_iff] at hc
  obtain ⟨ε, hε, hc⟩ := hc
  refine IsBigO.of_bound c ?_
  have hm : ∀ᶠ t : ℝ in 𝓝[≥] 0, t < min ε δ := nhdsWithin_le_nhds (Iio_mem_nhds (lt_min hε hδ))
  filter_upwards [hm, self_mem_nhdsWithin] with t ht ht'
  have ht0 : (0 : ℝ) ≤ t := ht'
  have htε := ht.trans_le (min_le_left _ _)
  have htδ := ht.trans_le (min_le_right _ _)
  have hb : ∀ s ∈ Set.Ico (0 : ℝ) t, ‖v' s - P' s‖ ≤ c * t ^ k := by
    intro s hs
    have h1 := hc (y := s) (by rw [Real.dist_eq, sub_zero, abs_of_nonneg hs.1]; exact hs.2.trans htε) hs.1
    rw [Real.norm_of_nonneg (pow_nonneg hs.1 k)] at h1
    have h2 := hc (y := t) (by rw [Real.dist_eq, sub_zero, abs_of_nonneg ht0]; exact htε) ht0
    have hcn : 0 ≤ c ∨ c < 0 := le_or_gt 0 c
    rcases hcn with hcn | hcn
    · exact h1.trans (mul_le_mul_of_nonneg_left (pow_le_pow_left₀ hs.1 hs.2.le k) hcn)
    · have h3 : s ^ k = 0 := by
        by_contra hne
        have : 0 < s ^ k := lt_of_le_of_ne (pow_nonneg hs.1 k) (Ne.symm hne)
        have := h1.trans_lt (mul_neg_of_neg_of_pos hcn this)
        exact absurd this (not_lt.2 (norm_nonneg _))
      have h4 : 0 < t := hs.1.trans_lt hs.2
      rw [Real.norm_of_nonneg (pow_nonneg ht0 k)] at h2
      have := h2.trans_lt (mul_neg_of_neg_of_pos hcn (pow_pos h4 k))
      exact absurd this (not_lt.2 (norm_nonneg _))
  have key := norm_image_sub_le_of_norm_deriv_right_le_segment (f := fun s => v s - P s) (f' := fun s => v' s - P' s) (a := 0)
    (b := t) (C := c * t ^ k)
    ((hvc.mono fun s hs => ⟨hs.1, hs.2.trans_lt htδ⟩).sub fun s _ => (hP s).continuousAt.continuousWithinAt)
    (fun s hs => (hv s ⟨hs.1, hs.2.trans htδ⟩).sub (hP s).hasDerivWithinAt) hb t ⟨ht0, le_rfl⟩
  simp only [h0, sub_self, sub_zero] at key
  rw [Real.norm_of_nonneg (pow_nonneg ht0 _), pow_succ]
  linarith

/-- The powers of the step length in the motion. -/
noncomputable def taylor (a : E) (A : E →L[ℝ] E) (B : E →L[ℝ] E →L[ℝ] E) (C : E →L[ℝ] E →L[ℝ] E →L[ℝ] E) (h : ℝ) : E :=
  h • a + (h ^ 2 / 2) • A a + (h ^ 3 / 6) • (A (A a) + B a a) +
    (h ^ 4 / 24) • (A (A (A a)) + A (B a a) + (3 : ℝ) • B a (A a) + C a a a)

/-- The fourth order expansion of a motion. -/
theorem Expansion.flow (H : Expansion f x a A B C) {v : ℝ → E} {δ : ℝ} (hδ : 0 < δ)
    (hv : ∀ t ∈ Set.Ico 0 δ, HasDerivWithinAt v (f (x + v t)) (Set.Ici t) t) (hvc : ContinuousOn v (Set.Ico 0 δ)) (h0 : v 0 = 0) :
    Ord 5 (fun h => v h - taylor a A B C h) := by
  have hw1 : Ord 1 v := by
    have h1 := (hv 0 ⟨le_rfl, hδ⟩).isBigO_sub
    rw [prod_pure, isBigO_map] at h1
    simpa [Ord, Function.comp_def, h0] using h1
  let w : ℝ → E := fun h => if h = 0 then a else h⁻¹ • v h
  have hvw : ∀ h : ℝ, h • w h = v h := by
    intro h
    rcases eq_or_ne h 0 with rfl | hh
    · simp [h0]
    · simp only [w, if_neg hh]
      exact smul_inv_smul₀ hh _
  -- dividing an expansion by the step length
  have hdiv : ∀ (k : ℕ) (p : ℝ → E), p 0 = a → Ord (k + 1) (fun h => v h - h • p h) → Ord k (fun h => w h - p h) := by
    intro k p hp hk
    obtain ⟨c, hc⟩ := IsBigO.bound hk
    refine IsBigO.of_bound (max c 0) ?_
    filter_upwards [hc, self_mem_nhdsWithin] with h hh hpos
    have hpos' : (0 : ℝ) ≤ h := hpos
    rcases hpos'.eq_or_lt with rfl | hlt
    · simp only [w, if_true, hp, sub_self, norm_zero]
      positivity
    · have e : w h - p h = h⁻¹ • (v h - h • p h) := by
        rw [smul_sub, inv_smul_smul₀ hlt.ne']
        simp only [w, if_neg hlt.ne']
      rw [e, norm_smul, norm_inv, Real.norm_of_nonneg hpos', Real.norm_of_nonneg (pow_nonneg hpos' k)]
      rw [Real.norm_of_nonneg (pow_nonneg hpos' _)] at hh
      calc h⁻¹ * ‖v h - h • p h‖ ≤ h⁻¹ * (c * h ^ (k + 1)) := mul_le_mul_of_nonneg_left hh (inv_nonneg.2 hpos')
        _ = c * h ^ k := by
          rw [pow_succ]
          field_simp
        _ ≤ _ := mul_le_mul_of_nonneg_right (le_max_left _ _) (pow_nonneg hpos' k)
  have hw : Ord 0 w := by
    have h1 : Ord 1 (fun h : ℝ => h • a) := (ord_const a).smul
    exact ((hdiv 0 (fun _ => a) rfl (hw1.sub h1)).add (ord_const a)).congr fun h => by simp
  have hF : ∀ {p q r : ℝ → E} {i j m k : ℕ}, Ord 0 q → Ord 0 r → Ord i (fun h => w h - p h) →
      Ord j (fun h => w h - q h) → Ord m (fun h => w h - r h) → k ≤ 4 → k ≤ i + 1 → k ≤ j + 2 → k ≤ m + 3 →
      Ord k (fun h => f (x + v h) - (a + h • A (p h) + (h ^ 2 / 2) • B (q h) (q h) + (h ^ 3 / 6) • C (r h) (r h) (r h))) := by
    intro p q r i j m k hq hr h1 h2 h3 k4 ki kj km
    have := H.subst hw hq hr h1 h2 h3 k4 ki kj km
    simpa only [hvw] using this
  have z0 : Ord 0 (fun h => w h - (0 : E)) := by simpa using hw
  have hid : ∀ t : ℝ, HasDerivAt (fun t : ℝ => t) 1 t := fun t => hasDerivAt_id t
  have hsq : ∀ t : ℝ, HasDerivAt (fun t : ℝ => t ^ 2 / 2) t t := fun t =>
    (((hid t).pow 2).div_const 2).congr_deriv (by simp)
  have hcu : ∀ t : ℝ, HasDerivAt (fun t : ℝ => t ^ 3 / 6) (t ^ 2 / 2) t := fun t =>
    (((hid t).pow 3).div_const 6).congr_deriv (by push_cast; ring)
  have hqu : ∀ t : ℝ, HasDerivAt (fun t : ℝ => t ^ 4 / 24) (t ^ 3 / 6) t := fun t =>
    (((hid t).pow 4).div_const 24).congr_deriv (by push_cast; ring)
  have o0 : Ord 0 (fun _ => (0 : E)) := Ord.zero 0
  -- first order
  have s1 : Ord 2 (fun h => v h - h • a) := by
    refine Ord.integrate hδ (P' := fun _ => a) hv hvc (fun t => by simpa using (hid t).smul_const a) (by simp [h0]) ?_
    refine (hF (k := 1) o0 o0 z0 z0 z0 (by omega) (by omega) (by omega) (by omega)).congr fun h => ?_
    simp
  have d1 := hdiv 1 (fun _ => a) rfl s1
  -- second order
  have s2 : Ord 3 (fun h => v h - (h • a + (h ^ 2 / 2) • A a)) := by
    refine Ord.integrate hδ (P' := fun h => a + h • A a) hv hvc (fun t => ?_) (by simp [h0]) ?_
    · exact (((hid t).smul_const a).add ((hsq t).smul_const (A a))).congr_deriv (by simp)
    refine (hF (k := 2) o0 o0 d1 z0 z0 (by omega) (by omega) (by omega) (by omega)).congr fun h => ?_
    simp
  have oq : Ord 0 (fun h : ℝ => a + (h / 2) • A a) :=
    ((ord_const a).add (((ord_const ((1 / 2 : ℝ) • A a)).smul).mono (Nat.zero_le _))).congr fun h => by module
  have d2 := hdiv 2 (fun h => a + (h / 2) • A a) (by simp) (s2.congr fun h => by module)
  -- third order
  have s3 : Ord 4 (fun h => v h - (h • a + (h ^ 2 / 2) • A a + (h ^ 3 / 6) • (A (A a) + B a a))) := by
    refine Ord.integrate hδ (P' := fun h => a + h • A a + (h ^ 2 / 2) • (A (A a) + B a a)) hv hvc (fun t => ?_) (by simp [h0]) ?_
    · exact ((((hid t).smul_const a).add ((hsq t).smul_const (A a))).add ((hcu t).smul_const _)).congr_deriv (by simp)
    refine (hF (k := 3) (ord_const a) o0 d2 d1 z0 (by omega) (by omega) (by omega) (by omega)).congr fun h => ?_
    simp only [map_add, map_smul, map_zero]
    module
  have d3 := hdiv 3 (fun h => a + (h / 2) • A a + (h ^ 2 / 6) • (A (A a) + B a a)) (by simp) (s3.congr fun h => by module)
  -- fourth order
  refine Ord.integrate hδ (P := taylor a A B C) (P' := fun h => a + h • A a + (h ^ 2 / 2) • (A (A a) + B a a) +
    (h ^ 3 / 6) • (A (A (A a)) + A (B a a) + (3 : ℝ) • B a (A a) + C a a a)) hv hvc (fun t => ?_) (by simp [h0, taylor]) ?_
  · exact (((((hid t).smul_const a).add ((hsq t).smul_const (A a))).add ((hcu t).smul_const _)).add
      ((hqu t).smul_const _)).congr_deriv (by simp)
  have e := (hF (k := 4) oq (ord_const a) d3 d2 d1 (by omega) (by omega) (by omega) (by omega))
  have e' : Ord 4 (fun h : ℝ => h ^ 4 • ((1 / 8 : ℝ) • B (A a) (A a))) := by simpa using (ord_const _).pow_smul 4
  refine (e.add e').congr fun h => ?_
  simp only [map_add, map_smul, add_apply, smul_apply, H.symm (A a) a]
  module

/-- A function with a small derivative is small by one power more. -/
theorem small_of_deriv {F : Type*} [NormedAddCommGroup F] [NormedSpace ℝ F] {g : E → F} {g' : E → E →L[ℝ] F} {k : ℕ}
    (hg : ∀ᶠ v in 𝓝 0, HasFDerivAt g (g' v) v) (h0 : g 0 = 0) (h : g' =O[𝓝 0] fun v => ‖v‖ ^ k) :
    g =O[𝓝 0] fun v => ‖v‖ ^ (k + 1) := by
  obtain ⟨c, hc⟩ := h.bound
  obtain ⟨ε, hε, hb⟩ := Metric.eventually_nhds_iff_ball.1 (hg.and hc)
  refine IsBigO.of_bound (max c 0) ?_
  filter_upwards [Metric.ball_mem_nhds (0 : E) hε] with v hv
  have hv' : ‖v‖ < ε := by simpa using hv
  have hs : Convex ℝ (Metric.closedBall (0 : E) ‖v‖) := convex_closedBall _ _
  have hin : ∀ w ∈ Metric.closedBall (0 : E) ‖v‖, w ∈ Metric.ball (0 : E) ε := fun w hw => by
    have : ‖w‖ ≤ ‖v‖ := by simpa using hw
    simpa using this.trans_lt hv'
  have hbd : ∀ w ∈ Metric.closedBall (0 : E) ‖v‖, ‖g' w‖ ≤ max c 0 * ‖v‖ ^ k := by
    intro w hw
    have h1 := (hb w (hin w hw)).2
    have h2 : ‖w‖ ≤ ‖v‖ := by simpa using hw
    rw [norm_pow, norm_norm] at h1
    calc ‖g' w‖ ≤ c * ‖w‖ ^ k := h1
      _ ≤ max c 0 * ‖w‖ ^ k := mul_le_mul_of_nonneg_right (le_max_left _ _) (by positivity)
      _ ≤ _ := mul_le_mul_of_nonneg_left (pow_le_pow_left₀ (norm_nonneg _) h2 k) (le_max_right _ _)
  have := hs.norm_image_sub_le_of_norm_hasFDerivWithin_le (f := g) (f' := g') (x := 0) (y := v)
    (fun w hw => (hb w (hin w hw)).1.hasFDerivWithinAt) hbd (by simp) (by simp)
  rw [h0, sub_zero, sub_zero] at this
  rw [norm_pow, norm_norm, pow_succ]
  linarith

/-- Taylor's formula: a function with four continuous derivatives has an expansion of third order. -/
theorem expansion_of_contDiffAt {f : E → E} {x : E} (hf : ContDiffAt ℝ 4 f x) :
    Expansion f x (f x) (fderiv ℝ f x) (fderiv ℝ (fderiv ℝ f) x) (fderiv ℝ (fderiv ℝ (fderiv ℝ f)) x) := by
  set D1 := fderiv ℝ f with hD1
  set D2 := fderiv ℝ D1 with hD2
  set D3 := fderiv ℝ D2 with hD3
  have c1 : ContDiffAt ℝ 3 D1 x := hf.fderiv_right (by norm_num)
  have c2 : ContDiffAt ℝ 2 D2 x := c1.fderiv_right (by norm_num)
  have c3 : ContDiffAt ℝ 1 D3 x := c2.fderiv_right (by norm_num)
  have d0 : ∀ᶠ y in 𝓝 x, HasFDerivAt f (D1 y) y := by
    filter_upwards [hf.eventually (by norm_num)] with y hy
    exact (hy.differentiableAt (by norm_num)).hasFDerivAt
  have d1 : ∀ᶠ y in 𝓝 x, HasFDerivAt D1 (D2 y) y := by
    filter_upwards [c1.eventually (by norm_num)] with y hy
    exact (hy.differentiableAt (by norm_num)).hasFDerivAt
  have d2 : ∀ᶠ y in 𝓝 x, HasFDerivAt D2 (D3 y) y := by
    filter_upwards [c2.eventually (by norm_num)] with y hy
    exact (hy.differentiableAt (by norm_num)).hasFDerivAt
  have s2 : ∀ᶠ y in 𝓝 x, ∀ v w, D2 y v w = D2 y w v := by
    filter_upwards [d0.eventually_nhds, d1] with y h0 h1
    exact second_derivative_symmetric_of_eventually h0 h1
  have s3 : ∀ v w, D3 x v w = D3 x w v := second_derivative_symmetric_of_eventually d1 d2.self_of_nhds
  have s3' : ∀ u v w, D3 x u v w = D3 x u w v := by
    intro u v w
    have h1 := (d2.self_of_nhds.clm_apply (hasFDerivAt_const v x)).clm_apply (hasFDerivAt_const w x)
    have h2 := (d2.self_of_nhds.clm_apply (hasFDerivAt_const w x)).clm_apply (hasFDerivAt_const v x)
    have h3 := h2.congr_of_eventuallyEq (f₁ := fun y => D2 y v w) (by filter_upwards [s2] with y hy using hy v w)
    have := congrArg (fun L => L u) (h1.unique h3)
    simpa using this
  have hshift : Tendsto (fun v : E => x + v) (𝓝 0) (𝓝 x) := by
    have : Continuous fun v : E => x + v := by fun_prop
    simpa using this.tendsto 0
  have shift : ∀ {F : Type _} [NormedAddCommGroup F] [NormedSpace ℝ F] {g : E → F} {g' : E →L[ℝ] F} {v : E},
      HasFDerivAt g g' (x + v) → HasFDerivAt (fun v => g (x + v)) g' v := by
    intro F _ _ g g' v h
    have := h.comp v ((hasFDerivAt_id v).const_add x)
    simpa [Function.comp_def] using this
  have r3 : (fun v => D3 (x + v) - D3 x) =O[𝓝 0] fun v : E => ‖v‖ ^ 1 := by
    have := (c3.differentiableAt (by norm_num)).hasFDerivAt.isBigO_sub.comp_tendsto hshift
    simpa [Function.comp_def] using this.norm_right
  have r2 : (fun v => D2 (x + v) - (D2 x + D3 x v)) =O[𝓝 0] fun v : E => ‖v‖ ^ 2 := by
    refine small_of_deriv (g' := fun v => D3 (x + v) - D3 x) ?_ (by simp) r3
    filter_upwards [hshift.eventually d2] with v hv
    exact (shift hv).sub ((D3 x).hasFDerivAt.const_add _)
  have r1 : (fun v => D1 (x + v) - (D1 x + D2 x v + (1 / 2 : ℝ) • D3 x v v)) =O[𝓝 0] fun v : E => ‖v‖ ^ 3 := by
    refine small_of_deriv (g' := fun v => D2 (x + v) - (D2 x + D3 x v)) ?_ (by simp) r2
    filter_upwards [hshift.eventually d1] with v hv
    have hq : HasFDerivAt (fun v => (1 / 2 : ℝ) • D3 x v v) (D3 x v) v := by
      have := ((D3 x).hasFDerivAt (x := v)).clm_apply (hasFDerivAt_id v)
      refine (this.const_smul (1 / 2 : ℝ)).congr_fderiv ?_
      ext u
      simp only [id, smul_apply, add_apply, ContinuousLinearMap.comp_apply, ContinuousLinearMap.id_apply,
        ContinuousLinearMap.flip_apply, s3 u v]
      module
    exact (shift hv).sub (((D2 x).hasFDerivAt.const_add _).add hq)
  refine ⟨s2.self_of_nhds, ?_⟩
  refine small_of_deriv (k := 3) (g' := fun v => D1 (x + v) - (D1 x + D2 x v + (1 / 2 : ℝ) • D3 x v v)) ?_ (by simp) r1
  filter_upwards [hshift.eventually d0] with v hv
  have hq : HasFDerivAt (fun v => (1 / 2 : ℝ) • D2 x v v) (D2 x v) v := by
    have := ((D2 x).hasFDerivAt (x := v)).clm_apply (hasFDerivAt_id v)
    refine (this.const_smul (1 / 2 : ℝ)).congr_fderiv ?_
    ext u
    simp only [id, smul_apply, add_apply, ContinuousLinearMap.comp_apply, ContinuousLinearMap.id_apply,
      ContinuousLinearMap.flip_apply, s2.self_of_nhds u v]
    module
  have hc : HasFDerivAt (fun v => (1 / 6 : ℝ) • D3 x v v v) ((1 / 2 : ℝ) • D3 x v v) v := by
    have := (((D3 x).hasFDerivAt (x := v)).clm_apply (hasFDerivAt_id v)).clm_apply (hasFDerivAt_id v)
    refine (this.const_smul (1 / 6 : ℝ)).congr_fderiv ?_
    ext u
    simp only [id, smul_apply, add_apply, ContinuousLinearMap.comp_apply, ContinuousLinearMap.id_apply,
      ContinuousLinearMap.flip_apply, s3 u v, s3' v u v]
    module
  exact (shift hv).sub ((((D1 x).hasFDerivAt.const_add _).add hq).add hc)

/-- One step of the method of Runge and Kutta has the same fourth order expansion. -/
theorem Expansion.step (H : Expansion f x a A B C) (ha : f x = a) :
    Ord 5 (fun h => (1 / 6 * h) • (f x + (2 : ℝ) • f (x + (h / 2) • f x) +
      (2 : ℝ) • f (x + (h / 2) • f (x + (h / 2) • f x)) +
      f (x + h • f (x + (h / 2) • f (x + (h / 2) • f x)))) - taylor a A B C h) := by
  have o0 : Ord 0 (fun _ => (0 : E)) := Ord.zero 0
  set k2 : ℝ → E := fun h => f (x + (h / 2) • f x) with hk2
  set k3 : ℝ → E := fun h => f (x + (h / 2) • k2 h) with hk3
  have ok : ∀ (k : ℕ) (e : E), Ord k (fun h : ℝ => h ^ k • e) := fun k e => by simpa using (ord_const e).pow_smul k
  have oh : Ord 0 (fun _ : ℝ => (1 / 2 : ℝ) • a) := ord_const _
  -- the second stage
  have e2 : Ord 4 (fun h => k2 h - (a + (h / 2) • A a + (h ^ 2 / 8) • B a a + (h ^ 3 / 48) • C a a a)) := by
    refine (H.along oh).congr fun h => ?_
    have : h • (1 / 2 : ℝ) • a = (h / 2) • f x := by rw [ha]; module
    rw [this]
    simp only [hk2, map_smul, smul_apply]
    module
  have w3 : Ord 3 (fun h => (1 / 2 : ℝ) • k2 h - ((1 / 2 : ℝ) • a + (h / 4) • A a + (h ^ 2 / 16) • B a a)) :=
    (((e2.const_smul (1 / 2)).mono (by omega)).add (ok 3 ((1 / 96 : ℝ) • C a a a))).congr fun h => by module
  have w3' : Ord 2 (fun h => (1 / 2 : ℝ) • k2 h - ((1 / 2 : ℝ) • a + (h / 4) • A a)) :=
    ((w3.mono (by omega)).add (ok 2 ((1 / 16 : ℝ) • B a a))).congr fun h => by module
  have w3'' : Ord 1 (fun h => (1 / 2 : ℝ) • k2 h - (1 / 2 : ℝ) • a) :=
    ((w3'.mono (by omega)).add (ok 1 ((1 / 4 : ℝ) • A a))).congr fun h => by module
  have w30 : Ord 0 (fun h => (1 / 2 : ℝ) • k2 h) := ((w3''.mono (by omega)).add oh).congr fun h => by module
  have q3 : Ord 0 (fun h : ℝ => (1 / 2 : ℝ) • a + (h / 4) • A a) :=
    (oh.add ((ok 1 ((1 / 4 : ℝ) • A a)).mono (by omega))).congr fun h => by module
  -- the third stage
  have e3 := H.subst w30 q3 oh w3 w3' w3'' (k := 4) (by omega) (by omega) (by omega) (by omega)
  have e3' : Ord 4 (fun h => k3 h - (a + (h / 2) • A a + (h ^ 2) • ((1 / 4 : ℝ) • A (A a) + (1 / 8 : ℝ) • B a a) +
      h ^ 3 • ((1 / 16 : ℝ) • A (B a a) + (1 / 8 : ℝ) • B a (A a) + (1 / 48 : ℝ) • C a a a))) := by
    refine (e3.add (ok 4 ((1 / 32 : ℝ) • B (A a) (A a)))).congr fun h => ?_
    have : h • (1 / 2 : ℝ) • k2 h = (h / 2) • k2 h := by module
    rw [this]
    simp only [hk3, map_add, map_smul, add_apply, smul_apply, H.symm (A a) a]
    module
  have w4 : Ord 3 (fun h => k3 h - (a + (h / 2) • A a + (h ^ 2) • ((1 / 4 : ℝ) • A (A a) + (1 / 8 : ℝ) • B a a))) :=
    ((e3'.mono (by omega)).add (ok 3 ((1 / 16 : ℝ) • A (B a a) + (1 / 8 : ℝ) • B a (A a) + (1 / 48 : ℝ) • C a a a))).congr fun h => by module
  have w4' : Ord 2 (fun h => k3 h - (a + (h / 2) • A a)) :=
    ((w4.mono (by omega)).add (ok 2 ((1 / 4 : ℝ) • A (A a) + (1 / 8 : ℝ) • B a a))).congr fun h => by module
  have w4'' : Ord 1 (fun h => k3 h - a) :=
    ((w4'.mono (by omega)).add (ok 1 ((1 / 2 : ℝ) • A a))).congr fun h => by module
  have w40 : Ord 0 k3 := ((w4''.mono (by omega)).add (ord_const a)).congr fun h => by module
  have q4 : Ord 0 (fun h : ℝ => a + (h / 2) • A a) :=
    ((ord_const a).add ((ok 1 ((1 / 2 : ℝ) • A a)).mono (by omega))).congr fun h => by module
  -- the fourth stage
  have e4 := H.subst w40 q4 (ord_const a) w4 w4' w4'' (k := 4) (by omega) (by omega) (by omega) (by omega)
  have total := ((((e2.const_smul 2).add (e3'.const_smul 2)).add e4).smul).const_smul (1 / 6)
  refine (total.add (ok 5 ((1 / 48 : ℝ) • B (A a) (A a)))).congr fun h => ?_
  change _ = (1 / 6 * h) • (f x + (2 : ℝ) • k2 h + (2 : ℝ) • k3 h + f (x + h • k3 h)) - taylor a A B C h
  simp only [taylor, map_add, map_smul, add_apply, smul_apply, H.symm (A a) a, ha]
  module

end NNL.Rk4
