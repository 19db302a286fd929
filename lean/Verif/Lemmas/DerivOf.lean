import Verif.Lemmas.Jacobian
import Mathlib.Analysis.Calculus.FDeriv.Prod

/-! Rules for `DerivOf`, and the derivative of a time given by an equation. -/

namespace NNL

open NNL.Spec Topology Asymptotics

variable {E F G : Type*} [NormedAddCommGroup E] [NormedSpace ℝ E] [NormedAddCommGroup F] [NormedSpace ℝ F]
  [NormedAddCommGroup G] [NormedSpace ℝ G]

theorem DerivOf.bind {f : E → Option F} {h : F → Option G} {L : E → F} {M : F → G} {x : E} {y : F}
    (hf : DerivOf f L x) (hy : f x = some y) (hh : DerivOf h M y) : DerivOf (fun x => (f x).bind h) (fun v => M (L v)) x := by
  obtain ⟨g, A, h1, h2, h3⟩ := hf
  obtain ⟨k, B, k1, k2, k3⟩ := hh
  have e : g x = y := by
    have := h1.self_of_nhds
    rw [hy] at this
    exact (Option.some_injective _ this).symm
  subst e
  refine ⟨fun x => k (g x), B.comp A, ?_, k2.comp x h2, fun v => by simp [h3, k3]⟩
  filter_upwards [h1, h2.continuousAt.eventually k1] with z hz1 hz2
  rw [hz1]
  exact hz2

theorem DerivOf.congr {f f' : E → Option F} {L L' : E → F} {x : E} (hf : DerivOf f L x) (h : ∀ᶠ y in 𝓝 x, f' y = f y)
    (hL : ∀ v, L' v = L v) : DerivOf f' L' x := by
  obtain ⟨g, A, h1, h2, h3⟩ := hf
  exact ⟨g, A, by filter_upwards [h, h1] with y a b; rw [a, b], h2, fun v => by rw [h3, hL]⟩

theorem derivOf_pi {n : ℕ} {f : E → Option (Fin n → ℝ)} {L : E → Fin n → ℝ} {x : E} (g : E → Fin n → ℝ)
    (h1 : ∀ᶠ y in 𝓝 x, f y = some (g y))
    (h : ∀ i, ∃ A : E →L[ℝ] ℝ, HasFDerivAt (fun y => g y i) A x ∧ ∀ v, A v = L v i) : DerivOf f L x := by
  choose A hA hL using h
  refine ⟨g, ContinuousLinearMap.pi A, h1, hasFDerivAt_pi.2 hA, fun v => ?_⟩
  ext i
  simp [hL]

theorem DerivOf.mapPair {f : E → Option F} {L : E → F} {x : E} (hf : DerivOf f L x) {k : E → G} {B : E →L[ℝ] G}
    (hk : HasFDerivAt k B x) : DerivOf (fun x => (f x).map fun y => (y, k x)) (fun v => (L v, B v)) x := by
  obtain ⟨g, A, h1, h2, h3⟩ := hf
  refine ⟨fun x => (g x, k x), A.prod B, ?_, h2.prodMk hk, fun v => by simp [h3]⟩
  filter_upwards [h1] with y hy
  rw [hy]; rfl

/-- A time which satisfies an equation, and is continuous, has the derivative of implicit differentiation. -/
theorem implicit_time (g : ℝ × E → ℝ) (τ : E → ℝ) (x0 : E) (L : ℝ × E →L[ℝ] ℝ) (hg : HasFDerivAt g L (τ x0, x0))
    (h0 : ∀ᶠ y in 𝓝 x0, g (τ y, y) = g (τ x0, x0)) (hτ : ContinuousAt τ x0) (ha : L (1, 0) ≠ 0) :
    HasFDerivAt τ (-(L (1, 0))⁻¹ • L.comp (ContinuousLinearMap.inr ℝ ℝ E)) x0 := by
  set a := L (1, 0) with hadef
  have hL : ∀ (s : ℝ) (v : E), L (s, v) = s * a + L (0, v) := by
    intro s v
    have : ((s, v) : ℝ × E) = s • (1, 0) + (0, v) := by simp
    rw [this, map_add, map_smul, smul_eq_mul]
  have ht : Filter.Tendsto (fun y => (τ y, y)) (𝓝 x0) (𝓝 (τ x0, x0)) := (hτ.prodMk continuousAt_id)
  have hlo := hg.isLittleO.comp_tendsto ht
  -- the remainder of the time
  have hR : (fun y => τ y - τ x0 + a⁻¹ * L (0, y - x0)) =o[𝓝 x0] fun y => ((τ y - τ x0, y - x0) : ℝ × E) := by
    have h2 := hlo.const_mul_left (-a⁻¹)
    refine h2.congr' ?_ (Filter.Eventually.of_forall fun y => rfl)
    filter_upwards [h0] with y hy
    simp only [Function.comp, hy, sub_self, zero_sub, Prod.mk_sub_mk]
    rw [hL]
    field_simp
  have hR2 : (fun y => ((τ y - τ x0 + a⁻¹ * L (0, y - x0), 0) : ℝ × E)) =o[𝓝 x0] fun y => ((τ y - τ x0, y - x0) : ℝ × E) := by
    rw [← isLittleO_norm_left] at hR ⊢
    refine hR.congr (fun y => ?_) fun y => rfl
    simp [Prod.norm_def]
  have hO : (fun y => ((τ y - τ x0, y - x0) : ℝ × E)) =O[𝓝 x0] fun y => y - x0 := by
    refine hR2.right_isBigO_sub.trans ?_
    have : (fun y => ((τ y - τ x0, y - x0) : ℝ × E) - (τ y - τ x0 + a⁻¹ * L (0, y - x0), 0)) =
        fun y => (((-a⁻¹) • L.comp (ContinuousLinearMap.inr ℝ ℝ E)).prod (ContinuousLinearMap.id ℝ E)) (y - x0) := by
      ext y <;> simp
    rw [this]
    exact ContinuousLinearMap.isBigO_sub _ _ _
  rw [hasFDerivAt_iff_isLittleO]
  refine (hR.trans_isBigO hO).congr (fun y => ?_) fun y => rfl
  simp

end NNL
