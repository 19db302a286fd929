import Verif.Spec.CarSim
import Verif.Spec.QuadEnv
import Verif.Model.CarSim
import Verif.Props.Grid
import Verif.Props.QuadEnv
import Mathlib.Analysis.SpecialFunctions.Trigonometric.Angle
import Mathlib.Analysis.SpecialFunctions.Trigonometric.Basic
import Mathlib.Tactic.Positivity

/-!
C124: the simulation of the car.
-/

set_option linter.unusedSectionVars false

namespace NNL.Props

open NNL NNL.Model NNL.Spec Set Real

/-! ## Sensors -/

theorem rayTo_eq (h R : ℝ) (s : Fin 3 → ℝ) (ψ : ℝ) : rayTo h R s ψ = sightPoint h s ψ R := by
  have e : -s 2 + ψ = -(s 2 - ψ) := by ring
  simp only [rayTo, sightPoint, e, cos_neg, sin_neg]
  congr 2
  ring_nf

theorem ray_point (h R : ℝ) (s : Fin 3 → ℝ) (ψ f : ℝ) :
    rayFrom h s + f • (rayTo h R s ψ - rayFrom h s) = sightPoint h s ψ (f * R) := by
  rw [rayTo_eq]
  funext i
  fin_cases i <;> simp [rayFrom, sightPoint] <;> ring

/-- **C124** (distances). Every value `getDistances` returns is how far the car sees in the direction of its ray, clockwise of its heading,
up to the radius of the sensor. -/
theorem C124_distances {S : Set (Fin 3 → ℝ)} {cast : (Fin 3 → ℝ) → (Fin 3 → ℝ) → ℝ} (hS : FirstHit S cast) {R : ℝ} (hR : 0 < R) (h : ℝ)
    (psi : List ℝ) (s : Fin 3 → ℝ) :
    (getDistances cast h R psi false s).length = psi.length ∧
      ∀ (k : ℕ) ψ, psi[k]? = some ψ → ∃ d, (getDistances cast h R psi false s)[k]? = some d ∧ SeesUpTo S h R s ψ d := by
  refine ⟨by simp [getDistances], fun k ψ hk => ⟨R * cast (rayFrom h s) (rayTo h R s ψ), by simp [getDistances, hk], ?_⟩⟩
  obtain ⟨c0, c1, c2, c3⟩ := hS (rayFrom h s) (rayTo h R s ψ)
  refine ⟨by positivity, by nlinarith, fun r hr hd => ?_, fun hd => ?_⟩
  · have := c2 (r / R) (by positivity) (by rw [div_lt_iff₀ hR]; linarith)
    rwa [ray_point, div_mul_cancel₀ _ hR.ne'] at this
  · have := c3 (by nlinarith)
    rwa [ray_point, mul_comm] at this

/-- **C124** (the full scan). The scan in all directions leaves out only its last ray, which is the first one again, and no two of the rays
that are kept end in the same point. -/
theorem C124_scan (cast : (Fin 3 → ℝ) → (Fin 3 → ℝ) → ℝ) (h : ℝ) {R : ℝ} (hR : 0 < R) {n : ℕ} (hn : 2 ≤ n) (s : Fin 3 → ℝ) :
    (getDistances cast h R (psiFull n) true s).length = n - 1 ∧
      (∀ k < n - 1, (getDistances cast h R (psiFull n) true s)[k]? = (getDistances cast h R (psiFull n) false s)[k]?) ∧
      (getDistances cast h R (psiFull n) false s)[n - 1]? = (getDistances cast h R (psiFull n) true s)[0]? ∧
      ∀ i j, i < n - 1 → j < n - 1 → i ≠ j → rayTo h R s ((psiFull n).getD i 0) ≠ rayTo h R s ((psiFull n).getD j 0) := by
  have hlen : (psiFull n).length = n := length_linspace _ _ _
  have hget : ∀ k, k < n → (psiFull n).getD k 0 = -π + (k : ℝ) * (2 * π / ((n - 1 : ℕ) : ℝ)) := by
    intro k hk
    rw [psiFull, getD_linspace _ _ _ _ hk]
    ring
  have hn1 : (0 : ℝ) < ((n - 1 : ℕ) : ℝ) := by exact_mod_cast (by omega : 0 < n - 1)
  have hdl : ∀ k < n - 1, (getDistances cast h R (psiFull n) true s)[k]? = (getDistances cast h R (psiFull n) false s)[k]? := by
    intro k hk
    have hl : (getDistances cast h R (psiFull n) false s).length = n := by simp [getDistances, hlen]
    have : getDistances cast h R (psiFull n) true s = (getDistances cast h R (psiFull n) false s).dropLast := rfl
    rw [this, List.getElem?_dropLast, hl, if_pos hk]
  refine ⟨by simp [getDistances, hlen], hdl, ?_, ?_⟩
  · rw [hdl 0 (by omega)]
    have e : ∀ k, k < n → (getDistances cast h R (psiFull n) false s)[k]? =
        some (R * cast (rayFrom h s) (rayTo h R s ((psiFull n).getD k 0))) := by
      intro k hk
      have : (psiFull n)[k]? = some ((psiFull n).getD k 0) := by
        rw [List.getD_eq_getElem?_getD, List.getElem?_eq_getElem (by omega)]
        rfl
      simp only [getDistances, Bool.false_eq_true, if_false, List.getElem?_map, this, Option.map_some]
    rw [e _ (by omega), e _ (by omega), hget _ (by omega), hget _ (by omega)]
    have e1 : -π + ((n - 1 : ℕ) : ℝ) * (2 * π / ((n - 1 : ℕ) : ℝ)) = π := by
      field_simp
      ring
    rw [e1]
    congr 3
    simp only [rayTo, Nat.cast_zero, zero_mul, add_zero]
    have c1 : cos (-s 2 + π) = cos (-s 2 + -π) := by
      rw [show -s 2 + π = -s 2 + -π + 2 * π by ring, cos_add_two_pi]
    have c2 : sin (-s 2 + π) = sin (-s 2 + -π) := by
      rw [show -s 2 + π = -s 2 + -π + 2 * π by ring, sin_add_two_pi]
    rw [c1, c2]
  · intro i j hi hj hij heq
    rw [hget _ (by omega), hget _ (by omega)] at heq
    have h0 := congrFun heq 0
    have h1 := congrFun heq 1
    simp only [rayTo, Matrix.cons_val_zero, Matrix.cons_val_one] at h0 h1
    have hc := mul_left_cancel₀ hR.ne' (add_left_cancel h0)
    have hs := mul_left_cancel₀ hR.ne' (sub_right_injective h1)
    have ha := Real.Angle.cos_sin_inj hc hs
    rw [Real.Angle.angle_eq_iff_two_pi_dvd_sub] at ha
    obtain ⟨k, hk⟩ := ha
    have hpi := Real.pi_pos
    have hk' : ((i : ℝ) - j) = ((n - 1 : ℕ) : ℝ) * k := by
      have : 2 * π * ((i : ℝ) - j) / ((n - 1 : ℕ) : ℝ) = 2 * π * k := by
        rw [← hk]
        ring
      rw [div_eq_iff hn1.ne'] at this
      have h2 : (2 * π) * (((i : ℝ) - j) - ((n - 1 : ℕ) : ℝ) * k) = 0 := by linarith
      rcases mul_eq_zero.1 h2 with h3 | h3
      · exact absurd h3 (by positivity)
      · linarith
    have hz : ((i : ℤ) - j) = ((n - 1 : ℕ) : ℤ) * k := by exact_mod_cast hk'
    have hki : k = 0 := by
      by_contra hk0
      rcases lt_or_gt_of_ne hk0 with hlt | hgt
      · have : ((n - 1 : ℕ) : ℤ) * k ≤ ((n - 1 : ℕ) : ℤ) * (-1) := mul_le_mul_of_nonneg_left (by omega) (by omega)
        omega
      · have : ((n - 1 : ℕ) : ℤ) * 1 ≤ ((n - 1 : ℕ) : ℤ) * k := mul_le_mul_of_nonneg_left (by omega) (by omega)
        omega
    rw [hki] at hz
    omega

/-! ## Controllers -/

theorem zipWith_sum (f : ℝ → ℝ → ℝ) (a b : List ℝ) (m : ℕ) (ha : a.length = m) (hb : b.length = m) :
    (List.zipWith f a b).sum = ∑ k ∈ Finset.range m, f (a.getD k 0) (b.getD k 0) := by
  induction m generalizing a b with
  | zero =>
    rw [List.length_eq_zero_iff] at ha
    simp [ha]
  | succ m ih =>
    obtain ⟨x, a, rfl⟩ := List.exists_cons_of_length_eq_add_one ha
    obtain ⟨y, b, rfl⟩ := List.exists_cons_of_length_eq_add_one hb
    rw [Finset.sum_range_succ', List.zipWith_cons_cons, List.sum_cons, ih a b (by simpa using ha) (by simpa using hb)]
    simp [add_comm]

theorem getD_reverse' (l : List ℝ) (k : ℕ) (hk : k < l.length) : l.reverse.getD k 0 = l.getD (l.length - 1 - k) 0 := by
  simp only [List.getD, List.getElem?_reverse hk]

/-- The turn rate as a sum over pairs of rays. -/
theorem opticalFlow_eq (mid : ℕ) {psiMax : ℝ} (hp : psiMax < π / 2) (y : List ℝ) (hy : y.length = 2 * mid) :
    opticalFlow (2 * mid) psiMax y = some (0.7, ∑ k ∈ Finset.range mid,
      (1 / (y.getD (mid + k) 0 * cos (k * (psiMax / ((mid - 1 : ℕ) : ℝ)))) -
        1 / (y.getD (mid - 1 - k) 0 * cos (k * (psiMax / ((mid - 1 : ℕ) : ℝ)))))) := by
  unfold opticalFlow
  rw [if_neg (by simp [hy])]
  simp only [Nat.mul_div_cancel_left mid (by norm_num : 0 < 2)]
  rw [if_neg (by simp), if_neg (not_not.2 hp)]
  congr 2
  have hl : (y.take mid).length = mid := by simp [hy]; omega
  have hr : (y.drop mid).length = mid := by simp [hy]; omega
  have hps : (linspace (0 : ℝ) psiMax mid).length = mid := length_linspace _ _ _
  rw [one_mul, zipWith_sum _ _ _ mid hr hps, zipWith_sum _ _ _ mid hl (by simp [hps]), Finset.sum_sub_distrib]
  congr 1
  · refine Finset.sum_congr rfl fun k hk => ?_
    rw [Finset.mem_range] at hk
    rw [getD_linspace _ _ _ _ hk]
    simp
  · rw [← Finset.sum_range_reflect]
    refine Finset.sum_congr rfl fun k hk => ?_
    rw [Finset.mem_range] at hk
    rw [getD_reverse' _ _ (by rw [hps]; omega), hps, show mid - 1 - (mid - 1 - k) = k by omega, getD_linspace _ _ _ _ hk]
    have : (y.take mid).getD (mid - 1 - k) 0 = y.getD (mid - 1 - k) 0 := by
      simp only [List.getD, List.getElem?_take]
      rw [if_pos (by omega)]
    rw [this]
    simp

/-- When `compute_optical_flow_control` raises. -/
theorem C124_flow_raises (n : ℕ) (psiMax : ℝ) (y : List ℝ) :
    opticalFlow n psiMax y = none ↔ n ≠ y.length ∨ n % 2 = 1 ∨ π / 2 ≤ psiMax := by
  unfold opticalFlow
  simp only
  split
  · simp_all
  · split
    · rename_i h1 h2
      simp only [true_iff]
      right; left; omega
    · rename_i h1 h2
      split
      · rename_i h3
        simp only [true_iff]
        right; right; exact not_lt.1 h3
      · rename_i h3
        simp only [reduceCtorEq, false_iff, not_or, not_le]
        exact ⟨h1, by omega, not_not.1 h3⟩

/-- **C124** (avoiding obstacles). The car drives forward. If on the right it sees no farther in any direction than in the mirrored direction
on the left, it does not turn right, and it turns left if one of the distances differs; mirroring what it sees mirrors the turn. -/
theorem C124_avoids (mid : ℕ) {psiMax : ℝ} (h0 : 0 ≤ psiMax) (hp : psiMax < π / 2) (y : List ℝ) (hy : y.length = 2 * mid)
    (hpos : ∀ d ∈ y, 0 < d) :
    ∃ ω, opticalFlow (2 * mid) psiMax y = some (0.7, ω) ∧
      opticalFlow (2 * mid) psiMax y.reverse = some (0.7, -ω) ∧
      ((∀ k < mid, y.getD (mid + k) 0 ≤ y.getD (mid - 1 - k) 0) → 0 ≤ ω ∧
        ((∃ k < mid, y.getD (mid + k) 0 < y.getD (mid - 1 - k) 0) → 0 < ω)) := by
  have hcos : ∀ k < mid, 0 < cos ((k : ℝ) * (psiMax / ((mid - 1 : ℕ) : ℝ))) := by
    intro k hk
    have hle : (k : ℝ) * (psiMax / ((mid - 1 : ℕ) : ℝ)) ≤ psiMax := by
      rcases Nat.eq_zero_or_pos (mid - 1) with hz | hz
      · rw [hz]; simpa using h0
      · have hz' : (0 : ℝ) < ((mid - 1 : ℕ) : ℝ) := by exact_mod_cast hz
        have hk' : (k : ℝ) ≤ ((mid - 1 : ℕ) : ℝ) := by exact_mod_cast (by omega : k ≤ mid - 1)
        rw [← mul_div_assoc, div_le_iff₀ hz']
        nlinarith
    have hnn : 0 ≤ (k : ℝ) * (psiMax / ((mid - 1 : ℕ) : ℝ)) := by positivity
    exact cos_pos_of_mem_Ioo ⟨by linarith [Real.pi_pos], by linarith⟩
  have hget : ∀ k < 2 * mid, 0 < y.getD k 0 := by
    intro k hk
    apply hpos
    rw [List.getD_eq_getElem?_getD, List.getElem?_eq_getElem (by omega)]
    exact List.getElem_mem _
  refine ⟨_, opticalFlow_eq mid hp y hy, ?_, ?_⟩
  · rw [opticalFlow_eq mid hp y.reverse (by simpa using hy)]
    congr 2
    rw [← Finset.sum_neg_distrib]
    refine Finset.sum_congr rfl fun k hk => ?_
    rw [Finset.mem_range] at hk
    rw [getD_reverse' _ _ (by omega), getD_reverse' _ _ (by omega), hy, show 2 * mid - 1 - (mid + k) = mid - 1 - k by omega,
      show 2 * mid - 1 - (mid - 1 - k) = mid + k by omega]
    ring
  · intro hle
    have hterm : ∀ k ∈ Finset.range mid, 0 ≤ 1 / (y.getD (mid + k) 0 * cos (k * (psiMax / ((mid - 1 : ℕ) : ℝ)))) -
        1 / (y.getD (mid - 1 - k) 0 * cos (k * (psiMax / ((mid - 1 : ℕ) : ℝ)))) := by
      intro k hk
      rw [Finset.mem_range] at hk
      rw [sub_nonneg]
      have := hcos k hk
      have := hget (mid + k) (by omega)
      exact one_div_le_one_div_of_le (by positivity) (mul_le_mul_of_nonneg_right (hle k hk) (hcos k hk).le)
    refine ⟨Finset.sum_nonneg hterm, ?_⟩
    rintro ⟨k, hk, hlt⟩
    refine Finset.sum_pos' hterm ⟨k, Finset.mem_range.2 hk, ?_⟩
    rw [sub_pos]
    have := hcos k hk
    have := hget (mid + k) (by omega)
    exact one_div_lt_one_div_of_lt (by positivity) (mul_lt_mul_of_pos_right hlt (hcos k hk))

/-- **C124** (the angles the controller assumes). Ray `mid + k` of the sensor points `(2k + 1) / (2 mid - 1) ψ` to the right, ray
`mid - 1 - k` as far to the left, but the controller takes both angles to be `k / (mid - 1) ψ`, which is smaller for every ray except the
outermost. So the inverse of the distance ahead that it adds up is too small for all obstacles but those seen by the outermost rays. -/
theorem C124_angles {mid k : ℕ} (hm : 2 ≤ mid) (hk : k < mid) {psiMax : ℝ} (h0 : 0 < psiMax) (hp : psiMax < π / 2) :
    (psiNominal (2 * mid) psiMax).getD (mid + k) 0 = psiMax * (2 * k + 1) / (2 * mid - 1) ∧
      (psiNominal (2 * mid) psiMax).getD (mid - 1 - k) 0 = -(psiMax * (2 * k + 1) / (2 * mid - 1)) ∧
      ∀ d : ℝ, 0 < d →
        1 / (d * cos ((linspace 0 psiMax mid).getD k 0)) ≤ 1 / (d * cos ((psiNominal (2 * mid) psiMax).getD (mid + k) 0)) ∧
        (1 / (d * cos ((linspace 0 psiMax mid).getD k 0)) = 1 / (d * cos ((psiNominal (2 * mid) psiMax).getD (mid + k) 0)) ↔
          k = mid - 1) := by
  have hmr : (2 : ℝ) ≤ mid := by exact_mod_cast hm
  have hkr : (k : ℝ) ≤ mid - 1 := by
    have : (k : ℝ) + 1 ≤ mid := by exact_mod_cast hk
    linarith
  have hc1 : ((2 * mid - 1 : ℕ) : ℝ) = 2 * mid - 1 := by
    rw [Nat.cast_sub (by omega)]; push_cast; ring
  have hc2 : ((mid - 1 : ℕ) : ℝ) = mid - 1 := by
    rw [Nat.cast_sub (by omega)]; push_cast; ring
  have hc3 : ((mid - 1 - k : ℕ) : ℝ) = mid - 1 - k := by
    rw [Nat.cast_sub (by omega), hc2]
  have hd1 : (0 : ℝ) < 2 * mid - 1 := by linarith
  have hd2 : (0 : ℝ) < mid - 1 := by linarith
  have e1 : (psiNominal (2 * mid) psiMax).getD (mid + k) 0 = psiMax * (2 * k + 1) / (2 * mid - 1) := by
    rw [psiNominal, getD_linspace _ _ _ _ (by omega), hc1]
    push_cast
    have := hd1.ne'
    rw [eq_div_iff this]
    have e : (psiMax - -psiMax) / (2 * (mid : ℝ) - 1) * (2 * mid - 1) = 2 * psiMax := by
      rw [div_mul_cancel₀ _ this]; ring
    linear_combination ((mid : ℝ) + k) * e
  have e2 : (psiNominal (2 * mid) psiMax).getD (mid - 1 - k) 0 = -(psiMax * (2 * k + 1) / (2 * mid - 1)) := by
    rw [psiNominal, getD_linspace _ _ _ _ (by omega), hc1, hc3]
    have := hd1.ne'
    rw [← neg_div, eq_div_iff this]
    have e : (psiMax - -psiMax) / (2 * (mid : ℝ) - 1) * (2 * mid - 1) = 2 * psiMax := by
      rw [div_mul_cancel₀ _ this]; ring
    linear_combination ((mid : ℝ) - 1 - k) * e
  refine ⟨e1, e2, fun d hd => ?_⟩
  rw [e1, getD_linspace _ _ _ _ hk, hc2]
  set a : ℝ := 0 + k * ((psiMax - 0) / (mid - 1)) with ha
  set b : ℝ := psiMax * (2 * k + 1) / (2 * mid - 1) with hb
  have hdiff : b - a = psiMax * (mid - 1 - k) / ((2 * mid - 1) * (mid - 1)) := by
    rw [ha, hb]
    field_simp
    ring
  have hk0 : (0 : ℝ) ≤ k := Nat.cast_nonneg k
  have ha0 : 0 ≤ a := by rw [ha]; simp only [zero_add, sub_zero]; positivity
  have hab : a ≤ b := by
    have : 0 ≤ b - a := by
      rw [hdiff]
      exact div_nonneg (mul_nonneg h0.le (by linarith)) (by positivity)
    linarith
  have hb1 : b ≤ psiMax := by
    rw [hb, div_le_iff₀ hd1]
    nlinarith
  have hcb : 0 < cos b := cos_pos_of_mem_Ioo ⟨by linarith, by linarith⟩
  have hcab : cos b ≤ cos a := cos_le_cos_of_nonneg_of_le_pi ha0 (by linarith [Real.pi_pos]) hab
  refine ⟨one_div_le_one_div_of_le (by positivity) (mul_le_mul_of_nonneg_left hcab hd.le), ?_⟩
  constructor
  · intro he
    by_contra hne
    have hlt : a < b := by
      have : 0 < b - a := by
        rw [hdiff]
        refine div_pos (mul_pos h0 ?_) (by positivity)
        have : (k : ℝ) + 1 < mid := by exact_mod_cast (by omega : k + 1 < mid)
        linarith
      linarith
    have := cos_lt_cos_of_nonneg_of_le_pi ha0 (by linarith [Real.pi_pos]) hlt
    have h2 := one_div_lt_one_div_of_lt (by positivity) (mul_lt_mul_of_pos_left this hd)
    exact absurd he h2.ne
  · intro he
    have : b - a = 0 := by
      rw [hdiff]
      have : (k : ℝ) = mid - 1 := by rw [he, hc2]
      rw [this]
      simp
    rw [show b = a by linarith]

theorem unit2_norm (v w : ℝ) (hv : 0 < v) : (unit2 (v, w)).1 ^ 2 + (unit2 (v, w)).2 ^ 2 = 1 ∧ 0 < (unit2 (v, w)).1 ∧
    (0 < (unit2 (v, w)).2 ↔ 0 < w) ∧ ((unit2 (v, w)).2 = 0 ↔ w = 0) := by
  have hs : 0 < v ^ 2 + w ^ 2 := by positivity
  have hq : 0 < sqrt (v ^ 2 + w ^ 2) := sqrt_pos.2 hs
  simp only [unit2]
  refine ⟨?_, by positivity, ?_, ?_⟩
  · rw [div_pow, div_pow, sq_sqrt hs.le]
    field_simp
  · exact div_pos_iff_of_pos_right hq
  · rw [div_eq_zero_iff]
    exact or_iff_left hq.ne'

theorem yawGoal_spec (g : ℝ × ℝ) (s : Fin 3 → ℝ) (prev : ℝ) :
    -π < yawGoal g s prev ∧ yawGoal g s prev < 2 * π ∧ goalDist g s * cos (yawGoal g s prev) = g.1 - s 0 ∧
      goalDist g s * sin (yawGoal g s prev) = g.2 - s 1 := by
  set z : ℂ := ⟨g.1 - s 0, g.2 - s 1⟩ with hz
  have hnorm : goalDist g s = ‖z‖ := by
    rw [Complex.norm_eq_sqrt_sq_add_sq, goalDist]
  have harg : arctan2 (g.2 - s 1) (g.1 - s 0) = Complex.arg z := rfl
  have hpi := Real.pi_pos
  have h1 := Complex.neg_pi_lt_arg z
  have h2 := Complex.arg_le_pi z
  have hc : ‖z‖ * cos (Complex.arg z) = g.1 - s 0 := Complex.norm_mul_cos_arg z
  have hs : ‖z‖ * sin (Complex.arg z) = g.2 - s 1 := Complex.norm_mul_sin_arg z
  unfold yawGoal
  simp only [harg, hnorm, neg_zero]
  split
  · split
    · rw [cos_add_two_pi, sin_add_two_pi]
      exact ⟨by linarith, by linarith, hc, hs⟩
    · exact ⟨h1, by linarith, hc, hs⟩
  · exact ⟨h1, by linarith, hc, hs⟩

/-- **C124** (driving to the goal). The control has length one and drives forward. If all rays are longer than 0.8 the yaw is that of the
goal as seen from the car, and where obstacles alone would not turn it the car turns towards that yaw; otherwise the yaw is kept and
the turn is that of avoiding obstacles. The result has another form exactly when the goal is reached with a clear view. -/
theorem C124_goal {n : ℕ} {psiMax thr : ℝ} {y : List ℝ} {g : ℝ × ℝ} {s : Fin 3 → ℝ} {prev v ω : ℝ} {r : GoalControl}
    (hf : opticalFlow n psiMax y = some (v, ω)) (h : opticalFlowGoal n psiMax thr y (some g) s prev = some r) :
    (r = .zeros ↔ (∀ d ∈ y, 0.8 < d) ∧ goalDist g s < thr) ∧
      ∀ u yaw, r = .pair u yaw → u.1 ^ 2 + u.2 ^ 2 = 1 ∧ 0 < u.1 ∧
        ((∀ d ∈ y, 0.8 < d) → -π < yaw ∧ yaw < 2 * π ∧ goalDist g s * cos yaw = g.1 - s 0 ∧ goalDist g s * sin yaw = g.2 - s 1 ∧
          (ω = 0 → (0 < u.2 ↔ s 2 < yaw) ∧ (u.2 = 0 ↔ yaw = s 2))) ∧
        ((∃ d ∈ y, d ≤ 0.8) → yaw = prev ∧ (0 < u.2 ↔ 0 < ω) ∧ (u.2 = 0 ↔ ω = 0)) := by
  have hv : v = 0.7 := by
    unfold opticalFlow at hf
    simp only at hf
    split at hf
    · cases hf
    split at hf
    · cases hf
    split at hf
    · cases hf
    simp only [Option.some.injEq, Prod.mk.injEq] at hf
    exact hf.1.symm
  have hvp : 0 < v := by rw [hv]; norm_num
  unfold opticalFlowGoal at h
  rw [hf, Option.bind_some] at h
  simp only at h
  obtain ⟨m, hm, h⟩ := Option.bind_eq_some_iff.1 h
  obtain ⟨hmem, hmin⟩ := List.min?_eq_some_iff.1 hm
  have hall : (∀ d ∈ y, (0.8 : ℝ) < d) ↔ 0.8 < m := ⟨fun hd => hd m hmem, fun hd d hdy => lt_of_lt_of_le hd (hmin d hdy)⟩
  split at h
  · rename_i hgt
    split at h
    · rename_i hd
      cases h
      exact ⟨⟨fun _ => ⟨hall.2 hgt, hd⟩, fun _ => rfl⟩, by intro u yaw hc; cases hc⟩
    · rename_i hd
      cases h
      refine ⟨by simp [hd], ?_⟩
      rintro u yaw hc
      simp only [GoalControl.pair.injEq] at hc
      obtain ⟨rfl, rfl⟩ := hc
      obtain ⟨n1, n2, n3, n4⟩ := unit2_norm v (ω + 7.5 * (yawGoal g s prev - s 2)) hvp
      obtain ⟨y1, y2, y3, y4⟩ := yawGoal_spec g s prev
      refine ⟨n1, n2, fun _ => ⟨y1, y2, y3, y4, fun h0 => ?_⟩, ?_⟩
      · rw [n3, n4, h0]
        constructor <;> constructor <;> intro hh <;> linarith
      · rintro ⟨d, hdy, hle⟩
        exact absurd (hall.2 hgt d hdy) (not_lt.2 hle)
  · rename_i hgt
    cases h
    refine ⟨?_, ?_⟩
    · constructor
      · intro hc; cases hc
      · rintro ⟨hd, -⟩
        exact absurd (hall.1 hd) hgt
    · rintro u yaw hc
      simp only [GoalControl.pair.injEq] at hc
      obtain ⟨rfl, rfl⟩ := hc
      obtain ⟨n1, n2, n3, n4⟩ := unit2_norm v ω hvp
      exact ⟨n1, n2, fun hd => absurd (hall.1 hd) hgt, fun _ => ⟨rfl, n3, n4⟩⟩

/-- Without a goal the control avoids obstacles only. -/
theorem C124_no_goal {n : ℕ} {psiMax thr : ℝ} {y : List ℝ} {s : Fin 3 → ℝ} {prev ω : ℝ}
    (hf : opticalFlow n psiMax y = some (0.7, ω)) :
    ∃ u, opticalFlowGoal n psiMax thr y none s prev = some (.pair u prev) ∧ u.1 ^ 2 + u.2 ^ 2 = 1 ∧ 0 < u.1 ∧ (0 < u.2 ↔ 0 < ω) := by
  obtain ⟨n1, n2, n3, -⟩ := unit2_norm 0.7 ω (by norm_num)
  exact ⟨unit2 (0.7, ω), by simp [opticalFlowGoal, hf], n1, n2, n3⟩

/-! ## Data -/

theorem drawFree_spec {α : Type} (free : α → Bool) (cs : List α) (c : α) (rest : List α) (h : drawFree free cs = some (c, rest)) :
    free c = true ∧ ∃ pre, cs = pre ++ c :: rest ∧ ∀ d ∈ pre, free d = false := by
  induction cs with
  | nil => cases h
  | cons d cs ih =>
    unfold drawFree at h
    split at h
    · rename_i hd
      cases h
      exact ⟨hd, [], rfl, by simp⟩
    · rename_i hd
      obtain ⟨h1, pre, h2, h3⟩ := ih h
      refine ⟨h1, d :: pre, by rw [h2]; rfl, ?_⟩
      intro e he
      rcases List.mem_cons.1 he with rfl | he
      · simpa using hd
      · exact h3 e he

theorem controllerLoop_spec (next : (Fin 3 → ℝ) → (Fin 2 → ℝ) → ℝ → Fin 3 → ℝ) (P : CarParams) (W : CarWorld) (k : ℕ) :
    ∀ (s : Fin 3 → ℝ) (yaw : ℝ) (goal : ℝ × ℝ) (cands : List (ℝ × ℝ)) (rows : List CarRow),
      controllerLoop next P W k s yaw goal cands = some rows →
      rows.length = k ∧ (∀ r, rows[0]? = some r → r.state = s) ∧
        (∀ (i : ℕ) r r', rows[i]? = some r → rows[i + 1]? = some r' → r'.state = next r.state ![r.u.1, r.u.2] 0.01) ∧
        ∀ r ∈ rows, r.u.1 ^ 2 + r.u.2 ^ 2 = 1 ∧ 0 < r.u.1 ∧
          r.depth = getDistances W.cast P.height P.senseRadius (psiFull P.raysData) true r.state := by
  induction k with
  | zero =>
    intro s yaw goal cands rows h
    simp only [controllerLoop, Option.some.injEq] at h
    subst h
    simp
  | succ k ih =>
    intro s yaw goal cands rows h
    simp only [controllerLoop] at h
    obtain ⟨c, hc, h⟩ := Option.bind_eq_some_iff.1 h
    cases c with
    | zeros => cases h
    | pair u yaw' =>
      simp only at h
      obtain ⟨g, -, h⟩ := Option.bind_eq_some_iff.1 h
      obtain ⟨rest, hrest, rfl⟩ := Option.map_eq_some_iff.1 h
      obtain ⟨i1, i2, i3, i4⟩ := ih _ _ _ _ _ hrest
      have hu : u.1 ^ 2 + u.2 ^ 2 = 1 ∧ 0 < u.1 := by
        have hfs := hc
        unfold opticalFlowGoal at hfs
        obtain ⟨⟨v, ω⟩, hf, -⟩ := Option.bind_eq_some_iff.1 hfs
        obtain ⟨a1, a2, -⟩ := (C124_goal hf hc).2 u yaw' rfl
        exact ⟨a1, a2⟩
      refine ⟨by simp [i1], by simp, ?_, ?_⟩
      · intro i r r' hr hr'
        cases i with
        | zero =>
          simp only [List.getElem?_cons_zero, Option.some.injEq] at hr
          subst hr
          rw [List.getElem?_cons_succ] at hr'
          exact i2 r' hr'
        | succ i =>
          rw [List.getElem?_cons_succ] at hr hr'
          exact i3 i r r' hr hr'
      · intro r hr
        rcases List.mem_cons.1 hr with rfl | hr
        · exact ⟨hu.1, hu.2, rfl⟩
        · exact i4 r hr

/-- One step of the car of length 0.01. -/
theorem samples_unicycle {next : (Fin 3 → ℝ) → (Fin 2 → ℝ) → ℝ → Fin 3 → ℝ} (hn : Samples unicycleDyn next) (s : Fin 3 → ℝ) (u : Fin 2 → ℝ)
    {dt : ℝ} (hdt : 0 ≤ dt) : next s u dt 2 = s 2 + u 1 * dt ∧ |next s u dt 0 - s 0| ≤ |u 0| * dt ∧ |next s u dt 1 - s 1| ≤ |u 0| * dt := by
  obtain ⟨X, h0, hX, h1⟩ := hn s u dt hdt
  have hd : dt ∈ Icc 0 dt := ⟨hdt, le_rfl⟩
  have h00 : (0 : ℝ) ∈ Icc 0 dt := ⟨le_rfl, hdt⟩
  rw [h1]
  refine ⟨?_, ?_, ?_⟩
  · have hder : ∀ t ∈ Icc 0 dt, HasDerivWithinAt (fun t => X t 2 - u 1 * t) 0 (Icc 0 dt) t := by
      intro t ht
      refine ((hX t ht 2).sub ((hasDerivWithinAt_id t (Icc 0 dt)).const_mul (u 1))).congr_deriv ?_
      simp [unicycleDyn]
    have := const_of_deriv_zero hder dt hd
    simp only [mul_zero, sub_zero, h0] at this
    linarith
  · have := (convex_Icc 0 dt).norm_image_sub_le_of_norm_hasDerivWithin_le (f := fun t => X t 0) (C := |u 0|)
      (fun t ht => hX t ht 0) (fun t _ => by
        simp only [unicycleDyn, Matrix.cons_val_zero, norm_eq_abs, abs_mul]
        exact mul_le_of_le_one_right (abs_nonneg _) (abs_cos_le_one _)) h00 hd
    simp only [h0, norm_eq_abs, sub_zero, abs_of_nonneg hdt] at this
    exact this
  · have := (convex_Icc 0 dt).norm_image_sub_le_of_norm_hasDerivWithin_le (f := fun t => X t 1) (C := |u 0|)
      (fun t ht => hX t ht 1) (fun t _ => by
        simp only [unicycleDyn, Matrix.cons_val_one, Matrix.cons_val_zero, norm_eq_abs, abs_mul]
        exact mul_le_of_le_one_right (abs_nonneg _) (abs_sin_le_one _)) h00 hd
    simp only [h0, norm_eq_abs, sub_zero, abs_of_nonneg hdt] at this
    exact this

/-- **C124** (driving data). If `simulate_controller` returns, it has `T_horizon` rows for each environment, in which control, scan and state
belong together: the scan is the one at the state, the next row has the state to which the control leads. The first state is the
start, controls have length one, and between rows the car moves and turns by at most 0.01. -/
theorem C124_controller {next : (Fin 3 → ℝ) → (Fin 2 → ℝ) → ℝ → Fin 3 → ℝ} (hn : Samples unicycleDyn next) (P : CarParams)
    (ws : List (CarWorld × List (ℝ × ℝ))) (data : List (List CarRow)) (h : simulateController next P ws = some data) :
    data.length = ws.length ∧ ∀ (e : ℕ) w rows, ws[e]? = some w → data[e]? = some rows →
      rows.length = P.horizon ∧ (∀ r, rows[0]? = some r → r.state = ![0, 1, π / 2]) ∧
        (∀ (i : ℕ) r r', rows[i]? = some r → rows[i + 1]? = some r' → r'.state = next r.state ![r.u.1, r.u.2] 0.01 ∧
          ∀ j, |r'.state j - r.state j| ≤ 0.01) ∧
        ∀ r ∈ rows, r.u.1 ^ 2 + r.u.2 ^ 2 = 1 ∧ 0 < r.u.1 ∧
          r.depth = getDistances w.1.cast P.height P.senseRadius (psiFull P.raysData) true r.state := by
  induction ws generalizing data with
  | nil =>
    simp only [simulateController, Option.some.injEq] at h
    subst h
    simp
  | cons w ws ih =>
    simp only [simulateController] at h
    obtain ⟨g, -, h⟩ := Option.bind_eq_some_iff.1 h
    obtain ⟨rows, hrows, h⟩ := Option.bind_eq_some_iff.1 h
    obtain ⟨rest, hrest, rfl⟩ := Option.map_eq_some_iff.1 h
    obtain ⟨i1, i2⟩ := ih rest hrest
    refine ⟨by simp [i1], ?_⟩
    intro e w' rows' hw hr
    cases e with
    | succ e =>
      rw [List.getElem?_cons_succ] at hw hr
      exact i2 e w' rows' hw hr
    | zero =>
      simp only [List.getElem?_cons_zero, Option.some.injEq] at hw hr
      subst hw hr
      obtain ⟨c1, c2, c3, c4⟩ := controllerLoop_spec next P w.1 _ _ _ _ _ _ hrows
      refine ⟨c1, c2, fun i r r' hi hi' => ⟨c3 i r r' hi hi', ?_⟩, c4⟩
      rw [c3 i r r' hi hi']
      obtain ⟨u1, u2, -⟩ := c4 r (List.mem_of_getElem? hi)
      obtain ⟨m2, m0, m1⟩ := samples_unicycle hn r.state ![r.u.1, r.u.2] (dt := 0.01) (by norm_num)
      have hv : |r.u.1| ≤ 1 := by
        rw [abs_le_one_iff_mul_self_le_one]
        nlinarith [sq_nonneg r.u.2]
      have hw : |r.u.2| ≤ 1 := by
        rw [abs_le_one_iff_mul_self_le_one]
        nlinarith [sq_nonneg r.u.1]
      simp only [Matrix.cons_val_zero, Matrix.cons_val_one] at m0 m1 m2
      intro j
      fin_cases j
      · exact m0.trans (by nlinarith)
      · exact m1.trans (by nlinarith)
      · simp only [Fin.reduceFinMk, m2, add_sub_cancel_left, abs_mul]
        rw [abs_of_pos (by norm_num : (0 : ℝ) < 0.01)]
        nlinarith

/-- **C124** (random data). If `simulate_random_sample` returns, there is a row for every step. Its state is free of collision and within the
limits, its control within the limits, the next state is where the control leads, and both scans are those of the states. -/
theorem C124_samples (next : (Fin 3 → ℝ) → (Fin 2 → ℝ) → ℝ → Fin 3 → ℝ) (P : CarParams) (W : CarWorld)
    (ds : List (List (ℝ × ℝ × ℝ) × ℝ × ℝ))
    (hds : ∀ d ∈ ds, (∀ r ∈ d.1, r.1 ∈ Ico (0 : ℝ) 1 ∧ r.2.1 ∈ Ico (0 : ℝ) 1 ∧ r.2.2 ∈ Ico (0 : ℝ) 1) ∧ d.2.1 ∈ Ico (0 : ℝ) 1 ∧
      d.2.2 ∈ Ico (0 : ℝ) 1) (rows : List CarSample) (h : carSampleLoop next P W ds = some rows) :
    rows.length = ds.length ∧ ∀ r ∈ rows, W.free (r.state 0, r.state 1) = true ∧ r.state 0 ∈ Ico (-8 : ℝ) 8 ∧ r.state 1 ∈ Ico (-8 : ℝ) 8 ∧
      r.state 2 ∈ Ico (-1.5 * π) (1.5 * π) ∧ r.u.1 ∈ Ico (-2 : ℝ) 5 ∧ r.u.2 ∈ Ico (-0.5 : ℝ) 0.5 ∧
      r.nextState = next r.state ![r.u.1, r.u.2] 0.01 ∧
      r.depth = getDistances W.cast P.height P.senseRadius (psiFull P.raysData) true r.state ∧
      r.nextDepth = getDistances W.cast P.height P.senseRadius (psiFull P.raysData) true r.nextState := by
  induction ds generalizing rows with
  | nil =>
    simp only [carSampleLoop, Option.some.injEq] at h
    subst h
    simp
  | cons d ds ih =>
    simp only [carSampleLoop] at h
    obtain ⟨⟨c, cr⟩, hc, h⟩ := Option.bind_eq_some_iff.1 h
    obtain ⟨rest, hrest, rfl⟩ := Option.map_eq_some_iff.1 h
    obtain ⟨i1, i2⟩ := ih (fun d hd => hds d (List.mem_cons_of_mem _ hd)) rest hrest
    refine ⟨by simp [i1], ?_⟩
    intro r hr
    rcases List.mem_cons.1 hr with rfl | hr
    · obtain ⟨hfree, pre, hpre, -⟩ := drawFree_spec _ _ _ _ hc
      obtain ⟨hd1, hd2, hd3⟩ := hds d List.mem_cons_self
      have hmem : c ∈ (d.1.map fun r => (![-8 + (8 - -8) * r.1, -8 + (8 - -8) * r.2.1,
          -1.5 * π + (1.5 * π - -1.5 * π) * r.2.2] : Fin 3 → ℝ)) := by
        rw [hpre]
        simp
      obtain ⟨q, hq, rfl⟩ := List.mem_map.1 hmem
      obtain ⟨⟨a1, a2⟩, ⟨b1, b2⟩, c1, c2⟩ := hd1 q hq
      have hpi := Real.pi_pos
      simp only [mem_Ico] at hd2 hd3
      refine ⟨hfree, ?_, ?_, ?_, ?_, ?_, rfl, rfl, rfl⟩
      · simp only [Matrix.cons_val_zero]
        constructor <;> linarith
      · simp only [Matrix.cons_val_one, Matrix.cons_val_zero]
        constructor <;> linarith
      · simp only [Matrix.cons_val]
        constructor <;> nlinarith
      · constructor <;> linarith
      · constructor <;> linarith
    · exact i2 r hr

/-- **C124** (obstacles). Obstacles are drawn in `[-10, 10) × [-8, 10)` with radii in `[0.1, 0.25)`; the start `(0, 1)` of the car is not
kept free. -/
theorem C124_obstacles : (∀ r0 r1 r2 : ℝ, r0 ∈ Ico (0 : ℝ) 1 → r1 ∈ Ico (0 : ℝ) 1 → r2 ∈ Ico (0 : ℝ) 1 →
      (obstacleAt r0 r1 r2).1 ∈ Ico (-10 : ℝ) 10 ∧ (obstacleAt r0 r1 r2).2.1 ∈ Ico (-8 : ℝ) 10 ∧
        (obstacleAt r0 r1 r2).2.2 ∈ Ico (0.1 : ℝ) 0.25) ∧
    ∃ r0 r1 r2 : ℝ, r0 ∈ Ico (0 : ℝ) 1 ∧ r1 ∈ Ico (0 : ℝ) 1 ∧ r2 ∈ Ico (0 : ℝ) 1 ∧
      ((obstacleAt r0 r1 r2).1, (obstacleAt r0 r1 r2).2.1) = (0, 1) := by
  refine ⟨?_, 0.5, 0.5, 0, by norm_num, by norm_num, by norm_num, ?_⟩
  · rintro r0 r1 r2 ⟨a1, a2⟩ ⟨b1, b2⟩ ⟨c1, c2⟩
    simp only [obstacleAt, mem_Ico]
    refine ⟨⟨?_, ?_⟩, ⟨?_, ?_⟩, ?_, ?_⟩ <;> linarith
  · norm_num [obstacleAt]

/-- **C124** (the goal at the car). Goals are not kept away from the car. Without obstacles, and with the first goal closer to the start than
the threshold, `simulate_controller` does not return, whatever is drawn afterwards. -/
theorem C124_controller_counterexample (next : (Fin 3 → ℝ) → (Fin 2 → ℝ) → ℝ → Fin 3 → ℝ) (goals : List (ℝ × ℝ))
    (ws : List (CarWorld × List (ℝ × ℝ))) :
    simulateController next CarParams.default ((⟨fun _ _ => 1, fun _ => true⟩, (0, 1.1) :: goals) :: ws) = none := by
  have hloop : controllerLoop next CarParams.default ⟨fun _ _ => 1, fun _ => true⟩ CarParams.default.horizon ![0, 1, π / 2] 0 (0, 1.1) goals =
      none := by
    have hy : getDistances (fun _ _ => 1) CarParams.default.height CarParams.default.senseRadius
        (psiNominal CarParams.default.raysControl CarParams.default.psiMax) false ![0, 1, π / 2] = List.replicate 30 (100 : ℝ) := by
      rw [List.eq_replicate_iff]
      refine ⟨by simp [getDistances, psiNominal, CarParams.default, linspace], fun b hb => ?_⟩
      simp only [getDistances, Bool.false_eq_true, if_false, List.mem_map] at hb
      obtain ⟨_, -, rfl⟩ := hb
      simp [CarParams.default]
    have hmin : (List.replicate 30 (100 : ℝ)).min? = some 100 := by
      rw [List.min?_eq_some_iff]
      exact ⟨by simp, fun b hb => by rw [List.eq_of_mem_replicate hb]⟩
    have hdist : goalDist (0, 1.1) ![0, 1, π / 2] < 0.2 := by
      simp only [goalDist, Matrix.cons_val_zero, Matrix.cons_val_one]
      rw [sqrt_lt' (by norm_num)]
      norm_num
    have hpi := Real.pi_pos
    rw [show CarParams.default.horizon = 1999 + 1 from rfl]
    rw [controllerLoop]
    simp only [hy]
    have hp : CarParams.default.psiMax < π / 2 := by
      simp only [CarParams.default]
      linarith
    have : opticalFlowGoal CarParams.default.raysControl CarParams.default.psiMax CarParams.default.thr (List.replicate 30 100)
        (some (0, 1.1)) ![0, 1, π / 2] 0 = some .zeros := by
      unfold opticalFlowGoal
      rw [show CarParams.default.raysControl = 2 * 15 from rfl, opticalFlow_eq 15 hp _ (by simp), Option.bind_some]
      simp only [hmin, Option.bind_some]
      rw [if_pos (by norm_num), if_pos (show goalDist (0, 1.1) ![0, 1, π / 2] < CarParams.default.thr from hdist)]
    rw [this]
    rfl
  simp only [simulateController, drawFree, if_true, Option.bind_some]
  rw [hloop]
  rfl

end NNL.Props
