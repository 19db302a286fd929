import Verif.Spec.Scalar
import Verif.Model.ScalarEnc
import Mathlib.Tactic.IntervalCases

/-!
# C01-C04, C09: scalar encodings are exact
-/

set_option linter.unusedSectionVars false

namespace NNL.Props

open NNL.Model NNL.Spec

variable {K : Type*} [Field K] [LinearOrder K] [IsStrictOrderedRing K]

theorem rows4 (R : Rows K) (x s a : K) (h : R.rhs.length = 4) :
    R.Holds x s a ↔
      (R.Ax.getD 0 0 * x + R.As.getD 0 0 * s + R.Aa.getD 0 0 * a ≤ R.rhs.getD 0 0) ∧
      (R.Ax.getD 1 0 * x + R.As.getD 1 0 * s + R.Aa.getD 1 0 * a ≤ R.rhs.getD 1 0) ∧
      (R.Ax.getD 2 0 * x + R.As.getD 2 0 * s + R.Aa.getD 2 0 * a ≤ R.rhs.getD 2 0) ∧
      (R.Ax.getD 3 0 * x + R.As.getD 3 0 * s + R.Aa.getD 3 0 * a ≤ R.rhs.getD 3 0) := by
  unfold Rows.Holds
  rw [h]
  constructor
  · intro H
    exact ⟨H 0 (by norm_num), H 1 (by norm_num), H 2 (by norm_num), H 3 (by norm_num)⟩
  · rintro ⟨h0, h1, h2, h3⟩ i hi
    interval_cases i <;> assumption

/-! ## C01 -/

/-- C01. For binary `alpha` the rows hold exactly when `x` is in the interval and `s = alpha * x`. -/
theorem C01_product_exact (lo up x s a : K) (R : Rows K)
    (hR : replaceBinaryContinuousProduct lo up = some R) (ha : a = 0 ∨ a = 1) :
    R.Holds x s a ↔ (lo ≤ x ∧ x ≤ up) ∧ s = a * x := by
  unfold replaceBinaryContinuousProduct at hR
  split at hR
  · cases hR
    rw [rows4 _ _ _ _ rfl]
    rcases ha with rfl | rfl
    · simp
      constructor
      · rintro ⟨h0, h1, h2, h3⟩
        refine ⟨⟨?_, ?_⟩, ?_⟩ <;> linarith
      · rintro ⟨⟨h0, h1⟩, rfl⟩
        refine ⟨?_, ?_, ?_, ?_⟩ <;> linarith
    · simp
      constructor
      · rintro ⟨h0, h1, h2, h3⟩
        refine ⟨⟨?_, ?_⟩, ?_⟩ <;> linarith
      · rintro ⟨⟨h0, h1⟩, rfl⟩
        exact ⟨h0, h1, le_refl _, le_refl _⟩
  · cases hR

/-- C01. The encoder accepts exactly the ordered intervals. -/
theorem C01_product_accepts (lo up : K) :
    (replaceBinaryContinuousProduct lo up).isSome ↔ lo ≤ up := by
  unfold replaceBinaryContinuousProduct
  split <;> simp_all

example : ∃ R, replaceBinaryContinuousProduct (-2 : ℚ) 3 = some R ∧ R.Holds (-1) (-1) 1 ∧
    ¬ R.Holds (-1) 0 1 := by
  have h : (replaceBinaryContinuousProduct (-2 : ℚ) 3).isSome :=
    (C01_product_accepts _ _).2 (by norm_num)
  obtain ⟨R, hR⟩ := Option.isSome_iff_exists.1 h
  refine ⟨R, hR, (C01_product_exact _ _ _ _ _ R hR (Or.inr rfl)).2 ⟨by norm_num, by norm_num⟩, ?_⟩
  intro h
  have := (C01_product_exact _ _ _ _ _ R hR (Or.inr rfl)).1 h
  norm_num at this

/-! ## C02 -/

/-- C02. For binary `beta` the rows hold exactly when `x` is in the interval, `y = max(x, 0)` and
`beta` tells the sign of `x`. -/
theorem C02_relu_exact (lo up x y b : K) (R : Rows K)
    (hR : replaceRelu lo up = some R) (hb : b = 0 ∨ b = 1) :
    R.Holds x y b ↔ (lo ≤ x ∧ x ≤ up) ∧ y = relu x ∧ (b = 1 → 0 ≤ x) ∧ (b = 0 → x ≤ 0) := by
  unfold replaceRelu at hR
  split at hR
  · rename_i hlo
    split at hR
    · rename_i hup
      cases hR
      rw [rows4 _ _ _ _ rfl]
      rcases hb with rfl | rfl
      · simp [relu]
        constructor
        · rintro ⟨h0, h1, h2, h3⟩
          have hy : y = 0 := le_antisymm h2 h0
          subst hy
          have hx : x ≤ 0 := by linarith
          exact ⟨⟨by linarith, by linarith⟩, by simp [hx], hx⟩
        · rintro ⟨⟨h0, h1⟩, hy, hx⟩
          simp [hx] at hy
          subst hy
          exact ⟨le_refl _, by linarith, le_refl _, by linarith⟩
      · simp [relu]
        constructor
        · rintro ⟨h0, h1, h2, h3⟩
          have hy : y = x := by linarith
          subst hy
          exact ⟨⟨by linarith, by linarith⟩, by simp [h0], h0⟩
        · rintro ⟨⟨h0, h1⟩, hy, hx⟩
          simp [hx] at hy
          subst hy
          exact ⟨hx, le_refl _, h1, le_refl _⟩
    · cases hR
  · cases hR

/-- C02. Only intervals with 0 in their interior are accepted. -/
theorem C02_relu_accepts (lo up : K) : (replaceRelu lo up).isSome ↔ lo < 0 ∧ 0 < up := by
  unfold replaceRelu
  split <;> [split; skip] <;> simp_all

/-- C02. Every input of the interval has a feasible binary (so the encoding excludes nothing). -/
theorem C02_relu_complete (lo up x : K) (R : Rows K)
    (hR : replaceRelu lo up = some R) (hx : lo ≤ x ∧ x ≤ up) :
    ∃ b, (b = 0 ∨ b = 1) ∧ R.Holds x (relu x) b := by
  by_cases h : 0 ≤ x
  · exact ⟨1, Or.inr rfl, (C02_relu_exact _ _ _ _ _ R hR (Or.inr rfl)).2
      ⟨hx, rfl, fun _ => h, fun h' => absurd h' one_ne_zero⟩⟩
  · exact ⟨0, Or.inl rfl, (C02_relu_exact _ _ _ _ _ R hR (Or.inl rfl)).2
      ⟨hx, rfl, fun h' => absurd h' zero_ne_one, fun _ => (not_le.1 h).le⟩⟩

/-- C02. With `beta` relaxed to `[0,1]` the rows describe exactly the convex hull of the inactive
segment `(x0, 0, 0)`, `lo ≤ x0 ≤ 0`, and the active segment `(x1, x1, 1)`, `0 ≤ x1 ≤ up`. -/
theorem C02_relu_hull (lo up x y b : K) (R : Rows K) (hR : replaceRelu lo up = some R)
    (hb : 0 ≤ b ∧ b ≤ 1) :
    R.Holds x y b ↔ ∃ x0 x1, (lo ≤ x0 ∧ x0 ≤ 0) ∧ (0 ≤ x1 ∧ x1 ≤ up) ∧
      x = (1 - b) * x0 + b * x1 ∧ y = b * x1 := by
  unfold replaceRelu at hR
  split at hR
  · rename_i hlo
    split at hR
    · rename_i hup
      cases hR
      rw [rows4 _ _ _ _ rfl]
      simp only [List.getD_cons_zero, List.getD_cons_succ]
      constructor
      · rintro ⟨h0, h1, h2, h3⟩
        by_cases e0 : b = 0
        · subst e0
          exact ⟨x, 0, ⟨by linarith, by linarith⟩, ⟨le_refl _, hup.le⟩, by ring, by linarith⟩
        · by_cases e1 : b = 1
          · subst e1
            exact ⟨0, y, ⟨hlo.le, le_refl _⟩, ⟨by linarith, by linarith⟩, by linarith, by ring⟩
          · have b0 : 0 < b := lt_of_le_of_ne hb.1 (Ne.symm e0)
            have b1 : 0 < 1 - b := by
              have := lt_of_le_of_ne hb.2 e1
              linarith
            refine ⟨(x - y) / (1 - b), y / b, ⟨?_, ?_⟩, ⟨?_, ?_⟩, ?_, ?_⟩
            · rw [le_div_iff₀ b1]; linarith
            · exact div_nonpos_of_nonpos_of_nonneg (by linarith) b1.le
            · exact div_nonneg (by linarith) b0.le
            · rw [div_le_iff₀ b0]; linarith
            · rw [mul_div_cancel₀ _ b1.ne', mul_div_cancel₀ _ b0.ne']; ring
            · rw [mul_div_cancel₀ _ b0.ne']
      · rintro ⟨x0, x1, ⟨h0, h1⟩, ⟨h2, h3⟩, rfl, rfl⟩
        have b1 : 0 ≤ 1 - b := by linarith [hb.2]
        refine ⟨by linarith [mul_nonneg hb.1 h2], ?_, ?_, ?_⟩
        · have := mul_nonneg b1 (neg_nonneg.2 h1); linarith
        · have := mul_le_mul_of_nonneg_left h3 hb.1; linarith
        · have := mul_le_mul_of_nonneg_left h0 b1; linarith
    · cases hR
  · cases hR

example : ∃ R, replaceRelu (-2 : ℚ) 3 = some R ∧ R.Holds (-1) 0 0 ∧ R.Holds 2 2 1 ∧
    ¬ R.Holds 2 1 1 ∧ R.Holds 0 (1/2) (1/2) := by
  obtain ⟨R, hR⟩ := Option.isSome_iff_exists.1
    ((C02_relu_accepts (-2 : ℚ) 3).2 (by norm_num))
  refine ⟨R, hR, ?_, ?_, ?_, ?_⟩
  · exact (C02_relu_exact _ _ _ _ _ R hR (Or.inl rfl)).2 (by simp [relu]; norm_num)
  · exact (C02_relu_exact _ _ _ _ _ R hR (Or.inr rfl)).2 (by simp [relu]; norm_num)
  · intro h
    have := (C02_relu_exact _ _ _ _ _ R hR (Or.inr rfl)).1 h
    norm_num [relu] at this
  · exact (C02_relu_hull _ _ _ _ _ R hR (by norm_num)).2 ⟨-1, 1, by norm_num⟩

/-! ## C03 -/

/-- C03. For every slope other than 1 the leaky-ReLU rows with binary `beta` hold exactly when `x` is in
the interval, `y` is the leaky ReLU of `x`, and `beta` tells the sign of `x`. -/
theorem C03_leaky_exact (a lo up x y b : K) (R : Rows K) (ha : a ≠ 1)
    (hR : replaceLeakyRelu a lo up = some R) (hb : b = 0 ∨ b = 1) :
    R.Holds x y b ↔
      (lo ≤ x ∧ x ≤ up) ∧ y = leaky a x ∧ (b = 1 → 0 ≤ x) ∧ (b = 0 → x ≤ 0) := by
  unfold replaceLeakyRelu at hR
  split at hR
  · rename_i hlo
    split at hR
    · rename_i hup
      cases hR
      by_cases h1 : a ≤ 1
      · have d : 0 < 1 - a := by
          have := lt_of_le_of_ne h1 ha
          linarith
        simp only [h1, if_true]
        rw [rows4 _ _ _ _ rfl]
        rcases hb with rfl | rfl
        · simp
          constructor
          · rintro ⟨r0, r1, r2, r3⟩
            have hy : y = a * x := by linarith
            subst hy
            have hx : x ≤ 0 := by
              by_contra hx
              have := mul_pos d (not_le.1 hx)
              linarith
            have hlx : lo ≤ x := by
              by_contra hx'
              have := mul_pos d (sub_pos.2 (not_le.1 hx'))
              linarith
            exact ⟨⟨hlx, by linarith⟩, (leaky_of_nonpos hx).symm, hx⟩
          · rintro ⟨⟨h0, h1⟩, hy, hx⟩
            rw [leaky_of_nonpos hx] at hy
            subst hy
            have e1 := mul_nonneg d.le (neg_nonneg.2 hx)
            have e2 := mul_nonneg d.le (sub_nonneg.2 h0)
            refine ⟨?_, ?_, ?_, ?_⟩ <;> linarith
        · simp
          constructor
          · rintro ⟨r0, r1, r2, r3⟩
            have hy : y = x := by linarith
            subst hy
            have hx : 0 ≤ y := by
              by_contra hx
              have := mul_pos d (neg_pos.2 (not_le.1 hx))
              linarith
            have hlx : y ≤ up := by
              by_contra hx'
              have := mul_pos d (sub_pos.2 (not_le.1 hx'))
              linarith
            exact ⟨⟨by linarith, hlx⟩, (leaky_of_nonneg hx).symm, hx⟩
          · rintro ⟨⟨h0, h1⟩, hy, hx⟩
            rw [leaky_of_nonneg hx] at hy
            subst hy
            have e1 := mul_nonneg d.le hx
            have e2 := mul_nonneg d.le (sub_nonneg.2 h1)
            refine ⟨?_, ?_, ?_, ?_⟩ <;> linarith
      · have d : 0 < a - 1 := by linarith [not_le.1 h1]
        simp only [h1, if_false]
        rw [rows4 _ _ _ _ rfl]
        rcases hb with rfl | rfl
        · simp [Rows.neg, vneg]
          constructor
          · rintro ⟨r0, r1, r2, r3⟩
            have hy : y = a * x := by linarith
            subst hy
            have hx : x ≤ 0 := by
              by_contra hx
              have := mul_pos d (not_le.1 hx)
              linarith
            have hlx : lo ≤ x := by
              by_contra hx'
              have := mul_pos d (sub_pos.2 (not_le.1 hx'))
              linarith
            exact ⟨⟨hlx, by linarith⟩, (leaky_of_nonpos hx).symm, hx⟩
          · rintro ⟨⟨h0, h1⟩, hy, hx⟩
            rw [leaky_of_nonpos hx] at hy
            subst hy
            have e1 := mul_nonneg d.le (neg_nonneg.2 hx)
            have e2 := mul_nonneg d.le (sub_nonneg.2 h0)
            refine ⟨?_, ?_, ?_, ?_⟩ <;> linarith
        · simp [Rows.neg, vneg]
          constructor
          · rintro ⟨r0, r1, r2, r3⟩
            have hy : y = x := by linarith
            subst hy
            have hx : 0 ≤ y := by
              by_contra hx
              have := mul_pos d (neg_pos.2 (not_le.1 hx))
              linarith
            have hlx : y ≤ up := by
              by_contra hx'
              have := mul_pos d (sub_pos.2 (not_le.1 hx'))
              linarith
            exact ⟨⟨by linarith, hlx⟩, (leaky_of_nonneg hx).symm, hx⟩
          · rintro ⟨⟨h0, h1⟩, hy, hx⟩
            rw [leaky_of_nonneg hx] at hy
            subst hy
            have e1 := mul_nonneg d.le hx
            have e2 := mul_nonneg d.le (sub_nonneg.2 h1)
            refine ⟨?_, ?_, ?_, ?_⟩ <;> linarith
    · cases hR
  · cases hR

/-- C03. At slope exactly 1 the rows only force `y = x` (which is the leaky ReLU of `x`): neither the
interval nor the meaning of `beta` is enforced. -/
theorem C03_leaky_slope_one (lo up x y b : K) (R : Rows K)
    (hR : replaceLeakyRelu 1 lo up = some R) : R.Holds x y b ↔ y = leaky 1 x := by
  unfold replaceLeakyRelu at hR
  split at hR
  · split at hR
    · cases hR
      rw [if_pos (le_refl _), rows4 _ _ _ _ rfl]
      have e : leaky (1 : K) x = x := by
        rcases le_total 0 x with h | h
        · exact leaky_of_nonneg h
        · rw [leaky_of_nonpos h]; ring
      rw [e]
      simp
      constructor
      · rintro ⟨r0, r1⟩; linarith
      · rintro rfl; exact ⟨le_refl _, le_refl _⟩
    · cases hR
  · cases hR

/-- C03. For any slope every input of the interval is representable. -/
theorem C03_leaky_complete (a lo up x : K) (R : Rows K)
    (hR : replaceLeakyRelu a lo up = some R) (hx : lo ≤ x ∧ x ≤ up) :
    ∃ b, (b = 0 ∨ b = 1) ∧ (b = 1 ↔ 0 ≤ x) ∧ R.Holds x (leaky a x) b := by
  by_cases ha : a = 1
  · subst ha
    by_cases h : 0 ≤ x
    · exact ⟨1, Or.inr rfl, by simp [h], (C03_leaky_slope_one _ _ _ _ _ R hR).2 rfl⟩
    · exact ⟨0, Or.inl rfl, by simp [h], (C03_leaky_slope_one _ _ _ _ _ R hR).2 rfl⟩
  · by_cases h : 0 ≤ x
    · exact ⟨1, Or.inr rfl, by simp [h], (C03_leaky_exact _ _ _ _ _ _ R ha hR (Or.inr rfl)).2
        ⟨hx, rfl, fun _ => h, fun h' => absurd h' one_ne_zero⟩⟩
    · exact ⟨0, Or.inl rfl, by simp [h], (C03_leaky_exact _ _ _ _ _ _ R ha hR (Or.inl rfl)).2
        ⟨hx, rfl, fun h' => absurd h' zero_ne_one, fun _ => (not_le.1 h).le⟩⟩

/-- C03. Only intervals with 0 in their interior are accepted. -/
theorem C03_leaky_accepts (a lo up : K) :
    (replaceLeakyRelu a lo up).isSome ↔ lo < 0 ∧ 0 < up := by
  unfold replaceLeakyRelu
  split <;> [split; skip] <;> simp_all

example : ∃ R, replaceLeakyRelu (2 : ℚ) (-2) 3 = some R ∧ R.Holds (-1) (-2) 0 ∧
    ¬ R.Holds (-1) (-1) 0 := by
  obtain ⟨R, hR⟩ := Option.isSome_iff_exists.1
    ((C03_leaky_accepts (2 : ℚ) (-2) 3).2 (by norm_num))
  refine ⟨R, hR, ?_, ?_⟩
  · exact (C03_leaky_exact _ _ _ _ _ _ R (by norm_num) hR (Or.inl rfl)).2
      (by norm_num [leaky])
  · intro h
    have := (C03_leaky_exact _ _ _ _ _ _ R (by norm_num) hR (Or.inl rfl)).1 h
    norm_num [leaky] at this

/-! ## C04 -/

/-- C04. For `c ≠ 1` and binary `alpha` the rows hold exactly when `x` is in the interval and
`y = x` (alpha = 1) or `y = c*x` (alpha = 0). -/
theorem C04_leaky_gradient_exact (lo up c x y al : K) (R : Rows K) (hc : c ≠ 1)
    (hR : leakyGradTimesX lo up c = some R) (ha : al = 0 ∨ al = 1) :
    R.Holds x y al ↔ (lo ≤ x ∧ x ≤ up) ∧ (al = 1 → y = x) ∧ (al = 0 → y = c * x) := by
  unfold leakyGradTimesX at hR
  split at hR
  · rename_i hlu
    cases hR
    by_cases h1 : c < 1
    · have d : 0 < 1 - c := by linarith
      simp only [h1, if_true]
      rw [rows4 _ _ _ _ rfl]
      rcases ha with rfl | rfl
      · simp
        constructor
        · rintro ⟨r0, r1, r2, r3⟩
          have hy : y = c * x := by linarith
          subst hy
          refine ⟨⟨?_, ?_⟩, rfl⟩
          · by_contra hx'
            have := mul_pos d (sub_pos.2 (not_le.1 hx'))
            linarith
          · by_contra hx'
            have := mul_pos d (sub_pos.2 (not_le.1 hx'))
            linarith
        · rintro ⟨⟨h0, h1⟩, rfl⟩
          have e1 := mul_nonneg d.le (sub_nonneg.2 h0)
          have e2 := mul_nonneg d.le (sub_nonneg.2 h1)
          refine ⟨?_, ?_, ?_, ?_⟩ <;> linarith
      · simp
        constructor
        · rintro ⟨r0, r1, r2, r3⟩
          have hy : y = x := by linarith
          subst hy
          refine ⟨⟨?_, ?_⟩, rfl⟩
          · by_contra hx'
            have := mul_pos d (sub_pos.2 (not_le.1 hx'))
            linarith
          · by_contra hx'
            have := mul_pos d (sub_pos.2 (not_le.1 hx'))
            linarith
        · rintro ⟨⟨h0, h1⟩, rfl⟩
          have e1 := mul_nonneg d.le (sub_nonneg.2 h0)
          have e2 := mul_nonneg d.le (sub_nonneg.2 h1)
          refine ⟨?_, ?_, ?_, ?_⟩ <;> linarith
    · have d : 0 < c - 1 := by
        have := lt_of_le_of_ne (not_lt.1 h1) (Ne.symm hc)
        linarith
      simp only [h1, if_false]
      rw [rows4 _ _ _ _ rfl]
      rcases ha with rfl | rfl
      · simp [Rows.neg, vneg]
        constructor
        · rintro ⟨r0, r1, r2, r3⟩
          have hy : y = c * x := by linarith
          subst hy
          refine ⟨⟨?_, ?_⟩, rfl⟩
          · by_contra hx'
            have := mul_pos d (sub_pos.2 (not_le.1 hx'))
            linarith
          · by_contra hx'
            have := mul_pos d (sub_pos.2 (not_le.1 hx'))
            linarith
        · rintro ⟨⟨h0, h1⟩, rfl⟩
          have e1 := mul_nonneg d.le (sub_nonneg.2 h0)
          have e2 := mul_nonneg d.le (sub_nonneg.2 h1)
          refine ⟨?_, ?_, ?_, ?_⟩ <;> linarith
      · simp [Rows.neg, vneg]
        constructor
        · rintro ⟨r0, r1, r2, r3⟩
          have hy : y = x := by linarith
          subst hy
          refine ⟨⟨?_, ?_⟩, rfl⟩
          · by_contra hx'
            have := mul_pos d (sub_pos.2 (not_le.1 hx'))
            linarith
          · by_contra hx'
            have := mul_pos d (sub_pos.2 (not_le.1 hx'))
            linarith
        · rintro ⟨⟨h0, h1⟩, rfl⟩
          have e1 := mul_nonneg d.le (sub_nonneg.2 h0)
          have e2 := mul_nonneg d.le (sub_nonneg.2 h1)
          refine ⟨?_, ?_, ?_, ?_⟩ <;> linarith
  · cases hR

/-- C04. At `c = 1` both cases coincide and the rows only force `y = x`. -/
theorem C04_leaky_gradient_slope_one (lo up x y al : K) (R : Rows K)
    (hR : leakyGradTimesX lo up 1 = some R) : R.Holds x y al ↔ y = x := by
  unfold leakyGradTimesX at hR
  split at hR
  · cases hR
    simp only [lt_irrefl, if_false]
    rw [rows4 _ _ _ _ rfl]
    simp only [Rows.neg, vneg, List.map_cons, List.getD_cons_zero, List.getD_cons_succ]
    constructor
    · rintro ⟨r0, r1, r2, r3⟩; linarith
    · rintro rfl; exact ⟨by linarith, by linarith, by linarith, by linarith⟩
  · cases hR

/-- C04, the form users rely on: for every slope, every `x` of the interval and binary `alpha`, the rows
determine `y`. -/
theorem C04_leaky_gradient_graph (lo up c x y al : K) (R : Rows K)
    (hR : leakyGradTimesX lo up c = some R) (ha : al = 0 ∨ al = 1) (hx : lo ≤ x ∧ x ≤ up) :
    R.Holds x y al ↔ y = (if al = 1 then x else c * x) := by
  by_cases hc : c = 1
  · subst hc
    rw [C04_leaky_gradient_slope_one _ _ _ _ _ R hR]; simp
  · rw [C04_leaky_gradient_exact _ _ _ _ _ _ R hc hR ha]
    rcases ha with rfl | rfl <;> simp [hx]

/-- C04. Exactly the ordered intervals are accepted. -/
theorem C04_leaky_gradient_accepts (lo up c : K) :
    (leakyGradTimesX lo up c).isSome ↔ lo ≤ up := by
  unfold leakyGradTimesX
  split <;> simp_all

example : ∃ R, leakyGradTimesX (-2 : ℚ) 3 (1/10) = some R ∧ R.Holds (-1) (-1/10) 0 ∧
    R.Holds (-1) (-1) 1 ∧ ¬ R.Holds (-1) (-1) 0 := by
  obtain ⟨R, hR⟩ := Option.isSome_iff_exists.1
    ((C04_leaky_gradient_accepts (-2 : ℚ) 3 (1/10)).2 (by norm_num))
  refine ⟨R, hR, ?_, ?_, ?_⟩
  · exact (C04_leaky_gradient_graph _ _ _ _ _ _ R hR (Or.inl rfl) (by norm_num)).2 (by norm_num)
  · exact (C04_leaky_gradient_graph _ _ _ _ _ _ R hR (Or.inr rfl) (by norm_num)).2 (by norm_num)
  · intro h
    have := (C04_leaky_gradient_graph _ _ _ _ _ _ R hR (Or.inl rfl) (by norm_num)).1 h
    norm_num at this

/-! ## C09 -/

/-- C09. Soundness: the returned interval contains the image of the input interval, for any slope. -/
theorem C09_leaky_interval_sound (a lo up x ol ou : K)
    (h : leakyReluInterval a lo up = some (ol, ou)) (hx : lo ≤ x ∧ x ≤ up) :
    ol ≤ leaky a x ∧ leaky a x ≤ ou := by
  obtain ⟨h1, h2⟩ := hx
  unfold leakyReluInterval at h
  split at h
  · split at h
    · rename_i ha
      split at h
      · cases h
        rw [leaky_of_nonneg (by linarith)]; exact ⟨h1, h2⟩
      · split at h
        · cases h
          rw [leaky_of_nonpos (by linarith)]
          exact ⟨mul_le_mul_of_nonneg_left h1 ha, mul_le_mul_of_nonneg_left h2 ha⟩
        · rename_i hl hu
          cases h
          rcases le_total 0 x with hx | hx
          · rw [leaky_of_nonneg hx]
            refine ⟨?_, h2⟩
            have := mul_nonneg ha (neg_nonneg.2 (not_le.1 hl).le)
            linarith
          · rw [leaky_of_nonpos hx]
            refine ⟨mul_le_mul_of_nonneg_left h1 ha, ?_⟩
            have := mul_nonneg ha (neg_nonneg.2 hx)
            linarith [not_le.1 hu]
    · rename_i ha
      have ha' : a ≤ 0 := (not_le.1 ha).le
      split at h
      · cases h
        rw [leaky_of_nonneg (by linarith)]; exact ⟨h1, h2⟩
      · split at h
        · cases h
          rw [leaky_of_nonpos (by linarith)]
          exact ⟨mul_le_mul_of_nonpos_left h2 ha', mul_le_mul_of_nonpos_left h1 ha'⟩
        · cases h
          rcases le_total 0 x with hx | hx
          · rw [leaky_of_nonneg hx]
            exact ⟨hx, le_trans h2 (le_max_right _ _)⟩
          · rw [leaky_of_nonpos hx]
            exact ⟨mul_nonneg_of_nonpos_of_nonpos ha' hx,
              le_trans (mul_le_mul_of_nonpos_left h1 ha') (le_max_left _ _)⟩
  · cases h

/-- C09. Tightness: both endpoints are attained inside the input interval. -/
theorem C09_leaky_interval_tight (a lo up ol ou : K)
    (h : leakyReluInterval a lo up = some (ol, ou)) :
    (∃ x, (lo ≤ x ∧ x ≤ up) ∧ leaky a x = ol) ∧ (∃ x, (lo ≤ x ∧ x ≤ up) ∧ leaky a x = ou) := by
  unfold leakyReluInterval at h
  split at h
  · rename_i hlu
    have hl : lo ≤ lo ∧ lo ≤ up := ⟨le_refl _, hlu.le⟩
    have hu : lo ≤ up ∧ up ≤ up := ⟨hlu.le, le_refl _⟩
    split at h
    · split at h
      · rename_i h0
        cases h
        exact ⟨⟨_, hl, leaky_of_nonneg h0⟩, ⟨_, hu, leaky_of_nonneg (le_trans h0 hlu.le)⟩⟩
      · split at h
        · rename_i h0 h1
          cases h
          exact ⟨⟨_, hl, leaky_of_nonpos (not_le.1 h0).le⟩, ⟨_, hu, leaky_of_nonpos h1⟩⟩
        · rename_i h0 h1
          cases h
          exact ⟨⟨_, hl, leaky_of_nonpos (not_le.1 h0).le⟩,
            ⟨_, hu, leaky_of_nonneg (not_le.1 h1).le⟩⟩
    · split at h
      · rename_i h0
        cases h
        exact ⟨⟨_, hl, leaky_of_nonneg h0⟩, ⟨_, hu, leaky_of_nonneg (le_trans h0 hlu.le)⟩⟩
      · split at h
        · rename_i h0 h1
          cases h
          exact ⟨⟨_, hu, leaky_of_nonpos h1⟩, ⟨_, hl, leaky_of_nonpos (not_le.1 h0).le⟩⟩
        · rename_i h0 h1
          cases h
          refine ⟨⟨0, ⟨(not_le.1 h0).le, (not_le.1 h1).le⟩, leaky_of_nonneg (le_refl _)⟩, ?_⟩
          rcases le_total (a * lo) up with hm | hm
          · rw [max_eq_right hm]
            exact ⟨_, hu, leaky_of_nonneg (not_le.1 h1).le⟩
          · rw [max_eq_left hm]
            exact ⟨_, hl, leaky_of_nonpos (not_le.1 h0).le⟩
  · cases h

/-- C09. Exactly the non-degenerate intervals are accepted (a single point is rejected). -/
theorem C09_leaky_interval_accepts (a lo up : K) :
    (leakyReluInterval a lo up).isSome ↔ lo < up := by
  unfold leakyReluInterval
  split <;> [(split <;> split <;> [skip; split; skip; split]); skip] <;> simp_all

example : ∃ p, leakyReluInterval (-1/2 : ℚ) (-8) 3 = some p ∧ p = (0, 4) := by
  refine ⟨_, ?_, rfl⟩
  norm_num [leakyReluInterval]

end NNL.Props
