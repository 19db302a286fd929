import Verif.Props.Converge
import Verif.Model.Barrier
import Mathlib.Data.Real.Sqrt

/-!
# C38: sample losses vanish exactly when the condition holds at every sample
-/

set_option linter.unusedSectionVars false

namespace NNL.Props

open NNL NNL.Model NNL.Spec

variable {K : Type*} [Field K] [LinearOrder K] [IsStrictOrderedRing K]

/-! ### Reductions -/

theorem sum_zero_iff_nonneg : ∀ {h : Vec K}, (∀ a ∈ h, 0 ≤ a) → (h.sum = 0 ↔ ∀ a ∈ h, a = 0) := by
  intro h
  induction h with
  | nil => simp
  | cons a h ih =>
    intro hn
    have ha := hn a (by simp)
    have hs : 0 ≤ h.sum := List.sum_nonneg fun b hb => hn b (by simp [hb])
    have := ih fun b hb => hn b (by simp [hb])
    rw [List.sum_cons]
    constructor
    · intro h0
      have h1 : a = 0 := by linarith
      have h2 : h.sum = 0 := by linarith
      intro b hb
      rcases List.mem_cons.1 hb with rfl | hb
      · exact h1
      · exact this.1 h2 b hb
    · intro h0
      rw [h0 a (by simp), this.2 fun b hb => h0 b (by simp [hb])]
      ring

theorem vmean_nonneg {h : Vec K} (hn : ∀ a ∈ h, 0 ≤ a) : 0 ≤ vmean h :=
  div_nonneg (List.sum_nonneg hn) (Nat.cast_nonneg _)

theorem vmean_zero_iff {h : Vec K} (h0 : h ≠ []) (hn : ∀ a ∈ h, 0 ≤ a) :
    vmean h = 0 ↔ ∀ a ∈ h, a = 0 := by
  unfold vmean
  have : (h.length : K) ≠ 0 := by
    rw [Nat.cast_ne_zero]
    exact fun hc => h0 (List.length_eq_zero_iff.1 hc)
  rw [div_eq_zero_iff, or_iff_left this, sum_zero_iff_nonneg hn]

theorem vmax_nonneg : ∀ {h : Vec K}, (∀ a ∈ h, 0 ≤ a) → 0 ≤ vmax h
  | [], _ => le_refl _
  | [a], hn => hn a (by simp)
  | a :: b :: l, hn => le_max_of_le_left (hn a (by simp))

theorem vmax_zero_iff : ∀ {h : Vec K}, (∀ a ∈ h, 0 ≤ a) → (vmax h = 0 ↔ ∀ a ∈ h, a = 0)
  | [], _ => by simp [vmax]
  | [a], _ => by simp [vmax]
  | a :: b :: l, hn => by
    have h1 := hn a (by simp)
    have ih := vmax_zero_iff (h := b :: l) fun c hc => hn c (List.mem_cons_of_mem _ hc)
    have h2 := vmax_nonneg (h := b :: l) fun c hc => hn c (List.mem_cons_of_mem _ hc)
    rw [vmax]
    constructor
    · intro h0 c hc
      have a0 : a = 0 := le_antisymm (by rw [← h0]; exact le_max_left _ _) h1
      have v0 : vmax (b :: l) = 0 := le_antisymm (by rw [← h0]; exact le_max_right _ _) h2
      rcases List.mem_cons.1 hc with rfl | hc
      · exact a0
      · exact ih.1 v0 c hc
    · intro h0
      rw [h0 a (by simp), ih.2 fun c hc => h0 c (List.mem_cons_of_mem _ hc), max_self]

theorem fourNorm_zero_iff {h : Vec K} {r : K} (hr : IsFourNorm h r) : r = 0 ↔ ∀ a ∈ h, a = 0 := by
  have hn : ∀ a ∈ h.map (fun a => a ^ 4), 0 ≤ a := by
    intro a ha
    obtain ⟨b, -, rfl⟩ := List.mem_map.1 ha
    positivity
  have e : r = 0 ↔ (h.map fun a => a ^ 4).sum = 0 := by
    rw [← hr.2]
    simp
  rw [e, sum_zero_iff_nonneg hn]
  simp

/-- Weights, when given, are positive. -/
def WeightsPos (weight : Option (Vec K)) : Prop := ∀ w, weight = some w → ∀ a ∈ w, 0 < a

theorem mem_zipWith_mul {w h : Vec K} (hl : w.length = h.length) (hw : ∀ a ∈ w, 0 < a)
    (hn : ∀ a ∈ h, 0 ≤ a) : (∀ a ∈ List.zipWith (· * ·) w h, 0 ≤ a) ∧
      ((∀ a ∈ List.zipWith (· * ·) w h, a = 0) ↔ ∀ a ∈ h, a = 0) := by
  induction w generalizing h with
  | nil => cases h with
    | nil => simp
    | cons b h => simp at hl
  | cons a w ih => cases h with
    | nil => simp
    | cons b h =>
      obtain ⟨i1, i2⟩ := ih (h := h) (by simpa using hl) (fun c hc => hw c (by simp [hc]))
        (fun c hc => hn c (by simp [hc]))
      have ha := hw a (by simp)
      have hb := hn b (by simp)
      simp only [List.zipWith_cons_cons, List.mem_cons, forall_eq_or_imp]
      refine ⟨⟨mul_nonneg ha.le hb, i1⟩, and_congr ?_ i2⟩
      rw [mul_eq_zero, or_iff_right ha.ne']

/-- Every reduction of non-negative losses is non-negative, and is zero iff all are. -/
theorem reduces_spec {red : Reduction} {weight : Option (Vec K)} {h : Vec K} {r : K}
    (hr : Reduces red weight h r) (hw : WeightsPos weight) (hn : ∀ a ∈ h, 0 ≤ a) :
    0 ≤ r ∧ (r = 0 ↔ ∀ a ∈ h, a = 0) := by
  cases red with
  | mean => cases weight with
    | none =>
      obtain ⟨h0, rfl⟩ := hr
      exact ⟨vmean_nonneg hn, vmean_zero_iff h0 hn⟩
    | some w =>
      obtain ⟨h0, hl, rfl⟩ := hr
      obtain ⟨a1, a2⟩ := mem_zipWith_mul hl (hw w rfl) hn
      refine ⟨vmean_nonneg a1, (vmean_zero_iff ?_ a1).trans a2⟩
      intro hc
      have := congrArg List.length hc
      simp only [List.length_zipWith, List.length_nil, hl, Nat.min_self] at this
      exact h0 (List.length_eq_zero_iff.1 this)
  | max =>
    obtain ⟨h0, rfl⟩ := hr
    exact ⟨vmax_nonneg hn, vmax_zero_iff hn⟩
  | fourNorm => exact ⟨hr.1, fourNorm_zero_iff hr⟩

/-- **C38**: the loss is determined by the losses of the samples. -/
theorem C38_unique {red : Reduction} {weight : Option (Vec K)} {h : Vec K} {r r' : K}
    (hr : Reduces red weight h r) (hr' : Reduces red weight h r') : r = r' := by
  cases red with
  | mean => cases weight with
    | none => rw [hr.2, hr'.2]
    | some w => rw [hr.2.2, hr'.2.2]
  | max => rw [hr.2, hr'.2]
  | fourNorm =>
    have : r ^ 4 = r' ^ 4 := by rw [hr.2, hr'.2]
    exact (pow_left_inj₀ hr.1 hr'.1 (by norm_num)).1 this

theorem hinge_nonneg (m a : K) : 0 ≤ hinge m a := le_max_left _ _

theorem hinge_zero_iff (m a : K) : hinge m a = 0 ↔ m ≤ a := by
  unfold hinge
  rw [max_eq_left_iff, sub_nonpos]

theorem map_hinge_nonneg (m : K) (l : Vec K) : ∀ a ∈ l.map (hinge m), 0 ≤ a := by
  intro a ha
  obtain ⟨b, -, rfl⟩ := List.mem_map.1 ha
  exact hinge_nonneg m b

theorem map_hinge_zero (m : K) (l : Vec K) : (∀ a ∈ l.map (hinge m), a = 0) ↔ ∀ a ∈ l, m ≤ a := by
  simp [hinge_zero_iff]

/-! ### The three losses -/

/-- **C38**, `lyapunov_positivity_loss_at_samples`. -/
theorem C38_positivity (L : Lyap K) (xs : List (Vec K)) (xe : Vec K) (lam eps : K)
    {R : Option (Tensor2 K)} {R' : Mat K} (hR : getR R L.dim = some R') (margin : K) (red : Reduction)
    (weight : Option (Vec K)) (hw : WeightsPos weight) (r : K)
    (h : L.PositivityLoss xs xe lam eps R margin red weight r) :
    0 ≤ r ∧ (r = 0 ↔ ∀ x ∈ xs, margin + eps * err R' xe x ≤ lyapV L.net R' lam xe x) := by
  obtain ⟨l, hl, hr⟩ := h
  have e : l = (xs.map fun x => lyapV L.net R' lam xe x - eps * err R' xe x).map (hinge margin) := by
    simp only [Lyap.positivityHinge, hR, C31_values L R R' hR, Option.bind_eq_bind, Option.bind_some,
      Option.some.injEq] at hl
    rw [← hl]
    congr 1
    clear hl
    induction xs with
    | nil => rfl
    | cons x xs ih =>
      simp only [List.map_cons, List.zipWith_cons_cons, ih]
      rfl
  rw [e] at hr
  obtain ⟨h1, h2⟩ := reduces_spec hr hw (map_hinge_nonneg _ _)
  refine ⟨h1, h2.trans ((map_hinge_zero _ _).trans ?_)⟩
  simp only [List.mem_map, forall_exists_index, and_imp, forall_apply_eq_imp_iff₂]
  exact forall₂_congr fun x _ => by rw [le_sub_iff_add_le]

theorem derivArg_eq (et : EpsType) (eps v1 v2 e : K) :
    derivArg et eps v1 v2 e = - decrease et eps v2 v1 e := by
  cases et <;> simp only [derivArg, decrease] <;> ring

/-- **C38**, `lyapunov_derivative_loss_at_samples_and_next_states`. -/
theorem C38_derivative (L : Lyap K) (xs xn : List (Vec K)) (xe : Vec K) (lam eps : K) (et : EpsType)
    {R : Option (Tensor2 K)} {R' : Mat K} (hR : getR R L.dim = some R') (margin : K) (red : Reduction)
    (weight : Option (Vec K)) (hw : WeightsPos weight) (r : K)
    (h : L.DerivativeLoss xs xn xe lam eps et R margin red weight r) :
    0 ≤ r ∧ (r = 0 ↔ ∀ p ∈ xs.zip xn,
      decrease et eps (lyapV L.net R' lam xe p.2) (lyapV L.net R' lam xe p.1) (err R' xe p.1) + margin
        ≤ 0) := by
  obtain ⟨l, hl, hr⟩ := h
  unfold Lyap.derivativeHinge at hl
  split_ifs at hl with hlen
  have e : l = ((xs.zip xn).map fun p => - decrease et eps (lyapV L.net R' lam xe p.2)
      (lyapV L.net R' lam xe p.1) (err R' xe p.1)).map (hinge margin) := by
    simp only [hR, C31_values L R R' hR, Option.bind_eq_bind, Option.bind_some,
      Option.some.injEq] at hl
    rw [← hl]
    congr 1
    clear hl
    induction xs generalizing xn with
    | nil => rfl
    | cons x xs ih => cases xn with
      | nil => simp at hlen
      | cons y xn =>
        simp only [List.map_cons, List.zip_cons_cons, List.zipWith_cons_cons]
        rw [ih xn (by simpa using hlen), derivArg_eq]
        rfl
  rw [e] at hr
  obtain ⟨h1, h2⟩ := reduces_spec hr hw (map_hinge_nonneg _ _)
  refine ⟨h1, h2.trans ((map_hinge_zero _ _).trans ?_)⟩
  simp only [List.mem_map, forall_exists_index, and_imp, forall_apply_eq_imp_iff₂]
  exact forall₂_congr fun x _ => by constructor <;> intro h <;> linarith

/-- **C38**: an unequal number of states and next states is rejected. -/
theorem C38_derivative_shapes (L : Lyap K) (xs xn : List (Vec K)) (xe : Vec K) (lam eps : K) (et : EpsType)
    (R : Option (Tensor2 K)) (margin : K) (hne : xs.length ≠ xn.length) :
    L.derivativeHinge xs xn xe lam eps et R margin = none := by
  simp [Lyap.derivativeHinge, hne]

/-- The barrier function of the specification. -/
def barrierH (net : Net K) (xs : Vec K) (c : K) (x : Vec K) : K := net.val x - net.val xs + c

/-- **C38**, `derivative_loss_at_samples_and_next_states` of the barrier. -/
theorem C38_barrier (L : Lyap K) (xs xn : List (Vec K)) (xstar : Vec K) (c eps margin : K)
    (red : Reduction) (r : K) (h : L.BarrierLoss xs xn xstar c eps margin red r) :
    0 ≤ r ∧ (r = 0 ↔ ∀ p ∈ xs.zip xn,
      (1 - eps) * barrierH L.net xstar c p.1 + margin ≤ barrierH L.net xstar c p.2) := by
  obtain ⟨l, hl, hr⟩ := h
  unfold Lyap.barrierHinge at hl
  split_ifs at hl with hlen
  simp only [Option.some.injEq] at hl
  have e : l = ((xs.zip xn).map fun p => -(-(barrierH L.net xstar c p.2)
      + (1 - eps) * barrierH L.net xstar c p.1)).map (hinge margin) := by
    rw [← hl, List.zip_eq_zipWith, List.map_zipWith, List.map_zipWith, List.map_zipWith]
    rfl
  rw [e] at hr
  obtain ⟨h1, h2⟩ := reduces_spec hr (by intro w hw; cases hw) (map_hinge_nonneg _ _)
  refine ⟨h1, h2.trans ((map_hinge_zero _ _).trans ?_)⟩
  simp only [List.mem_map, forall_exists_index, and_imp, forall_apply_eq_imp_iff₂]
  exact forall₂_congr fun x _ => by constructor <;> intro h <;> linarith

/-- **C38**: a loss exists for every nonempty batch (over the reals, where the fourth root exists). -/
theorem C38_defined (red : Reduction) (weight : Option (Vec ℝ)) (h : Vec ℝ) (h0 : h ≠ [])
    (hw : ∀ w, weight = some w → w.length = h.length) : ∃ r, Reduces red weight h r := by
  cases red with
  | mean => cases weight with
    | none => exact ⟨_, h0, rfl⟩
    | some w => exact ⟨_, h0, hw w rfl, rfl⟩
  | max => exact ⟨_, h0, rfl⟩
  | fourNorm =>
    have hs : 0 ≤ (h.map fun a => a ^ 4).sum := List.sum_nonneg fun a ha => by
      obtain ⟨b, -, rfl⟩ := List.mem_map.1 ha
      positivity
    refine ⟨Real.sqrt (Real.sqrt (h.map fun a => a ^ 4).sum), Real.sqrt_nonneg _, ?_⟩
    rw [show ∀ a : ℝ, a ^ 4 = (a ^ 2) ^ 2 from fun a => by ring, Real.sq_sqrt (Real.sqrt_nonneg _),
      Real.sq_sqrt hs]

/-- Two samples of the first example, one of which violates the margin: the mean loss is positive. -/
example : ∃ r, exLyap.PositivityLoss [[0, 1 / 2], [1, 1]] [0, 1 / 2] (1 / 2) (1 / 4) (some exR) (1 / 10)
    .mean none r ∧ 0 < r := by
  obtain ⟨l, hl⟩ : ∃ l, exLyap.positivityHinge [[0, 1 / 2], [1, 1]] [0, 1 / 2] (1 / 2) (1 / 4) (some exR)
    (1 / 10) = some l := ⟨_, rfl⟩
  have hne : l ≠ [] := by
    rintro rfl
    revert hl
    decide +kernel
  have hp : exLyap.PositivityLoss [[0, 1 / 2], [1, 1]] [0, 1 / 2] (1 / 2) (1 / 4) (some exR) (1 / 10)
      .mean none (vmean l) := ⟨l, hl, hne, rfl⟩
  obtain ⟨h1, h2⟩ := C38_positivity exLyap _ _ _ _ (R' := exR.rows) rfl _ _ _
    (by intro w hw; cases hw) _ hp
  refine ⟨_, hp, lt_of_le_of_ne h1 fun hc => ?_⟩
  have := h2.1 hc.symm [0, 1 / 2] (by simp)
  revert this
  decide +kernel

end NNL.Props
