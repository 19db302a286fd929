import Verif.Model.Norm
import Mathlib.Algebra.Order.Ring.Abs
import Mathlib.Tactic.IntervalCases

/-! # Properties C23, C24, C25: gradients of norms, Minkowski sums -/

set_option linter.unusedSectionVars false

namespace NNL.Props

open NNL NNL.Spec NNL.Model

variable {K : Type*} [Field K] [LinearOrder K] [IsStrictOrderedRing K]

/-! ## C23 -/

/-- `v` is an admissible entry of the gradient of the 1-norm at an entry `a`. -/
def L1Entry (subs : List K) (v a : K) : Prop :=
  (0 < a → v = 1) ∧ (a < 0 → v = -1) ∧ (a = 0 → v = 1 ∨ v = -1 ∨ v ∈ subs)

theorem l1Entry_ne {subs : List K} {v a : K} (h : a ≠ 0) : L1Entry subs v a ↔ v = sgn a := by
  unfold L1Entry sgn
  rcases lt_or_gt_of_ne h with h | h
  · simp [h, h.ne, not_lt.2 h.le]
  · simp [h, h.ne', not_lt.2 h.le]

theorem forall₂_l1_ne {subs : List K} {g x : Vec K} (h : ∀ a ∈ x, a ≠ 0) :
    List.Forall₂ (L1Entry subs) g x ↔ g = x.map sgn := by
  induction x generalizing g with
  | nil => simp
  | cons a x ih =>
    cases g with
    | nil => simp
    | cons v g =>
      rw [List.forall₂_cons, List.map_cons, List.cons.injEq, ih fun b hb => h b (by simp [hb]),
        l1Entry_ne (h a (by simp))]

/-- Shape of the list at the first zero. -/
theorem findIdx_zero {x : Vec K} {k : ℕ} (h : x.findIdx? (fun a => decide (|a| ≤ 0)) = some k) :
    x = x.take k ++ 0 :: x.drop (k + 1) ∧ ∀ a ∈ x.take k, a ≠ 0 := by
  obtain ⟨h1, h2, h3⟩ := List.findIdx?_eq_some_iff_getElem.1 h
  have h2 : x[k] = 0 := by
    have : |x[k]| ≤ 0 := by simpa using h2
    exact abs_eq_zero.1 (le_antisymm this (abs_nonneg _))
  constructor
  · have := List.take_append_drop k x
    rw [List.drop_eq_getElem_cons h1, h2] at this
    exact this.symm
  · intro a ha
    obtain ⟨i, hi, rfl⟩ := List.getElem_of_mem ha
    have hi' : i < k := by simp at hi; omega
    have := h3 i hi'
    rw [List.getElem_take]
    intro h0
    rw [h0] at this
    simp at this

theorem findIdx_none {x : Vec K} (h : x.findIdx? (fun a => decide (|a| ≤ 0)) = none) :
    ∀ a ∈ x, a ≠ 0 := by
  rw [List.findIdx?_eq_none_iff] at h
  intro a ha h0
  have := h a ha
  rw [h0] at this
  simp at this

theorem filter_neg (x : Vec K) : (x.filter fun a => decide (|a| < 0)).length = 0 := by
  rw [List.length_eq_zero_iff, List.filter_eq_nil_iff]
  intro a _
  simp [abs_nonneg]

theorem forall₂_split {subs : List K} {g u w : Vec K} (hu : ∀ a ∈ u, a ≠ 0) :
    List.Forall₂ (L1Entry subs) g (u ++ 0 :: w) ↔
      ∃ v ∈ [1, -1] ++ subs, ∃ g', List.Forall₂ (L1Entry subs) g' w ∧ u.map sgn ++ v :: g' = g := by
  constructor
  · intro h
    have hl := h.length_eq
    obtain ⟨h1, h2⟩ := List.forall₂_iff_zip.1 h
    have e := List.forall₂_take_append g u (0 :: w) h
    have e2 := List.forall₂_drop_append g u (0 :: w) h
    rw [forall₂_l1_ne hu] at e
    obtain ⟨v, g', hv, hg', hd⟩ := List.forall₂_cons_right_iff.1 e2
    refine ⟨v, ?_, g', hg', ?_⟩
    · have := hv.2.2 rfl
      simpa [or_assoc] using this
    · rw [← e, ← hd, List.take_append_drop]
  · rintro ⟨v, hv, g', hg', rfl⟩
    refine List.rel_append ((forall₂_l1_ne hu).2 rfl) (List.Forall₂.cons ?_ hg')
    refine ⟨fun h => absurd h (lt_irrefl _), fun h => absurd h (lt_irrefl _), fun _ => ?_⟩
    simpa [or_assoc] using hv

theorem l1GradLoop_mem (subs : List K) (x g : Vec K) :
    g ∈ l1GradLoop 0 subs x ↔ List.Forall₂ (L1Entry subs) g x := by
  induction hn : x.length using Nat.strong_induction_on generalizing x g with
  | _ n ih =>
    rw [l1GradLoop]
    split
    · rename_i h
      rw [forall₂_l1_ne (findIdx_none h), List.mem_singleton]
    · rename_i k h
      obtain ⟨h1, h2⟩ := findIdx_zero h
      have hk := (List.findIdx?_eq_some_iff_getElem.1 h).1
      rw [filter_neg, if_neg (by simp)]
      conv_rhs => rw [h1]
      rw [forall₂_split h2]
      simp only [List.mem_flatMap, List.mem_map]
      refine exists_congr fun v => and_congr_right fun _ => exists_congr fun g' => ?_
      rw [ih _ (by rw [List.length_drop]; omega) (x.drop (k + 1)) g' rfl]

/-- C23: with zero_tol = 0 the rows returned are exactly the vectors whose entry is the sign where `x`
is not zero, and 1, -1 or one of the samples where it is. -/
theorem C23_mem {subs : Option (List K)} {x : Vec K} {Gs : List (Vec K)}
    (h : l1Gradient 0 subs x = some Gs) (g : Vec K) :
    g ∈ Gs ↔ List.Forall₂ (fun v a => (0 < a → v = 1) ∧ (a < 0 → v = -1) ∧
      (a = 0 → v = 1 ∨ v = -1 ∨ v ∈ subs.getD [])) g x := by
  unfold l1Gradient at h
  split at h
  · cases h
    exact l1GradLoop_mem _ _ _
  · cases h

theorem l1GradLoop_length (subs : List K) (x : Vec K) : (l1GradLoop 0 subs x).length
    = (2 + subs.length) ^ (x.filter fun a => decide (a = 0)).length := by
  induction hn : x.length using Nat.strong_induction_on generalizing x with
  | _ n ih =>
    rw [l1GradLoop]
    split
    · rename_i h
      have : (x.filter fun a => decide (a = 0)) = [] := by
        rw [List.filter_eq_nil_iff]
        intro a ha
        simpa using findIdx_none h a ha
      simp [this]
    · rename_i k h
      obtain ⟨h1, h2⟩ := findIdx_zero h
      have hk := (List.findIdx?_eq_some_iff_getElem.1 h).1
      rw [filter_neg, if_neg (by simp)]
      have hf : (x.filter fun a => decide (a = 0)).length
          = ((x.drop (k + 1)).filter fun a => decide (a = 0)).length + 1 := by
        conv_lhs => rw [h1]
        rw [List.filter_append]
        have : ((x.take k).filter fun a => decide (a = 0)) = [] := by
          rw [List.filter_eq_nil_iff]
          intro a ha
          simpa using h2 a ha
        simp [this]
      rw [hf, pow_succ]
      have e := ih _ (by rw [List.length_drop]; omega) (x.drop (k + 1)) rfl
      simp only [List.length_flatMap, List.length_map, List.map_const', List.sum_replicate, e]
      simp only [List.cons_append, List.nil_append, List.length_cons]
      rw [Nat.nsmul_eq_mul]
      ring

/-- C23: their number is (2 + number of samples) to the number of zeros. -/
theorem C23_count {subs : Option (List K)} {x : Vec K} {Gs : List (Vec K)}
    (h : l1Gradient 0 subs x = some Gs) :
    Gs.length = (2 + (subs.getD []).length) ^ (x.filter fun a => decide (a = 0)).length := by
  unfold l1Gradient at h
  split at h
  · cases h
    exact l1GradLoop_length _ _
  · cases h

theorem l1GradLoop_nodup (subs : List K) (hs : ([1, -1] ++ subs).Nodup) (x : Vec K) :
    (l1GradLoop 0 subs x).Nodup := by
  induction hn : x.length using Nat.strong_induction_on generalizing x with
  | _ n ih =>
    rw [l1GradLoop]
    split
    · simp
    · rename_i k h
      have hk := (List.findIdx?_eq_some_iff_getElem.1 h).1
      rw [filter_neg, if_neg (by simp)]
      have e := ih _ (by rw [List.length_drop]; omega) (x.drop (k + 1)) rfl
      rw [List.nodup_flatMap]
      refine ⟨fun v _ => e.map fun a b hab => ?_, ?_⟩
      · simpa using hab
      · refine hs.imp fun {v w} hne => ?_
        rw [Function.onFun, List.disjoint_left]
        intro g h1 h2
        obtain ⟨a, _, rfl⟩ := List.mem_map.1 h1
        obtain ⟨b, _, hb⟩ := List.mem_map.1 h2
        simp at hb
        exact hne hb.1.symm

/-- C23: no row is returned twice (if no sample is repeated). -/
theorem C23_nodup {subs : Option (List K)} {x : Vec K} {Gs : List (Vec K)}
    (h : l1Gradient 0 subs x = some Gs) (hs : (subs.getD []).Nodup) : Gs.Nodup := by
  unfold l1Gradient at h
  split at h
  · rename_i hc
    cases h
    refine l1GradLoop_nodup _ ?_ x
    have h1 : (1 : K) ∉ subs.getD [] := fun hm => lt_irrefl _ (hc.2 1 hm).2
    have h2 : (-1 : K) ∉ subs.getD [] := fun hm => lt_irrefl _ (hc.2 (-1) hm).1
    have h3 : (1 : K) ≠ -1 := by norm_num
    simp [h1, h2, h3, hs]
  · cases h

theorem dot_l1 {subs : List K} {g x : Vec K} (h : List.Forall₂ (L1Entry subs) g x) :
    dot g x = norm1 x := by
  induction h with
  | nil => simp [norm1]
  | @cons v a g x hv _ ih =>
    simp only [dot_cons, ih, norm1, List.map_cons, List.sum_cons]
    congr 1
    rcases lt_trichotomy a 0 with h | h | h
    · rw [hv.2.1 h, abs_of_neg h]; ring
    · rw [h]; simp
    · rw [hv.1 h, abs_of_pos h]; ring

/-- C23: every row `g` satisfies `g x = |x|_1`. -/
theorem C23_value {subs : Option (List K)} {x : Vec K} {Gs : List (Vec K)}
    (h : l1Gradient 0 subs x = some Gs) {g : Vec K} (hg : g ∈ Gs) : dot g x = norm1 x :=
  dot_l1 ((C23_mem h g).1 hg)

theorem dot_le_norm1 {g y : Vec K} (h : ∀ v ∈ g, |v| ≤ 1) (hl : g.length = y.length) :
    dot g y ≤ norm1 y := by
  induction g generalizing y with
  | nil =>
    cases y with
    | nil => simp [norm1]
    | cons _ _ => simp at hl
  | cons v g ih => cases y with
    | nil => simp at hl
    | cons a y =>
      simp only [dot_cons, norm1, List.map_cons, List.sum_cons]
      refine add_le_add ?_ (ih (fun w hw => h w (by simp [hw])) (by simpa using hl))
      calc v * a ≤ |v * a| := le_abs_self _
        _ = |v| * |a| := abs_mul _ _
        _ ≤ 1 * |a| := mul_le_mul_of_nonneg_right (h v (by simp)) (abs_nonneg _)
        _ = |a| := one_mul _

/-- C23: every row is a sub-gradient of the 1-norm. -/
theorem C23_subgradient {subs : Option (List K)} {x : Vec K} {Gs : List (Vec K)}
    (h : l1Gradient 0 subs x = some Gs) {g : Vec K} (hg : g ∈ Gs) : IsSubgrad norm1 x g := by
  have hm := (C23_mem h g).1 hg
  have hs : ∀ s ∈ subs.getD [], s > -1 ∧ s < 1 := by
    unfold l1Gradient at h
    split at h
    · rename_i hc; exact hc.2
    · cases h
  refine ⟨hm.length_eq, fun y hy => ?_⟩
  have h1 : dot g x = norm1 x := C23_value h hg
  have h2 : dot g y ≤ norm1 y := by
    refine dot_le_norm1 ?_ (by rw [hm.length_eq, hy])
    intro v hv
    obtain ⟨i, hi, rfl⟩ := List.getElem_of_mem hv
    have he := hm.get hi (by rw [← hm.length_eq]; exact hi)
    simp only [List.get_eq_getElem] at he
    obtain ⟨e1, e2, e3⟩ := he
    rw [abs_le]
    rcases lt_trichotomy (x[i]'(by rw [← hm.length_eq]; exact hi)) 0 with h0 | h0 | h0
    · rw [e2 h0]; norm_num
    · rcases e3 h0 with e | e | e
      · rw [e]; norm_num
      · rw [e]; norm_num
      · have := hs _ e
        exact ⟨this.1.le, this.2.le⟩
    · rw [e1 h0]; norm_num
  linarith

/-- C23: exactly the non-negative tolerances and the samples strictly between -1 and 1 are accepted. -/
theorem C23_accepts (tol : K) (subs : Option (List K)) (x : Vec K) :
    (l1Gradient tol subs x).isSome ↔ 0 ≤ tol ∧ ∀ s ∈ subs.getD [], -1 < s ∧ s < 1 := by
  unfold l1Gradient
  split
  · rename_i h; simpa using h
  · rename_i h; simpa using h

/-- With a positive tolerance the documented enumeration ("when abs(x(i)) <= zero_tol, we consider both
the left and right gradient") fails: if exactly one entry is below the tolerance and is not zero, the
left gradient is missing and the right one is returned twice. -/
theorem C23_tolerance_counterexample :
    l1Gradient (1 / 2 : ℚ) none [1 / 4, 3] = some [[1, 1], [1, 1]] := by
  have : l1GradLoop (1 / 2 : ℚ) [] [1 / 4, 3] = [[1, 1], [1, 1]] := by
    have hk : ([1 / 4, 3] : Vec ℚ).findIdx? (fun a => decide (|a| ≤ 1 / 2)) = some 0 := by
      norm_num [List.findIdx?_cons]
    rw [l1GradLoop]
    split
    · rename_i h; rw [hk] at h; cases h
    · norm_num [sgn, List.filter_cons]
  rw [l1Gradient, if_pos (by norm_num)]
  exact congrArg some this

/-- The hypotheses of C23 are met: two zeros among three entries. -/
example : ∃ Gs, l1Gradient (0 : ℚ) (some [1 / 2]) [0, -3, 0] = some Gs ∧ Gs.length = 9 ∧ Gs.Nodup ∧
    [-1, -1, 1 / 2] ∈ Gs ∧ [-1, 1, 1] ∉ Gs := by
  obtain ⟨Gs, h⟩ := Option.isSome_iff_exists.1
    ((C23_accepts (0 : ℚ) (some [1 / 2]) [0, -3, 0]).2 (by norm_num))
  refine ⟨Gs, h, ?_, C23_nodup h (by simp), (C23_mem h _).2 ?_, fun hc => ?_⟩
  · rw [C23_count h]; simp
  · norm_num
  · have := (C23_mem h _).1 hc
    norm_num at this

/-! ## C24 -/

theorem foldl_max (x : Vec K) (m : K) :
    m ≤ x.foldl (fun m b => max m |b|) m ∧ (∀ a ∈ x, |a| ≤ x.foldl (fun m b => max m |b|) m) ∧
      (x.foldl (fun m b => max m |b|) m = m ∨ ∃ a ∈ x, |a| = x.foldl (fun m b => max m |b|) m) := by
  induction x generalizing m with
  | nil => simp
  | cons b x ih =>
    obtain ⟨h1, h2, h3⟩ := ih (max m |b|)
    simp only [List.foldl_cons]
    refine ⟨le_trans (le_max_left _ _) h1, ?_, ?_⟩
    · intro a ha
      rcases List.mem_cons.1 ha with rfl | ha
      · exact le_trans (le_max_right _ _) h1
      · exact h2 a ha
    · rcases h3 with h3 | ⟨a, ha, h3⟩
      · rw [h3]
        rcases le_total m |b| with h | h
        · right; exact ⟨b, by simp, by simp [h]⟩
        · left; simp [h]
      · right; exact ⟨a, by simp [ha], h3⟩

theorem normInf_spec {x : Vec K} {m : K} (h : normInf x = some m) : IsNormInf x m := by
  cases x with
  | nil => cases h
  | cons a x =>
    cases h
    obtain ⟨h1, h2, h3⟩ := foldl_max x |a|
    refine ⟨?_, ?_⟩
    · intro b hb
      rcases List.mem_cons.1 hb with rfl | hb
      · exact h1
      · exact h2 b hb
    · rcases h3 with h3 | ⟨b, hb, h3⟩
      · exact ⟨a, by simp, h3.symm⟩
      · exact ⟨b, by simp [hb], h3⟩

theorem normInf_of_spec {x : Vec K} {m : K} (h : IsNormInf x m) : normInf x = some m := by
  obtain ⟨h1, a, ha, h2⟩ := h
  cases x with
  | nil => simp at ha
  | cons b x =>
    have hs := normInf_spec (x := b :: x) rfl
    obtain ⟨k1, c, hc, k2⟩ := hs
    have e1 := h1 c hc
    have e2 := k1 a ha
    rw [normInf]
    congr 1
    exact le_antisymm (k2 ▸ e1) (h2 ▸ e2)

theorem unitAt_set (n i : ℕ) (c : K) : (zeros n).set i c = unitAt n i c := by
  apply List.ext_getElem (by simp [unitAt])
  intro j h1 h2
  rw [List.getElem_set]
  simp [unitAt, zeros, eq_comm]

theorem grad_entry {tol m a : K} (ht : 0 ≤ tol) (hm : tol < m) (ha : |a| ≤ m) :
    (if |a - m| ≤ tol then (1 : K) else 0) + (if |a + m| ≤ tol then -1 else 0)
      = if m - |a| ≤ tol then sgn a else 0 := by
  rcases lt_trichotomy a 0 with h | h | h
  · have e1 : |a - m| = m - a := by rw [abs_of_nonpos (by linarith)]; ring
    have e2 : |a| = -a := abs_of_neg h
    have e3 : |a + m| = m + a := by rw [abs_of_nonneg (by rw [e2] at ha; linarith)]; ring
    rw [e1, e2, e3, if_neg (by linarith)]
    simp [sgn, h, not_lt.2 h.le]
  · subst h
    rw [zero_sub, abs_neg, zero_add, abs_of_pos (by linarith : (0 : K) < m)]
    simp [not_le.2 hm]
  · have e1 : |a - m| = m - a := by
      rw [abs_of_nonpos (by rw [abs_of_pos h] at ha; linarith)]; ring
    have e2 : |a| = a := abs_of_pos h
    have e3 : |a + m| = m + a := by rw [abs_of_nonneg (by linarith)]; ring
    rw [e1, e2, e3, if_neg (show ¬ (m + a ≤ tol) by linarith)]
    simp [sgn, h]

theorem sgn_ne_zero {a : K} (h : a ≠ 0) : sgn a ≠ 0 := by
  unfold sgn
  rcases lt_or_gt_of_ne h with h | h
  · simp [h, not_lt.2 h.le]
  · simp [h]

/-- C24: if the norm exceeds the tolerance, the rows are, in order and without repetition, the signed
unit vectors of the coordinates whose magnitude is within the tolerance of the norm. -/
theorem C24_exact {tol m : K} {x : Vec K} (ht : 0 ≤ tol) (hm : IsNormInf x m) (hlt : tol < m) :
    lInfGradient tol x = some (((List.range x.length).filter fun i =>
      decide (m - |x.getD i 0| ≤ tol)).map fun i => unitAt x.length i (sgn (x.getD i 0))) := by
  unfold lInfGradient
  rw [normInf_of_spec hm]
  simp only
  rw [if_neg (not_le.2 hlt)]
  have hg : ∀ i, i < x.length → (x.map fun a =>
      (if |a - m| ≤ tol then (1 : K) else 0) + (if |a + m| ≤ tol then -1 else 0)).getD i 0
        = if m - |x.getD i 0| ≤ tol then sgn (x.getD i 0) else 0 := by
    intro i hi
    rw [← grad_entry ht hlt (hm.1 (x.getD i 0) (by
      rw [List.getD_eq_getElem?_getD, List.getElem?_eq_getElem hi]; exact List.getElem_mem hi))]
    simp [List.getD, hi]
  have hne : ∀ i, m - |x.getD i 0| ≤ tol → sgn (x.getD i 0) ≠ 0 := by
    intro i h
    apply sgn_ne_zero
    intro h0
    rw [h0] at h
    simp at h
    linarith
  have hidx : ((List.range x.length).filter fun i => decide ((x.map fun a =>
      (if |a - m| ≤ tol then (1 : K) else 0) + (if |a + m| ≤ tol then -1 else 0)).getD i 0 ≠ 0))
        = (List.range x.length).filter fun i => decide (m - |x.getD i 0| ≤ tol) := by
    apply List.filter_congr
    intro i hi
    rw [hg i (List.mem_range.1 hi)]
    by_cases h : m - |x.getD i 0| ≤ tol
    · rw [if_pos h, decide_eq_decide]
      exact iff_of_true (hne i h) h
    · rw [if_neg h, decide_eq_decide]
      exact iff_of_false (by simp) h
  rw [hidx]
  have hrow : ∀ i ∈ (List.range x.length).filter (fun i => decide (m - |x.getD i 0| ≤ tol)),
      (zeros x.length).set i ((x.map fun a => (if |a - m| ≤ tol then (1 : K) else 0)
        + (if |a + m| ≤ tol then -1 else 0)).getD i 0) = unitAt x.length i (sgn (x.getD i 0)) := by
    intro i hi
    obtain ⟨h1, h2⟩ := List.mem_filter.1 hi
    rw [hg i (List.mem_range.1 h1), if_pos (by simpa using h2), unitAt_set]
  congr 1
  split
  · rename_i h1
    obtain ⟨i, hi⟩ := List.length_eq_one_iff.1 h1
    rw [hi, List.map_singleton]
    congr 1
    apply vec_ext (by simp [unitAt])
    intro j hj
    have hj : j < x.length := by simpa using hj
    rw [hg j hj]
    have hu : (unitAt x.length i (sgn (x.getD i 0))).getD j 0
        = if j = i then sgn (x.getD i 0) else 0 := by
      simp [unitAt, List.getD, hj]
    rw [hu]
    have hmem : ∀ j, j < x.length → (m - |x.getD j 0| ≤ tol ↔ j = i) := by
      intro j hj
      have : j ∈ (List.range x.length).filter (fun i => decide (m - |x.getD i 0| ≤ tol)) ↔ j ∈ [i] := by
        rw [hi]
      simpa [hj] using this
    by_cases hji : j = i
    · rw [if_pos ((hmem j hj).2 hji), if_pos hji, hji]
    · rw [if_neg (fun h => hji ((hmem j hj).1 h)), if_neg hji]
  · exact List.map_congr_left hrow

/-- C24: with tolerance 0 and `x` not zero, `g` is returned exactly if it is the signed unit vector of
a coordinate attaining the norm. -/
theorem C24_mem {x : Vec K} {m : K} (hm : IsNormInf x m) (h0 : m ≠ 0) {Gs : List (Vec K)}
    (h : lInfGradient 0 x = some Gs) (g : Vec K) :
    g ∈ Gs ↔ ∃ i, i < x.length ∧ |x.getD i 0| = m ∧ g = unitAt x.length i (sgn (x.getD i 0)) := by
  have hpos : 0 < m := by
    obtain ⟨a, _, ha⟩ := hm.2
    exact lt_of_le_of_ne (ha ▸ abs_nonneg a) (Ne.symm h0)
  rw [C24_exact le_rfl hm hpos] at h
  cases h
  simp only [List.mem_map, List.mem_filter, List.mem_range, decide_eq_true_eq]
  refine exists_congr fun i => ?_
  constructor
  · rintro ⟨⟨h1, h2⟩, rfl⟩
    refine ⟨h1, le_antisymm (hm.1 _ ?_) (by linarith), rfl⟩
    rw [List.getD_eq_getElem?_getD, List.getElem?_eq_getElem h1]; exact List.getElem_mem h1
  · rintro ⟨h1, h2, rfl⟩
    exact ⟨⟨h1, by linarith⟩, rfl⟩

theorem dot_unitAt {n i : ℕ} {c : K} {x : Vec K} (hi : i < n) (hx : x.length = n) :
    dot (unitAt n i c) x = c * x.getD i 0 := by
  subst hx
  induction x generalizing i with
  | nil => simp at hi
  | cons a x ih =>
    unfold unitAt
    rw [List.length_cons, List.range_succ_eq_map, List.map_cons, List.map_map, dot_cons]
    cases i with
    | zero =>
      have : (List.range x.length).map ((fun j => if j = 0 then c else 0) ∘ Nat.succ)
          = zeros x.length := by
        simp [zeros, Function.comp_def]
      rw [this, dot_zeros_left]; simp
    | succ i =>
      have : (List.range x.length).map ((fun j => if j = i + 1 then c else 0) ∘ Nat.succ)
          = unitAt x.length i c := by
        simp [unitAt, Function.comp_def]
      rw [this, ih (by simpa using hi)]; simp

/-- C24: each row satisfies `g x = |x|_inf`, and is a sub-gradient of the infinity-norm. -/
theorem C24_value {x : Vec K} {m : K} (hm : IsNormInf x m) (h0 : m ≠ 0) {Gs : List (Vec K)}
    (h : lInfGradient 0 x = some Gs) {g : Vec K} (hg : g ∈ Gs) :
    dot g x = m ∧ ∀ y m', y.length = x.length → IsNormInf y m' → m + (dot g y - dot g x) ≤ m' := by
  obtain ⟨i, hi, hx, rfl⟩ := (C24_mem hm h0 h g).1 hg
  have h1 : dot (unitAt x.length i (sgn (x.getD i 0))) x = m := by
    rw [dot_unitAt hi rfl, ← hx]
    unfold sgn
    split
    · rename_i h; rw [abs_of_pos h]; ring
    · split
      · rename_i h; rw [abs_of_neg h]; ring
      · rename_i h h'
        rw [le_antisymm (not_lt.1 h) (not_lt.1 h')]; simp
  refine ⟨h1, fun y m' hy hm' => ?_⟩
  rw [h1, dot_unitAt hi hy]
  have h2 : |y.getD i 0| ≤ m' := hm'.1 _ (by
    have : i < y.length := by omega
    rw [List.getD_eq_getElem?_getD, List.getElem?_eq_getElem this]; exact List.getElem_mem this)
  have h3 : sgn (x.getD i 0) * y.getD i 0 ≤ |y.getD i 0| := by
    unfold sgn
    split
    · rw [one_mul]; exact le_abs_self _
    · split
      · rw [neg_one_mul]; exact neg_le_abs _
      · rw [zero_mul]; exact abs_nonneg _
  linarith

/-- C24: at zero (or within the tolerance of it) all signed unit vectors are returned. -/
theorem C24_zero {tol m : K} {x : Vec K} (hm : IsNormInf x m) (hle : m ≤ tol) (g : Vec K) :
    ∃ Gs, lInfGradient tol x = some Gs ∧ (g ∈ Gs ↔ ∃ i, i < x.length ∧
      (g = unitAt x.length i 1 ∨ g = unitAt x.length i (-1))) := by
  refine ⟨_, by unfold lInfGradient; rw [normInf_of_spec hm], ?_⟩
  simp only [if_pos hle]
  have e1 : ∀ i, (eyeRow x.length i : Vec K) = unitAt x.length i 1 := by
    intro i
    simp [eyeRow, unitAt]
  have e2 : ∀ i, vneg (eyeRow x.length i : Vec K) = unitAt x.length i (-1) := by
    intro i
    simp only [vneg, eyeRow, unitAt, List.map_map]
    apply List.map_congr_left
    intro j _
    simp only [Function.comp]
    split <;> simp
  simp only [List.mem_append, eye, List.map_map, List.mem_map, List.mem_range, Function.comp]
  constructor
  · rintro (⟨i, hi, rfl⟩ | ⟨i, hi, rfl⟩)
    · exact ⟨i, hi, Or.inl (e1 i)⟩
    · exact ⟨i, hi, Or.inr (e2 i)⟩
  · rintro ⟨i, hi, rfl | rfl⟩
    · exact Or.inl ⟨i, hi, e1 i⟩
    · exact Or.inr ⟨i, hi, e2 i⟩

/-- The hypotheses of C24 are met with a tie between entries of different sign. -/
example : ∃ Gs, lInfGradient (0 : ℚ) [2, -1, -2] = some Gs ∧ [1, 0, 0] ∈ Gs ∧ [0, 0, -1] ∈ Gs ∧
    IsNormInf ([2, -1, -2] : Vec ℚ) 2 := by
  have hm : IsNormInf ([2, -1, -2] : Vec ℚ) 2 := by
    norm_num [IsNormInf]
  refine ⟨_, C24_exact le_rfl hm (by norm_num), ?_, ?_, hm⟩
  · refine (C24_mem hm (by norm_num) (C24_exact le_rfl hm (by norm_num)) _).2 ⟨0, ?_⟩
    norm_num [unitAt, sgn, List.range_succ]
  · refine (C24_mem hm (by norm_num) (C24_exact le_rfl hm (by norm_num)) _).2 ⟨2, ?_⟩
    norm_num [unitAt, sgn, List.range_succ]

/-! ## C25 -/

theorem getElem?_replicate_flatten {α : Type*} (y : List α) : ∀ (n i j : ℕ), i < n → j < y.length →
    (List.replicate n y).flatten[i * y.length + j]? = y[j]? := by
  intro n
  induction n with
  | zero => intro i j h; simp at h
  | succ n ih =>
    intro i j hi hj
    rw [List.replicate_succ, List.flatten_cons]
    cases i with
    | zero => rw [Nat.zero_mul, Nat.zero_add, List.getElem?_append_left hj]
    | succ i =>
      rw [List.getElem?_append_right (by rw [Nat.succ_mul]; omega)]
      have : (i + 1) * y.length + j - y.length = i * y.length + j := by rw [Nat.succ_mul]; omega
      rw [this, ih i j (by omega) hj]

theorem getElem?_flatMap_replicate {α : Type*} (m : ℕ) : ∀ (x : List α) (i j : ℕ), j < m →
    (x.flatMap fun r => List.replicate m r)[i * m + j]? = x[i]? := by
  intro x
  induction x with
  | nil => intro i j _; simp
  | cons a x ih =>
    intro i j hj
    rw [List.flatMap_cons]
    cases i with
    | zero =>
      rw [Nat.zero_mul, Nat.zero_add, List.getElem?_append_left (by simpa using hj)]
      simp [hj]
    | succ i =>
      rw [List.getElem?_append_right (by rw [Nat.succ_mul, List.length_replicate]; omega)]
      have : (i + 1) * m + j - (List.replicate m a).length = i * m + j := by
        rw [Nat.succ_mul, List.length_replicate]; omega
      rw [this, ih i j hj]
      simp

/-- C25: the number of rows. -/
theorem C25_length (x y : Mat K) : (minkowskiSum x y).length = x.length * y.length := by
  simp [minkowskiSum, List.length_flatMap]

/-- C25: row `i * |y| + j` is `x[i] + y[j]`. -/
theorem C25_row (x y : Mat K) (i j : ℕ) (hi : i < x.length) (hj : j < y.length) :
    (minkowskiSum x y)[i * y.length + j]? = some (vadd x[i] y[j]) := by
  unfold minkowskiSum
  rw [List.getElem?_zipWith, getElem?_replicate_flatten y _ i j hi hj,
    getElem?_flatMap_replicate y.length x i j hj, List.getElem?_eq_getElem hi,
    List.getElem?_eq_getElem hj]
  simp only [Option.some.injEq]
  exact List.zipWith_comm_of_comm (fun a b => add_comm a b)

/-- C25: the rows are exactly the pairwise sums. -/
theorem C25_mem (x y : Mat K) (r : Vec K) :
    r ∈ minkowskiSum x y ↔ ∃ a ∈ x, ∃ b ∈ y, r = vadd a b := by
  constructor
  · intro h
    obtain ⟨k, hk, rfl⟩ := List.getElem_of_mem h
    have hk' := hk
    rw [C25_length] at hk'
    have hy : 0 < y.length := by
      rcases Nat.eq_zero_or_pos y.length with h0 | h0
      · rw [h0] at hk'; omega
      · exact h0
    have hi : k / y.length < x.length := (Nat.div_lt_iff_lt_mul hy).2 hk'
    have hj : k % y.length < y.length := Nat.mod_lt _ hy
    have e := C25_row x y _ _ hi hj
    have ek : k / y.length * y.length + k % y.length = k := by
      rw [mul_comm]; exact Nat.div_add_mod k y.length
    rw [ek, List.getElem?_eq_getElem hk] at e
    exact ⟨_, List.getElem_mem hi, _, List.getElem_mem hj, Option.some.inj e⟩
  · rintro ⟨a, ha, b, hb, rfl⟩
    obtain ⟨i, hi, rfl⟩ := List.getElem_of_mem ha
    obtain ⟨j, hj, rfl⟩ := List.getElem_of_mem hb
    exact List.mem_of_getElem? (C25_row x y i j hi hj)

example : minkowskiSum ([[1, 2], [3, 4]] : Mat ℚ) [[10, 20], [30, 40], [50, 60]]
    = [[11, 22], [31, 42], [51, 62], [13, 24], [33, 44], [53, 64]] := by
  norm_num [minkowskiSum, vadd, List.replicate_succ]

end NNL.Props
