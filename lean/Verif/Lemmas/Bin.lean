import Verif.Lemmas.Mic
import Verif.Model.Encoders
import Mathlib.Algebra.Order.BigOperators.Group.List

/-! Lemmas on 0/1 vectors, unit rows and diagonal matrices. -/

set_option linter.unusedSectionVars false

namespace NNL.Model

open NNL

variable {K : Type*} [Field K] [LinearOrder K] [IsStrictOrderedRing K]

theorem _root_.NNL.IsBin.tail {a : K} {l : Vec K} (h : IsBin (a :: l)) : IsBin l :=
  fun b hb => h b (List.mem_cons_of_mem _ hb)

theorem _root_.NNL.IsBin.sum_nonneg {z : Vec K} (h : IsBin z) : 0 ≤ z.sum := by
  apply List.sum_nonneg
  intro a ha
  rcases h a ha with rfl | rfl <;> simp

theorem _root_.NNL.IsBin.sum_zero {z : Vec K} (h : IsBin z) (hs : z.sum = 0) (i : ℕ) : z.getD i 0 = 0 := by
  induction z generalizing i with
  | nil => simp
  | cons a l ih =>
    have h1 := (IsBin.tail h).sum_nonneg
    simp only [List.sum_cons] at hs
    have ha : a = 0 := by
      rcases h a (by simp) with e | e
      · exact e
      · exfalso; rw [e] at hs; linarith
    rw [ha, zero_add] at hs
    cases i with
    | zero => simpa using ha
    | succ i =>
      have := ih (IsBin.tail h) hs i
      simpa using this

/-- A 0/1 vector that sums to one has exactly one entry equal to one. -/
theorem _root_.NNL.IsBin.one_hot {z : Vec K} (h : IsBin z) (hs : z.sum = 1) :
    ∃ k, k < z.length ∧ z.getD k 0 = 1 ∧ ∀ j, j ≠ k → z.getD j 0 = 0 := by
  induction z with
  | nil => simp at hs
  | cons a l ih =>
    simp only [List.sum_cons] at hs
    rcases h a (by simp) with e | e
    · rw [e, zero_add] at hs
      obtain ⟨k, hk, h1, h2⟩ := ih (IsBin.tail h) hs
      refine ⟨k + 1, by simpa using hk, by simpa using h1, ?_⟩
      intro j hj
      cases j with
      | zero => simpa using e
      | succ j =>
        have := h2 j (by omega)
        simpa using this
    · rw [e] at hs
      have hs0 : l.sum = 0 := by linarith
      refine ⟨0, by simp, by simpa using e, ?_⟩
      intro j hj
      cases j with
      | zero => exact absurd rfl hj
      | succ j =>
        have := (IsBin.tail h).sum_zero hs0 j
        simpa using this

theorem dot_ones (n : ℕ) (z : Vec K) (h : z.length ≤ n) : dot (List.replicate n 1) z = z.sum := by
  induction n generalizing z with
  | zero =>
    have : z = [] := by simpa using h
    subst this; simp
  | succ n ih => cases z with
    | nil => simp
    | cons a l =>
      simp at h
      simp [List.replicate_succ, ih l h]

theorem getD_eyeRow (n i j : ℕ) (hi : i < n) :
    (eyeRow n i : Vec K).getD j 0 = if j = i then 1 else 0 := by
  unfold eyeRow
  simp only [List.getD_eq_getElem?_getD, List.getElem?_map]
  by_cases hj : j < n
  · simp [List.getElem?_range hj]
  · rw [List.getElem?_eq_none (by simpa using hj)]
    have : j ≠ i := by omega
    simp [this]

theorem isBin_eyeRow (n i : ℕ) : IsBin (eyeRow n i : Vec K) := by
  intro b hb
  simp only [eyeRow, List.mem_map] at hb
  obtain ⟨j, -, rfl⟩ := hb
  split <;> simp

theorem sum_eyeRow (n i : ℕ) (hi : i < n) : (eyeRow n i : Vec K).sum = 1 := by
  have h := dot_eyeRow n i (List.replicate n (1 : K)) hi
  rw [dot_comm, dot_ones _ _ (by simp)] at h
  rw [h]
  simp [hi]

theorem getD_eye (n i : ℕ) (hi : i < n) : (eye n : Mat K).getD i [] = eyeRow n i := by
  simp [eye, List.getD, hi]

theorem getD_negEye (n i : ℕ) (hi : i < n) : (negEye n : Mat K).getD i [] = vneg (eyeRow n i) := by
  simp [negEye, List.getD, hi]

@[simp] theorem length_negEye (n : ℕ) : (negEye n : Mat K).length = n := by simp [negEye]
@[simp] theorem length_diagM (d : Vec K) : (diagM d).length = d.length := by simp [diagM]

theorem getD_diagM (d : Vec K) (i : ℕ) (hi : i < d.length) :
    (diagM d).getD i [] = vsmul (d.getD i 0) (eyeRow d.length i) := by
  simp [diagM, List.getD, hi]

theorem diagM_ok (d : Vec K) : (⟨d.length, diagM d⟩ : Tensor2 K).Ok := by
  intro r hr
  simp only [diagM, List.mem_map] at hr
  obtain ⟨i, -, rfl⟩ := hr
  simp

theorem dot_diag (d z : Vec K) (i : ℕ) (hi : i < d.length) :
    dot ((diagM d).getD i []) z = d.getD i 0 * z.getD i 0 := by
  rw [getD_diagM d i hi, dot_vsmul_left, dot_eyeRow _ _ _ hi]

/-- `LoOk` for finite bounds of the right length. -/
theorem loOk_fin (l v : Vec K) : LoOk (finBound l) v ↔
    ∀ i, i < v.length → i < l.length → l.getD i 0 ≤ v.getD i 0 := by
  simp only [LoOk, finBound, Option.some.injEq, forall_eq']
  refine forall_congr' fun i => imp_congr_right fun hi => ?_
  by_cases hl : i < l.length
  · simp [List.getD, hl]
  · simp only [hl, false_imp_iff, iff_true]
    intro c hc
    rw [List.getD_eq_getElem?_getD, List.getElem?_eq_none (by simpa using hl)] at hc
    simp at hc

theorem upOk_fin (l v : Vec K) : UpOk (finBound l) v ↔
    ∀ i, i < v.length → i < l.length → v.getD i 0 ≤ l.getD i 0 := by
  simp only [UpOk, finBound, Option.some.injEq, forall_eq']
  refine forall_congr' fun i => imp_congr_right fun hi => ?_
  by_cases hl : i < l.length
  · simp [List.getD, hl]
  · simp only [hl, false_imp_iff, iff_true]
    intro c hc
    rw [List.getD_eq_getElem?_getD, List.getElem?_eq_none (by simpa using hl)] at hc
    simp at hc

theorem vmax_mem (l : Vec K) (h : l ≠ []) : vmax l ∈ l := by
  induction l with
  | nil => exact absurd rfl h
  | cons a l ih => cases l with
    | nil => simp [vmax]
    | cons b l =>
      simp only [vmax]
      rcases max_choice a (vmax (b :: l)) with e | e
      · rw [e]; simp
      · rw [e]; exact List.mem_cons_of_mem _ (ih (by simp))

theorem le_vmax (l : Vec K) (a : K) (h : a ∈ l) : a ≤ vmax l := by
  induction l with
  | nil => simp at h
  | cons b l ih => cases l with
    | nil => simp at h; simp [vmax, h]
    | cons c l =>
      simp only [vmax]
      rcases List.mem_cons.1 h with e | e
      · rw [e]; exact le_max_left _ _
      · exact le_trans (ih e) (le_max_right _ _)

theorem getD_mem (l : Vec K) (i : ℕ) (h : i < l.length) : l.getD i 0 ∈ l := by
  rw [getD_of_lt _ _ h]; exact List.getElem_mem h

theorem mem_getD {l : Vec K} {a : K} (h : a ∈ l) : ∃ i, i < l.length ∧ l.getD i 0 = a := by
  obtain ⟨i, hi, rfl⟩ := List.mem_iff_getElem.1 h
  exact ⟨i, hi, getD_of_lt _ _ hi⟩

end NNL.Model
