import Verif.Lemmas.Bin
import Mathlib.Tactic.IntervalCases

/-!
# C06 and C10: maximum and box boundary
-/

set_option linter.unusedSectionVars false

namespace NNL.Props

open NNL NNL.Model

variable {K : Type*} [Field K] [LinearOrder K] [IsStrictOrderedRing K]

/-! ## C06 -/

/-- The facts packed in a successful call of the max encoder: the common rows, and the pinned
binaries. -/
theorem maxEnc_holds {lo up : Vec K} {c : MIC K} (h : maxEnc lo up = some c) (x s z : Vec K)
    (hz : z.length = lo.length) (hs : s.length = 1) :
    c.Holds x s z ↔
      (∀ i, i < lo.length → x.getD i 0 ≤ s.getD 0 0) ∧
      (∀ i, i < lo.length → s.getD 0 0 ≤ x.getD i 0 + (1 - z.getD i 0) * (vmax up - lo.getD i 0)) ∧
      z.sum = 1 ∧ (∀ i ∈ nonMaximal lo up, z.getD i 0 = 0) := by
  obtain ⟨s, rfl⟩ : ∃ a, s = [a] := by
    match s, hs with
    | [a], _ => exact ⟨a, rfl⟩
  have hmem : ∀ i ∈ nonMaximal lo up, i < lo.length := by
    intro i hi
    simp only [nonMaximal, List.mem_filter, List.mem_range] at hi
    exact hi.1
  have hin : ∀ i, i < lo.length + lo.length →
      (dot (mrow (some ⟨lo.length, eye lo.length ++ negEye lo.length⟩) i) x
        + dot (mrow (some ⟨1, List.replicate lo.length [-1] ++ List.replicate lo.length [1]⟩) i) [s]
        + dot (mrow (some ⟨lo.length, zerosM lo.length lo.length ++
            diagM (lo.map fun l => vmax up - l)⟩) i) z
        ≤ (zeros lo.length ++ lo.map fun l => vmax up - l).getD i 0 ↔
      (if i < lo.length then x.getD i 0 ≤ s else
        s ≤ x.getD (i - lo.length) 0
          + (1 - z.getD (i - lo.length) 0) * (vmax up - lo.getD (i - lo.length) 0))) := by
    intro i hi
    split
    · rename_i hl
      rw [mrow_some, getD_append_lt _ _ _ _ (by simpa using hl), getD_eye _ _ hl, dot_eyeRow _ _ _ hl,
        mrow_some, getD_append_lt _ _ _ _ (by simpa using hl), mrow_some,
        getD_append_lt _ _ _ _ (by simpa using hl), getD_zerosM,
        getD_append_lt _ _ _ _ (by simpa using hl), getD_zeros]
      simp [List.getD, hl]
    · rename_i hl
      obtain ⟨j, rfl⟩ := Nat.exists_eq_add_of_le (not_lt.1 hl)
      have hj : j < lo.length := by omega
      have e1 := getD_append_add (eye lo.length) (negEye lo.length) j ([] : Vec K)
      have e2 := getD_append_add (List.replicate lo.length [(-1 : K)])
        (List.replicate lo.length [1]) j []
      have e3 := getD_append_add (zerosM lo.length lo.length) (diagM (lo.map fun l => vmax up - l))
        j []
      have e4 := getD_append_add (zeros lo.length) (lo.map fun l => vmax up - l) j 0
      simp only [length_eye, List.length_replicate, length_zerosM, length_zeros] at e1 e2 e3 e4
      rw [mrow_some, mrow_some, mrow_some, e1, e2, e3, e4, getD_negEye _ _ hj, dot_vneg_left,
        dot_eyeRow _ _ _ hj, dot_diag _ _ _ (by simpa using hj), Nat.add_sub_cancel_left]
      have e5 : (lo.map fun l => vmax up - l).getD j 0 = vmax up - lo.getD j 0 := by
        simp [List.getD, hj]
      rw [e5]
      simp [List.getD, hj]
      constructor <;> intro h <;> linarith
  have hineq : (∀ i, i < (zeros lo.length ++ lo.map fun l => vmax up - l).length →
      dot (mrow (some ⟨lo.length, eye lo.length ++ negEye lo.length⟩) i) x
        + dot (mrow (some ⟨1, List.replicate lo.length [-1] ++ List.replicate lo.length [1]⟩) i) [s]
        + dot (mrow (some ⟨lo.length, zerosM lo.length lo.length ++
            diagM (lo.map fun l => vmax up - l)⟩) i) z
        ≤ (zeros lo.length ++ lo.map fun l => vmax up - l).getD i 0) ↔
      (∀ i, i < lo.length → x.getD i 0 ≤ s) ∧
      (∀ i, i < lo.length → s ≤ x.getD i 0 + (1 - z.getD i 0) * (vmax up - lo.getD i 0)) := by
    have hl : (zeros lo.length ++ lo.map fun l => vmax up - l).length = lo.length + lo.length := by
      simp
    rw [hl]
    constructor
    · intro h
      refine ⟨fun i hi => ?_, fun i hi => ?_⟩
      · have := (hin i (by omega)).1 (h i (by omega))
        simpa only [hi, if_true] using this
      · have := (hin (lo.length + i) (by omega)).1 (h _ (by omega))
        rw [if_neg (by omega), Nat.add_sub_cancel_left] at this
        exact this
    · rintro ⟨h1, h2⟩ i hi
      rw [hin i hi]
      split
      · rename_i hl; exact h1 i hl
      · exact h2 _ (by omega)
  have hsum : dot (List.replicate lo.length 1) z = z.sum := dot_ones _ _ (by omega)
  unfold maxEnc at h
  simp only at h
  split at h
  swap
  · cases h
  split_ifs at h with h1 h2
  · cases h
    rw [MIC.holds_iff]
    simp only [MIC.numIneq, MIC.numEq, Option.getD_some]
    rw [hineq, and_assoc]
    simp only [List.getD_cons_zero]
    refine and_congr_right fun _ => and_congr_right fun _ => ?_
    simp only [mrow_none, dot_nil_left, zero_add]
    constructor
    · intro h
      refine ⟨?_, ?_⟩
      · have := h 0 (by simp)
        simpa [mrow, hsum] using this
      · intro i hi
        obtain ⟨k, hk, rfl⟩ := List.mem_iff_getElem.1 hi
        have := h (k + 1) (by simpa using hk)
        have hlt := hmem _ hi
        simp only [mrow_some, List.getD_cons_succ, getD_zeros] at this
        simpa [List.getD, hk, dot_eyeRow _ _ _ hlt] using this
    · rintro ⟨ha, hb⟩ i hi
      cases i with
      | zero => simpa [mrow, hsum] using ha
      | succ k =>
        have hk : k < (nonMaximal lo up).length := by simpa using hi
        have hb' := hb _ (List.getElem_mem hk)
        have hlt := hmem _ (List.getElem_mem hk)
        simp only [mrow_some, List.getD_cons_succ, getD_zeros]
        simpa [List.getD, hk, dot_eyeRow _ _ _ hlt] using hb'
  · cases h
    have hnil : nonMaximal lo up = [] := by
      apply List.eq_nil_of_length_eq_zero; omega
    rw [MIC.holds_iff]
    simp only [MIC.numIneq, MIC.numEq, Option.getD_some]
    rw [hineq, and_assoc]
    simp only [List.getD_cons_zero]
    refine and_congr_right fun _ => and_congr_right fun _ => ?_
    simp [hnil, mrow, hsum]

theorem maxEnc_counts {lo up : Vec K} {c : MIC K} (h : maxEnc lo up = some c) :
    c.numSlack = 1 ∧ c.numBinary = lo.length ∧ ∀ x s z, s.length = 1 → c.out x s z = [s.getD 0 0] := by
  unfold maxEnc at h
  simp only at h
  split_ifs at h <;> cases h <;> refine ⟨rfl, rfl, fun x s z hs => ?_⟩
  all_goals
    match s, hs with
    | [a], _ => simp [MIC.out, MIC.numOut, mrow]

theorem maxEnc_cond {lo up : Vec K} {c : MIC K} (h : maxEnc lo up = some c) :
    up.length = lo.length ∧ 0 < lo.length := by
  unfold maxEnc at h
  simp only at h
  split_ifs at h with h1 <;> exact ⟨h1.1, h1.2.2⟩

/-- C06. Soundness (for every input, inside the box or not): every feasible point outputs the greatest
entry of `x`, and the binary that is 1 marks an entry attaining it. -/
theorem C06_max_sound (lo up x s z : Vec K) (c : MIC K) (h : maxEnc lo up = some c)
    (hx : x.length = lo.length) (hf : c.Feas x s z) :
    ∃ y, c.out x s z = [y] ∧ y ∈ x ∧ (∀ a ∈ x, a ≤ y) ∧
      ∃ k, k < x.length ∧ z.getD k 0 = 1 ∧ x.getD k 0 = y := by
  obtain ⟨h1, h2, h3⟩ := maxEnc_counts h
  have ls : s.length = 1 := by rw [hf.len_s, h1]
  have lz : z.length = lo.length := by rw [hf.len_z, h2]
  obtain ⟨r1, r2, r3, -⟩ := (maxEnc_holds h x s z lz ls).1 hf.rows
  obtain ⟨k, hk, hk1, -⟩ := hf.bin.one_hot r3
  have hkl : k < lo.length := by omega
  have e := r2 k hkl
  rw [hk1] at e
  have hy : x.getD k 0 = s.getD 0 0 := le_antisymm (r1 k hkl) (by linarith)
  refine ⟨s.getD 0 0, h3 x s z ls, ?_, ?_, k, by omega, hk1, hy⟩
  · rw [← hy]; exact getD_mem _ _ (by omega)
  · intro a ha
    obtain ⟨i, hi, rfl⟩ := mem_getD ha
    exact r1 i (by omega)

/-- A never-maximal index is dominated on the whole box. -/
theorem nonMaximal_dominated (lo up x : Vec K) (hx : InBox lo up x) (i : ℕ) (hi : i ∈ nonMaximal lo up) :
    ∃ j, j < x.length ∧ x.getD i 0 < x.getD j 0 := by
  simp only [nonMaximal, List.mem_filter, List.mem_range, List.any_eq_true, decide_eq_true_eq] at hi
  obtain ⟨hil, j, hj, hlt⟩ := hi
  obtain ⟨l1, l2, hb⟩ := hx
  refine ⟨j, by omega, ?_⟩
  have b1 := hb i (by omega)
  have b2 := hb j (by omega)
  linarith [b1.2, b2.1]

/-- An index that is not marked is maximal at the corner where it is greatest and the others are least. -/
theorem corner_maximal (lo up : Vec K) (hu : up.length = lo.length)
    (hlu : ∀ i, i < lo.length → lo.getD i 0 ≤ up.getD i 0) (i : ℕ) (hi : i < lo.length)
    (hn : i ∉ nonMaximal lo up) : ∃ x, InBox lo up x ∧ ∀ j, j < x.length → x.getD j 0 ≤ x.getD i 0 := by
  have hd : ∀ j, j < lo.length → lo.getD j 0 ≤ up.getD i 0 := by
    intro j hj
    by_contra hc
    refine hn ?_
    simp only [nonMaximal, List.mem_filter, List.mem_range, List.any_eq_true, decide_eq_true_eq]
    exact ⟨hi, j, hj, by linarith [not_le.1 hc]⟩
  have hg : ∀ j, j < lo.length → (lo.set i (up.getD i 0)).getD j 0 = if i = j then up.getD i 0 else lo.getD j 0 := by
    intro j hj
    simp only [List.getD, List.getElem?_set, hi, if_true]
    split_ifs <;> rfl
  refine ⟨lo.set i (up.getD i 0), ⟨by simp, by simp [hu], fun j hj => ?_⟩, fun j hj => ?_⟩
  · rw [hg j (by simpa using hj)]
    split_ifs with e
    · subst e
      exact ⟨hlu i hi, le_rfl⟩
    · exact ⟨le_rfl, hlu j (by simpa using hj)⟩
  · rw [hg j (by simpa using hj), hg i hi, if_pos rfl]
    split_ifs with e
    · exact le_rfl
    · exact hd j (by simpa using hj)

theorem nonMaximal_iff (lo up : Vec K) (hu : up.length = lo.length)
    (hlu : ∀ i, i < lo.length → lo.getD i 0 ≤ up.getD i 0) (i : ℕ) :
    i ∈ nonMaximal lo up ↔ i < lo.length ∧
      ∀ x, InBox lo up x → ∃ j, j < x.length ∧ x.getD i 0 < x.getD j 0 := by
  constructor
  · intro h
    refine ⟨?_, fun x hx => nonMaximal_dominated lo up x hx i h⟩
    simp only [nonMaximal, List.mem_filter, List.mem_range] at h
    exact h.1
  · rintro ⟨hi, h⟩
    by_contra hn
    obtain ⟨x, hx, hm⟩ := corner_maximal lo up hu hlu i hi hn
    obtain ⟨j, hj, hlt⟩ := h x hx
    exact absurd (hm j hj) (not_le.2 hlt)

/-- Every maximal entry of `x` can be the one that is marked. -/
theorem max_complete_at (lo up x : Vec K) (c : MIC K) (h : maxEnc lo up = some c)
    (hx : InBox lo up x) (k : ℕ) (hk : k < x.length) (hky : x.getD k 0 = vmax x) :
    c.Feas x [vmax x] (eyeRow lo.length k) := by
  obtain ⟨h1, h2, h3⟩ := maxEnc_counts h
  obtain ⟨hu, hpos⟩ := maxEnc_cond h
  have hlen : x.length = lo.length := hx.1
  have hup : ∀ i, i < lo.length → x.getD i 0 ≤ vmax up := by
    intro i hi
    exact le_trans (hx.2.2 i (by omega)).2 (le_vmax _ _ (getD_mem _ _ (by omega)))
  have hz : ∀ i ∈ nonMaximal lo up, (eyeRow lo.length k : Vec K).getD i 0 = 0 := by
    intro i hi
    rw [getD_eyeRow _ _ _ (by omega)]
    obtain ⟨j, hj, hlt⟩ := nonMaximal_dominated lo up x hx i hi
    have : i ≠ k := by
      rintro rfl
      rw [hky] at hlt
      exact absurd (le_vmax x _ (getD_mem x j hj)) (not_le.2 hlt)
    simp [this]
  refine ⟨?_, ?_, isBin_eyeRow _ _, ?_, ?_⟩
  · simp [h1]
  · simp [h2]
  · rw [maxEnc_holds h _ _ _ (by simp) (by simp)]
    refine ⟨?_, ?_, sum_eyeRow _ _ (by omega), hz⟩
    · intro i hi
      exact le_vmax _ _ (getD_mem _ _ (by omega))
    · intro i hi
      rw [getD_eyeRow _ _ _ (by omega), List.getD_cons_zero]
      split
      · rename_i e; subst e; rw [hky]; simp
      · have b := (hx.2.2 i (by omega)).1
        have hm : vmax x ≤ vmax up := by rw [← hky]; exact hup k (by omega)
        linarith
  · unfold maxEnc at h
    simp only at h
    split_ifs at h with c1 c2 c3
    · cases h
      simp only [MIC.BoundsHold]
      refine ⟨by simp [LoOk], by simp [UpOk], by simp [LoOk], by simp [UpOk], ?_, ?_⟩
      · rw [loOk_fin]
        intro i hi hi2
        rw [getD_zeros, getD_eyeRow _ _ _ (by omega)]
        split <;> simp
      · rw [upOk_fin]
        intro i hi hi2
        simp at hi
        have e : ((List.range lo.length).map fun i => if i ∈ nonMaximal lo up then (0 : K) else 1).getD
            i 0 = if i ∈ nonMaximal lo up then 0 else 1 := by
          simp [List.getD, hi]
        rw [e]
        split
        · rename_i hm; exact (hz i hm).le
        · rw [getD_eyeRow _ _ _ (by omega)]; split <;> simp
    · cases h
      simp [MIC.BoundsHold, LoOk, UpOk]

/-- C06. Completeness: every `x` of the box has a feasible completion. -/
theorem C06_max_complete (lo up x : Vec K) (c : MIC K) (h : maxEnc lo up = some c)
    (hx : InBox lo up x) : ∃ s z, c.Feas x s z := by
  have hne : x ≠ [] := by
    have h1 := hx.1
    have h2 := (maxEnc_cond h).2
    intro e
    rw [e] at h1
    simp at h1
    omega
  obtain ⟨k, hk, hky⟩ := mem_getD (vmax_mem x hne)
  exact ⟨_, _, max_complete_at lo up x c h hx k hk hky⟩

/-- The shape of a box that the encoder accepts. -/
theorem maxEnc_box {lo up : Vec K} {c : MIC K} (h : maxEnc lo up = some c) :
    ∀ i, i < lo.length → lo.getD i 0 ≤ up.getD i 0 := by
  unfold maxEnc at h
  simp only at h
  split_ifs at h with h1 <;> exact h1.2.1

/-- C06. A binary is zero at every feasible point exactly if its entry is never maximal: at every `x` of the box
some other entry is strictly larger. -/
theorem C06_max_pinned (lo up : Vec K) (c : MIC K) (h : maxEnc lo up = some c) (i : ℕ) (hi : i < lo.length) :
    (∀ x s z, c.Feas x s z → z.getD i 0 = 0) ↔
      ∀ x, InBox lo up x → ∃ j, j < x.length ∧ x.getD i 0 < x.getD j 0 := by
  obtain ⟨h1, h2, -⟩ := maxEnc_counts h
  obtain ⟨hu, -⟩ := maxEnc_cond h
  have hn := nonMaximal_iff lo up hu (maxEnc_box h) i
  constructor
  · intro hz
    refine (hn.1 ?_).2
    by_contra hc
    obtain ⟨x, hx, hm⟩ := corner_maximal lo up hu (maxEnc_box h) i hi hc
    have hil : i < x.length := by rw [hx.1]; exact hi
    have hv : x.getD i 0 = vmax x := by
      refine le_antisymm (le_vmax _ _ (getD_mem _ _ hil)) ?_
      obtain ⟨k, hk, hky⟩ := mem_getD (vmax_mem x (by rintro rfl; simp at hil))
      rw [← hky]
      exact hm k hk
    have := hz _ _ _ (max_complete_at lo up x c h hx i hil hv)
    rw [getD_eyeRow _ _ _ (by omega)] at this
    simp at this
  · intro hx x s z hf
    have ls : s.length = 1 := by rw [hf.len_s, h1]
    have lz : z.length = lo.length := by rw [hf.len_z, h2]
    exact ((maxEnc_holds h x s z lz ls).1 hf.rows).2.2.2 i (hn.2 ⟨hi, hx⟩)

theorem nonMaximal_one (lo up : Vec K) : (nonMaximal lo up).length = 1 ↔ ∃! i, i ∈ nonMaximal lo up := by
  have hd : (nonMaximal lo up).Nodup := List.nodup_range.filter _
  constructor
  · intro h
    obtain ⟨a, ha⟩ := List.length_eq_one_iff.1 h
    exact ⟨a, by simp [ha], fun b hb => by simpa [ha] using hb⟩
  · rintro ⟨a, ha, hu⟩
    refine le_antisymm ?_ (List.length_pos_of_mem ha)
    have : nonMaximal lo up ⊆ [a] := fun b hb => by simp [hu b hb]
    exact (hd.subperm this).length_le

theorem maxEnc_isSome (lo up : Vec K) :
    (maxEnc lo up).isSome ↔ (up.length = lo.length ∧
      (∀ i, i < lo.length → lo.getD i 0 ≤ up.getD i 0) ∧ 0 < lo.length) ∧
      (nonMaximal lo up).length ≠ 1 := by
  unfold maxEnc
  simp only
  split_ifs with h1 h2 h3
  · exact ⟨fun h => absurd h (by simp), fun h => absurd h2 h.2⟩
  · exact ⟨fun _ => ⟨h1, h2⟩, fun _ => rfl⟩
  · exact ⟨fun _ => ⟨h1, h2⟩, fun _ => rfl⟩
  · exact ⟨fun h => absurd h (by simp), fun h => absurd h.1 h1⟩

/-- C06. The encoder returns exactly on nonempty ordered boxes for which the number of never-maximal
entries is not one. -/
theorem C06_max_accepts (lo up : Vec K) :
    (maxEnc lo up).isSome ↔ (up.length = lo.length ∧
      (∀ i, i < lo.length → lo.getD i 0 ≤ up.getD i 0) ∧ 0 < lo.length) ∧
      ¬ ∃! i, i < lo.length ∧ ∀ x, InBox lo up x → ∃ j, j < x.length ∧ x.getD i 0 < x.getD j 0 := by
  rw [maxEnc_isSome]
  refine and_congr_right fun h => not_congr ?_
  rw [nonMaximal_one]
  simp only [nonMaximal_iff lo up h.1 h.2.1]

/-- C06, negative: a valid box on which the encoder raises (`len` of an `int`, utils.py 103-107). -/
theorem C06_max_raises_counterexample :
    ∃ lo up : Vec ℚ, up.length = lo.length ∧ (∀ i, i < lo.length → lo.getD i 0 ≤ up.getD i 0) ∧
      0 < lo.length ∧ maxEnc lo up = none := by
  refine ⟨[0, 2], [1, 3], rfl, ?_, by simp, ?_⟩
  · intro i hi
    simp at hi
    interval_cases i <;> norm_num
  · have : ¬ (maxEnc [0, 2] [(1 : ℚ), 3]).isSome := by
      rw [maxEnc_isSome]
      rintro ⟨-, h⟩
      exact h (by norm_num [nonMaximal, List.range, List.range.loop, List.filter])
    simpa using this

example : ∃ c, maxEnc [(0 : ℚ), 1, -5, -5] [4, 3, -2, -1] = some c ∧
    (∃ s z, c.Feas [2, 3, -4, -4] s z) ∧
    ∀ s z, c.Feas [2, 3, -4, -4] s z → ∃ y, c.out [2, 3, -4, -4] s z = [y] ∧ y = 3 := by
  have hok : (maxEnc [(0 : ℚ), 1, -5, -5] [4, 3, -2, -1]).isSome := by
    rw [maxEnc_isSome]
    refine ⟨⟨rfl, ?_, by simp⟩, ?_⟩
    · intro i hi
      simp at hi
      interval_cases i <;> norm_num
    · norm_num [nonMaximal, List.range, List.range.loop, List.filter]
  obtain ⟨c, hc⟩ := Option.isSome_iff_exists.1 hok
  refine ⟨c, hc, C06_max_complete _ _ _ c hc ⟨rfl, rfl, ?_⟩, ?_⟩
  · intro i hi
    simp at hi
    interval_cases i <;> norm_num
  · intro s z h
    obtain ⟨y, h1, h2, h3, -⟩ := C06_max_sound _ _ [2, 3, -4, -4] s z c hc rfl h
    refine ⟨y, h1, le_antisymm ?_ (h3 3 (by simp))⟩
    simp at h2
    rcases h2 with rfl | rfl | rfl <;> norm_num

/-! ## C10 -/

/-- C10. For a box `lo ≤ up`, the constraints of `box_boundary` are satisfiable at `x` exactly when `x` is
in the box and on at least one face. -/
theorem C10_box_boundary (lo up x : Vec K) (c : MIC K) (h : boxBoundary lo up = some c)
    (hlu : ∀ i, i < lo.length → lo.getD i 0 ≤ up.getD i 0) (hx : x.length = lo.length) :
    (∃ s z, c.Feas x s z) ↔
      InBox lo up x ∧ ∃ i, i < x.length ∧ (x.getD i 0 = lo.getD i 0 ∨ x.getD i 0 = up.getD i 0) := by
  unfold boxBoundary at h
  simp only at h
  split at h
  swap
  · cases h
  rename_i hlen
  cases h
  have hw : (vsub up lo).length = lo.length := by simp [hlen]
  have hwi : ∀ i, (vsub up lo).getD i 0 = up.getD i 0 - lo.getD i 0 :=
    fun i => getD_vsub _ _ _ hlen
  have hbd := fun z i => blockDiag_dot (⟨lo.length, diagM (vsub up lo)⟩ : Tensor2 K)
    ⟨lo.length, diagM (vsub up lo)⟩ (by have := diagM_ok (vsub up lo); rwa [hw] at this) z i
  simp only [length_diagM, hw] at hbd
  -- the rows
  have rows : ∀ s z : Vec K, z.length = 2 * lo.length →
      (MIC.Holds
        { Ain_input := some ⟨lo.length, negEye lo.length ++ eye lo.length⟩
          Ain_binary := some (blockDiag ⟨lo.length, diagM (vsub up lo)⟩
            ⟨lo.length, diagM (vsub up lo)⟩)
          rhs_in := some (vneg lo ++ up)
          Aeq_binary := some ⟨2 * lo.length, [List.replicate (2 * lo.length) 1]⟩
          rhs_eq := some [1] } x s z ↔
      (∀ i, i < lo.length →
        lo.getD i 0 + (up.getD i 0 - lo.getD i 0) * z.getD i 0 ≤ x.getD i 0) ∧
      (∀ i, i < lo.length →
        x.getD i 0 ≤ up.getD i 0 - (up.getD i 0 - lo.getD i 0) * z.getD (lo.length + i) 0) ∧
      z.sum = 1) := by
    intro s z hz
    rw [MIC.holds_iff]
    simp only [MIC.numIneq, MIC.numEq, Option.getD_some, List.length_append, length_vneg, hlen,
      mrow_none, dot_nil_left, add_zero]
    rw [forall_lt_add, and_assoc]
    refine and_congr ?_ (and_congr ?_ ?_)
    · refine forall_congr' fun i => imp_congr_right fun hi => ?_
      rw [(hbd z i).1 hi, dot_diag _ _ _ (by omega), hwi, mrow_some,
        getD_append_lt _ _ _ _ (by simpa using hi), getD_negEye _ _ hi, dot_vneg_left,
        dot_eyeRow _ _ _ hi, getD_append_lt _ _ _ _ (by simpa using hi), getD_vneg]
      have e : (z.take lo.length).getD i 0 = z.getD i 0 := by
        simp [List.getD, hi]
      rw [e]
      constructor <;> intro h <;> linarith
    · refine forall_congr' fun i => imp_congr_right fun hi => ?_
      have e1 := getD_append_add (negEye lo.length) (eye lo.length) i ([] : Vec K)
      have e2 := getD_append_add (vneg lo) up i 0
      simp only [length_negEye, length_vneg] at e1 e2
      rw [(hbd z i).2 hi, dot_diag _ _ _ (by omega), hwi, mrow_some, e1, getD_eye _ _ hi,
        dot_eyeRow _ _ _ hi, e2]
      have e : (z.drop lo.length).getD i 0 = z.getD (lo.length + i) 0 := by
        simp [List.getD, List.getElem?_drop]
      rw [e]
      constructor <;> intro h <;> linarith
    · have := dot_ones (2 * lo.length) z hz.le
      simp [mrow, this]
  constructor
  · rintro ⟨s, z, ls, lz, bz, hr, -⟩
    have lz : z.length = 2 * lo.length := by
      rw [lz]; simp [MIC.numBinary, numVar, blockDiag, two_mul]
    obtain ⟨r1, r2, r3⟩ := (rows s z lz).1 hr
    obtain ⟨k, hk, hk1, hk0⟩ := bz.one_hot r3
    have zb : ∀ i, 0 ≤ z.getD i 0 ∧ z.getD i 0 ≤ 1 := by
      intro i
      by_cases hi : i = k
      · rw [hi, hk1]; simp
      · rw [hk0 i hi]; simp
    refine ⟨⟨hx, by omega, ?_⟩, ?_⟩
    · intro i hi
      have hi' : i < lo.length := by omega
      have hd := sub_nonneg.2 (hlu i hi')
      have a1 := mul_nonneg hd (zb i).1
      have a2 := mul_nonneg hd (zb (lo.length + i)).1
      exact ⟨by linarith [r1 i hi'], by linarith [r2 i hi']⟩
    · by_cases hkl : k < lo.length
      · refine ⟨k, by omega, Or.inr ?_⟩
        have a1 := r1 k hkl
        have a2 := r2 k hkl
        rw [hk1] at a1
        rw [hk0 (lo.length + k) (by omega)] at a2
        exact le_antisymm (by linarith) (by linarith)
      · refine ⟨k - lo.length, by omega, Or.inl ?_⟩
        have hj : k - lo.length < lo.length := by omega
        have a1 := r1 _ hj
        have a2 := r2 _ hj
        have ek : lo.length + (k - lo.length) = k := by omega
        rw [ek, hk1] at a2
        rw [hk0 (k - lo.length) (by omega)] at a1
        exact le_antisymm (by linarith) (by linarith)
  · rintro ⟨⟨-, -, hb⟩, i, hi, hface⟩
    have hb' : ∀ j, j < lo.length → lo.getD j 0 ≤ x.getD j 0 ∧ x.getD j 0 ≤ up.getD j 0 :=
      fun j hj => hb j (by omega)
    rcases hface with hface | hface
    · refine ⟨[], eyeRow (2 * lo.length) (lo.length + i), rfl, by simp [MIC.numBinary, numVar, blockDiag, two_mul],
        isBin_eyeRow _ _, (rows _ _ (by simp)).2 ⟨?_, ?_, sum_eyeRow _ _ (by omega)⟩,
        by simp [MIC.BoundsHold, LoOk, UpOk]⟩
      · intro j hj
        rw [getD_eyeRow _ _ _ (by omega), if_neg (by omega)]
        linarith [(hb' j hj).1]
      · intro j hj
        rw [getD_eyeRow _ _ _ (by omega)]
        split
        · rename_i e
          have : j = i := by omega
          subst this
          rw [hface]; linarith
        · linarith [(hb' j hj).2]
    · refine ⟨[], eyeRow (2 * lo.length) i, rfl, by simp [MIC.numBinary, numVar, blockDiag, two_mul],
        isBin_eyeRow _ _, (rows _ _ (by simp)).2 ⟨?_, ?_, sum_eyeRow _ _ (by omega)⟩,
        by simp [MIC.BoundsHold, LoOk, UpOk]⟩
      · intro j hj
        rw [getD_eyeRow _ _ _ (by omega)]
        split
        · rename_i e; subst e; rw [hface]; linarith
        · linarith [(hb' j hj).1]
      · intro j hj
        rw [getD_eyeRow _ _ _ (by omega), if_neg (by omega)]
        linarith [(hb' j hj).2]

example : ∃ c, boxBoundary [(0 : ℚ), 0] [1, 2] = some c ∧ (∃ s z, c.Feas [1, 1] s z) ∧
    ¬ ∃ s z, c.Feas [1/2, 1] s z := by
  have hl : ∀ i, i < [(0 : ℚ), 0].length → [(0 : ℚ), 0].getD i 0 ≤ [(1 : ℚ), 2].getD i 0 := by
    intro i hi
    simp at hi
    interval_cases i <;> norm_num
  refine ⟨_, rfl, ?_, ?_⟩
  · rw [C10_box_boundary [0, 0] [1, 2] [1, 1] _ rfl hl rfl]
    refine ⟨⟨rfl, rfl, ?_⟩, 0, by simp, by simp⟩
    intro i hi
    simp at hi
    interval_cases i <;> norm_num
  · rw [C10_box_boundary [0, 0] [1, 2] [1/2, 1] _ rfl hl rfl]
    rintro ⟨-, i, hi, h⟩
    simp at hi
    interval_cases i <;> norm_num at h

end NNL.Props
