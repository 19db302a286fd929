import Verif.Props.HybridRate3
import Verif.Props.Cuts
import Verif.Props.Descent
import Verif.Props.ModelFiles
import Verif.Props.Barrier

/-!
C38, C42, C54, C62, C63, C66: the inputs for which the functions return, and when the descent ends early.
-/

set_option linter.unusedSectionVars false

namespace NNL.Props

open NNL NNL.Model NNL.Spec

section Descent

variable {K : Type} [Field K] [LinearOrder K] [IsStrictOrderedRing K]

theorem batchLoop_stops (epoch : ℕ → Tensors K → Tensors K) (loss : ParamVals K → K × K) :
    ∀ (n k : ℕ) (t : Tensors K) (best : ParamVals K) (b : K), k < n →
      (∀ j, j < k → loss (visited epoch n t (j + 1)).get ≠ (0, 0)) → loss (visited epoch n t (k + 1)).get = (0, 0) →
      batchLoop epoch loss n t best b = visited epoch n t (k + 1) := by
  intro n
  induction n with
  | zero => intro k t best b hk; omega
  | succ n ih =>
    intro k t best b hk hb hz
    rw [visited_shift] at hz ⊢
    simp only [batchLoop]
    cases k with
    | zero =>
      simp only [visited] at hz
      rw [if_pos ⟨by rw [hz], by rw [hz]⟩]
      rfl
    | succ k =>
      have h0 : ¬ ((loss (epoch n t).get).1 = 0 ∧ (loss (epoch n t).get).2 = 0) := by
        intro h
        refine hb 0 (by omega) ?_
        rw [visited_shift]
        exact Prod.ext h.1 h.2
      have hb' : ∀ j, j < k → loss (visited epoch n (epoch n t) (j + 1)).get ≠ (0, 0) := by
        intro j hj
        have := hb (j + 1) (by omega)
        rwa [visited_shift] at this
      rw [if_neg h0]
      split_ifs
      · exact ih k _ _ _ (by omega) hb' hz
      · exact ih k _ _ _ (by omega) hb' hz

theorem batchLoop_full (epoch : ℕ → Tensors K → Tensors K) (loss : ParamVals K → K × K) :
    ∀ (n : ℕ) (t : Tensors K) (best : ParamVals K) (b : K),
      (∀ j, j < n → loss (visited epoch n t (j + 1)).get ≠ (0, 0)) →
      (batchLoop epoch loss n t best b = (visited epoch n t n).put best ∧
        ∀ j, j < n → b ≤ total (loss (visited epoch n t (j + 1)).get)) ∨
      ∃ k, k < n ∧ batchLoop epoch loss n t best b = (visited epoch n t n).put (visited epoch n t (k + 1)).get ∧
        total (loss (visited epoch n t (k + 1)).get) < b ∧
        (∀ j, j < k → total (loss (visited epoch n t (k + 1)).get) < total (loss (visited epoch n t (j + 1)).get)) ∧
        ∀ j, j < n → total (loss (visited epoch n t (k + 1)).get) ≤ total (loss (visited epoch n t (j + 1)).get) := by
  intro n
  induction n with
  | zero => intro t best b _; exact Or.inl ⟨rfl, fun j hj => absurd hj (by omega)⟩
  | succ n ih =>
    intro t best b hb
    have h0 : ¬ ((loss (epoch n t).get).1 = 0 ∧ (loss (epoch n t).get).2 = 0) := by
      intro h
      refine hb 0 (by omega) ?_
      rw [visited_shift]
      exact Prod.ext h.1 h.2
    have hb' : ∀ j, j < n → loss (visited epoch n (epoch n t) (j + 1)).get ≠ (0, 0) := by
      intro j hj
      have := hb (j + 1) (by omega)
      rwa [visited_shift] at this
    simp only [batchLoop, if_neg h0, visited_shift]
    have hz : ∀ {j}, j < n + 1 → j = 0 ∨ ∃ i, j = i + 1 ∧ i < n := by
      intro j hj
      cases j with
      | zero => exact Or.inl rfl
      | succ i => exact Or.inr ⟨i, rfl, by omega⟩
    split_ifs with hlt
    · rcases ih (epoch n t) (epoch n t).get (total (loss (epoch n t).get)) hb' with ⟨e, h⟩ | ⟨k, hk, e, h1, h2, h3⟩
      · right
        refine ⟨0, by omega, e, hlt, fun j hj => absurd hj (by omega), fun j hj => ?_⟩
        rcases hz hj with rfl | ⟨i, rfl, hi⟩
        · exact le_rfl
        · exact h i hi
      · right
        refine ⟨k + 1, by omega, e, h1.trans hlt, fun j hj => ?_, fun j hj => ?_⟩
        · rcases hz (show j < n + 1 by omega) with rfl | ⟨i, rfl, hi⟩
          · exact h1
          · exact h2 i (by omega)
        · rcases hz hj with rfl | ⟨i, rfl, hi⟩
          · exact h1.le
          · exact h3 i hi
    · have hge : b ≤ total (loss (epoch n t).get) := not_lt.1 hlt
      rcases ih (epoch n t) best b hb' with ⟨e, h⟩ | ⟨k, hk, e, h1, h2, h3⟩
      · left
        refine ⟨e, fun j hj => ?_⟩
        rcases hz hj with rfl | ⟨i, rfl, hi⟩
        · exact hge
        · exact h i hi
      · right
        refine ⟨k + 1, by omega, e, h1, fun j hj => ?_, fun j hj => ?_⟩
        · rcases hz (show j < n + 1 by omega) with rfl | ⟨i, rfl, hi⟩
          · exact h1.trans_le hge
          · exact h2 i (by omega)
        · rcases hz hj with rfl | ⟨i, rfl, hi⟩
          · exact h1.le.trans hge
          · exact h3 i hi

/-- **C66**: the descent ends right after the first epoch whose parameters have both losses zero, and leaves every
tensor as that epoch left it. -/
theorem C66_stops_early (epoch : ℕ → Tensors K → Tensors K) (loss : ParamVals K → K × K) (N k : ℕ) (t : Tensors K)
    (hk : k < N) (hb : ∀ j, j < k → loss (visited epoch N t (j + 1)).get ≠ (0, 0))
    (hz : loss (visited epoch N t (k + 1)).get = (0, 0)) :
    batchDescent epoch loss N t = visited epoch N t (k + 1) :=
  batchLoop_stops epoch loss N k t _ _ hk hb hz

/-- **C66**: otherwise all epochs are run, and then the parameters of the first best state visited (the initial one
counts) are put back. -/
theorem C66_runs_all (epoch : ℕ → Tensors K → Tensors K) (loss : ParamVals K → K × K) (N : ℕ) (t : Tensors K)
    (hb : ∀ j, j < N → loss (visited epoch N t (j + 1)).get ≠ (0, 0)) :
    ∃ k, k ≤ N ∧ batchDescent epoch loss N t = (visited epoch N t N).put (visited epoch N t k).get ∧
      (∀ j, j < k → total (loss (visited epoch N t k).get) < total (loss (visited epoch N t j).get)) ∧
      ∀ j, j ≤ N → total (loss (visited epoch N t k).get) ≤ total (loss (visited epoch N t j).get) := by
  rcases batchLoop_full epoch loss N t t.get (total (loss t.get)) hb with ⟨e, h⟩ | ⟨k, hk, e, h1, h2, h3⟩
  · refine ⟨0, by omega, e, fun j hj => absurd hj (by omega), fun j hj => ?_⟩
    cases j with
    | zero => exact le_rfl
    | succ j => exact h j (by omega)
  · refine ⟨k + 1, by omega, e, fun j hj => ?_, fun j hj => ?_⟩
    · cases j with
      | zero => exact h1
      | succ j => exact h2 j (by omega)
    · cases j with
      | zero => exact h1.le
      | succ j => exact h3 j (by omega)

end Descent

/-- A loss that is zero after the second of four epochs of the example: the descent ends there. -/
example : batchDescent (halveAt [0, 1, 2]) (fun p => (((p.rvar.getD []).map fun a => (a - 1 / 2) ^ 2).sum, 0)) 4 exTensors =
    visited (halveAt [0, 1, 2]) 4 exTensors 2 := by
  refine C66_stops_early _ _ 4 1 exTensors (by omega) ?_ (by decide +kernel)
  intro j hj
  obtain rfl : j = 0 := by omega
  decide +kernel

/-- The losses of the example are never both zero, so all three epochs are run. -/
example : ∃ k, k ≤ 3 ∧ batchDescent (halveAt [0, 1, 2]) exLoss 3 exTensors =
    (visited (halveAt [0, 1, 2]) 3 exTensors 3).put (visited (halveAt [0, 1, 2]) 3 exTensors k).get := by
  obtain ⟨k, hk, e, -⟩ := C66_runs_all (halveAt [0, 1, 2]) exLoss 3 exTensors (by
    intro j hj
    rcases (show j = 0 ∨ j = 1 ∨ j = 2 by omega) with rfl | rfl | rfl <;> decide +kernel)
  exact ⟨k, hk, e⟩

variable {K : Type*} [Field K] [LinearOrder K] [IsStrictOrderedRing K]

/-! ### C63 -/

theorem objLoop_dup {m : Mip K} (hw : m.WF) (l : List (K × ℕ)) (ur uz : List ℕ) (cr cz : Vec K)
    (hlt : ∀ t ∈ l, t.2 < m.n)
    (h : ¬ (l.map Prod.snd).Nodup ∨ ∃ t ∈ l, (∃ j ∈ ur, m.rIdx.lookup t.2 = some j) ∨
      (m.rIdx.lookup t.2 = none ∧ ∃ j ∈ uz, m.zIdx.lookup t.2 = some j)) :
    objLoop m.rIdx m.zIdx l ur uz cr cz = none := by
  induction l generalizing ur uz cr cz with
  | nil => rcases h with h | ⟨t, ht, -⟩ <;> simp at *
  | cons t l ih =>
    obtain ⟨c, i⟩ := t
    have hl : ∀ t ∈ l, t.2 < m.n := fun t ht => hlt t (by simp [ht])
    rw [objLoop]
    cases hr : m.rIdx.lookup i with
    | some j =>
      simp only
      split_ifs with hj
      · rfl
      · refine ih _ _ _ _ hl ?_
        rcases h with h | ⟨t, ht, h⟩
        · rw [List.map_cons, List.nodup_cons, not_and_or, not_not] at h
          rcases h with h | h
          · obtain ⟨t, ht, e⟩ := List.mem_map.1 h
            refine Or.inr ⟨t, ht, Or.inl ⟨j, by simp, ?_⟩⟩
            rw [e]
            exact hr
          · exact Or.inl h
        · rcases List.mem_cons.1 ht with rfl | ht
          · rcases h with ⟨k, hk, e⟩ | ⟨e, -⟩
            · rw [hr] at e
              cases e
              exact absurd hk hj
            · rw [hr] at e
              cases e
          · refine Or.inr ⟨t, ht, ?_⟩
            rcases h with ⟨k, hk, e⟩ | h
            · exact Or.inl ⟨k, by simp [hk], e⟩
            · exact Or.inr h
    | none =>
      simp only
      cases hz : m.zIdx.lookup i with
      | some j =>
        simp only
        split_ifs with hj
        · rfl
        · refine ih _ _ _ _ hl ?_
          rcases h with h | ⟨t, ht, h⟩
          · rw [List.map_cons, List.nodup_cons, not_and_or, not_not] at h
            rcases h with h | h
            · obtain ⟨t, ht, e⟩ := List.mem_map.1 h
              refine Or.inr ⟨t, ht, Or.inr ⟨?_, j, by simp, ?_⟩⟩
              · rw [e]
                exact hr
              · rw [e]
                exact hz
            · exact Or.inl h
          · rcases List.mem_cons.1 ht with rfl | ht
            · rcases h with ⟨k, hk, e⟩ | ⟨-, k, hk, e⟩
              · rw [hr] at e
                cases e
              · rw [hz] at e
                cases e
                exact absurd hk hj
            · refine Or.inr ⟨t, ht, ?_⟩
              rcases h with h | ⟨h1, k, hk, e⟩
              · exact Or.inl h
              · exact Or.inr ⟨h1, k, by simp [hk], e⟩
      | none =>
        exfalso
        have hi := (hw.cover i).2 (hlt (c, i) (by simp))
        rw [hw.ridx, lookup_zipIdx_none] at hr
        rw [hw.zidx, lookup_zipIdx_none] at hz
        rcases List.mem_append.1 hi with h | h
        · exact hr h
        · exact hz h

theorem flat_vars : ∀ (coeffs : List (Vec K)) (xs : List (List ℕ)), coeffs.length = xs.length →
    (∀ t ∈ coeffs.zip xs, t.2.length ≤ t.1.length) →
    (List.zipWith (fun c v => c.zip v) coeffs xs).flatten.map Prod.snd = xs.flatten
  | [], xs, hl, _ => by
    cases xs
    · rfl
    · simp at hl
  | c :: cs, [], hl, _ => by simp at hl
  | c :: cs, x :: xs, hl, h => by
    simp only [List.zipWith_cons_cons, List.flatten_cons, List.map_append]
    rw [flat_vars cs xs (by simpa using hl) (fun t ht => h t (by simp [ht])),
      List.map_snd_zip (h (c, x) (by simp))]

/-- **C63**: for variables of the program `setObjective` returns exactly if there is one vector of coefficients for every
list of variables, none of them is too short, and no variable occurs twice. -/
theorem C63_accepts_iff (m : Mip K) (hw : m.WF) (coeffs : List (Vec K)) (xs : List (List ℕ)) (const : K) (mx : Bool)
    (hx : ∀ x ∈ xs, ∀ i ∈ x, i < m.n) :
    (m.setObjective coeffs xs const mx).isSome ↔
      coeffs.length = xs.length ∧ (∀ t ∈ coeffs.zip xs, t.2.length ≤ t.1.length) ∧ xs.flatten.Nodup := by
  constructor
  · intro h
    have hl : coeffs.length = xs.length ∧ ∀ t ∈ coeffs.zip xs, t.2.length ≤ t.1.length := by
      by_contra hn
      rw [Mip.setObjective, if_neg hn] at h
      cases h
    refine ⟨hl.1, hl.2, ?_⟩
    by_contra hd
    rw [← flat_vars coeffs xs hl.1 hl.2] at hd
    rw [Mip.setObjective, if_pos hl] at h
    simp only [Option.isSome_map] at h
    rw [objLoop_dup hw _ _ _ _ _ ?_ (Or.inl hd)] at h
    · cases h
    · intro t ht
      have : t.2 ∈ xs.flatten := by
        rw [← flat_vars coeffs xs hl.1 hl.2]
        exact List.mem_map_of_mem ht
      obtain ⟨x, hx', hi⟩ := List.mem_flatten.1 this
      exact hx x hx' _ hi
  · rintro ⟨h1, h2, h3⟩
    obtain ⟨m', h⟩ := C63_setObjective_accepts m hw coeffs xs const mx h1 h2 h3
    rw [h]
    rfl

/-- Two orders of the two variables of the example, and a variable that occurs twice. -/
example : (exTwo.setObjective [[1], [2]] [[1], [0]] 3 true).isSome ∧ (exTwo.setObjective [[1, 4], [2]] [[1, 0], [0]] 3 true) = none := by
  have hw : exTwo.WF := exTwo_wf
  refine ⟨(C63_accepts_iff exTwo hw _ _ _ _ (by decide)).2 (by decide), ?_⟩
  have := (C63_accepts_iff exTwo hw [[1, 4], [2]] [[1, 0], [0]] 3 true (by decide)).not.2 (by decide)
  simpa using this

/-! ### C62 -/

theorem cutWithIndices_isSome {c : K} (hc : 0 ≤ c) (hc1 : c < 1) (w : Vec K) (b : K) {lo up : Vec K}
    (hl : lo.length = w.length) (hu : up.length = w.length) {I : List ℕ} (hI : ∀ i ∈ I, i < w.length) :
    ∃ t, cutWithIndices c w b lo up I = some t := by
  unfold cutWithIndices
  rw [if_pos ⟨hc, hc1, hl, by omega, hI⟩]
  exact ⟨_, rfl⟩

theorem findIndexSet_lt (w lo up xh : Vec K) (bh : K) : ∀ i ∈ findIndexSet w lo up xh bh, i < w.length := by
  intro i hi
  simp only [findIndexSet, List.mem_filter, List.mem_range] at hi
  exact hi.1

/-- **C62**: all the cuts are returned for a unit that may be active or not. -/
theorem C62_accepts_all {c : K} (hc : 0 ≤ c) (hc1 : c < 1) (w : Vec K) (b : K) {lo up : Vec K}
    (hl : lo.length = w.length) (hu : up.length = w.length) {rl ru : K} (hrl : rl < 0) (hru : 0 < ru) :
    ∃ ts, strengthenReluMip c w b lo up rl ru false = some ts := by
  unfold strengthenReluMip
  rw [if_pos ⟨hrl, hru, by omega⟩]
  simp only [Bool.false_eq_true, if_false, cutsAll]
  refine collect_map_some _ _ fun I hI => ?_
  refine cutWithIndices_isSome hc hc1 w b hl hu fun i hi => ?_
  rw [List.mem_filter, List.mem_sublists] at hI
  exact List.mem_range.1 (hI.1.subset hi)

/-- **C62**: the selected cuts are returned as well, if the bounds of the unit are not looser than those that follow from
the box. -/
theorem C62_accepts_selective {c : K} (hc : 0 ≤ c) (hc1 : c < 1) (w : Vec K) (b : K) {lo up : Vec K}
    (hl : lo.length = w.length) (hu : up.length = w.length) {rl ru : K} (hrl : rl < 0) (hru : 0 < ru)
    (h1 : rowLo w b lo up ≤ rl) (h2 : ru ≤ rowUp w b lo up) :
    ∃ ts, strengthenReluMip c w b lo up rl ru true = some ts := by
  unfold strengthenReluMip
  rw [if_pos ⟨hrl, hru, by omega⟩]
  simp only [if_true, cutsSelective]
  have hv : ∃ vs, linearInputVertices lo up w b rl ru = some vs := by
    unfold linearInputVertices
    rw [if_pos ⟨by omega, hl⟩]
    split_ifs with h h'
    · exact ⟨_, rfl⟩
    · exact ⟨_, rfl⟩
    · exact absurd ⟨h1, h2⟩ h'
  obtain ⟨vs, hv⟩ := hv
  rw [hv]
  simp only
  have step : ∀ (xh : Vec K) (ts : List (Cut K)) (bh : K),
      ∃ ts', selectiveStep c w b lo up (existCuts c w b rl ru) xh (some ts) bh = some ts' := by
    intro xh ts bh
    obtain ⟨t, ht⟩ := cutWithIndices_isSome hc hc1 w b hl hu (findIndexSet_lt w lo up xh bh)
    unfold selectiveStep
    rw [ht]
    simp only
    split_ifs <;> exact ⟨_, rfl⟩
  have loop : ∀ (l : List (Vec K)) (ts : List (Cut K)), ∃ ts', l.foldl (fun ts xh =>
      match ts with
      | none => none
      | some ts0 =>
        let r := betaRange c w b (existCuts c w b rl ru ++ ts0) xh
        [r.1, r.2].foldl (selectiveStep c w b lo up (existCuts c w b rl ru) xh) ts) (some ts) = some ts' := by
    intro l
    induction l with
    | nil => exact fun ts => ⟨ts, rfl⟩
    | cons x l ih =>
      intro ts
      simp only [List.foldl_cons, List.foldl_nil]
      obtain ⟨t1, e1⟩ := step x ts (betaRange c w b (existCuts c w b rl ru ++ ts) x).1
      obtain ⟨t2, e2⟩ := step x t1 (betaRange c w b (existCuts c w b rl ru ++ ts) x).2
      rw [e1, e2]
      exact ih t2
  exact loop vs []

example : (∃ ts, strengthenReluMip (0 : ℚ) [1, 2] (-1) [-1, -1] [1, 1] (-4) 2 false = some ts) ∧
    ∃ ts, strengthenReluMip (1 / 10 : ℚ) [1, 2] (-1) [-1, -1] [1, 1] (-3) 1 true = some ts := by
  constructor
  · apply C62_accepts_all <;> decide +kernel
  · apply C62_accepts_selective <;> decide +kernel

/-! ### C38 -/

/-- **C38**: the losses exist exactly for batches of the same size and an `R` that fits. -/
theorem C38_accepts (L : Lyap K) (xs xn : List (Vec K)) (xe : Vec K) (lam eps c : K) (et : EpsType)
    (R : Option (Tensor2 K)) (margin : K) :
    ((L.positivityHinge xs xe lam eps R margin).isSome ↔ ∀ T, R = some T → T.cols = L.dim) ∧
    ((L.derivativeHinge xs xn xe lam eps et R margin).isSome ↔
      xs.length = xn.length ∧ ∀ T, R = some T → T.cols = L.dim) ∧
    ((L.barrierHinge xs xn xe c eps margin).isSome ↔ 0 < c ∧ xs.length = xn.length) := by
  refine ⟨?_, ?_, ?_⟩
  · cases R with
    | none => simp [Lyap.positivityHinge, getR, Lyap.values]
    | some T => by_cases h : T.cols = L.dim <;> simp [Lyap.positivityHinge, getR, Lyap.values, h]
  · by_cases hl : xs.length = xn.length
    · cases R with
      | none => simp [Lyap.derivativeHinge, getR, Lyap.values, hl]
      | some T => by_cases h : T.cols = L.dim <;> simp [Lyap.derivativeHinge, getR, Lyap.values, h, hl]
    · simp [Lyap.derivativeHinge, hl]
  · unfold Lyap.barrierHinge
    split_ifs with h
    · simpa using h
    · simpa using h

/-! ### C42 -/

/-- **C42**: the constraints of an autonomous system exist if the modes are bounded and one of them is not empty. -/
theorem C42_auto_available {lp : LpSolver K} (ht : lp.Truthful) {n : ℕ} {S : AutoHybrid K} (hS : ABuilt lp n S)
    (hb : ∀ md ∈ S.modes, ∃ M, ∀ w : Vec K, w.length = n → InPoly md.P md.q w →
      ∀ j, j < n → -M ≤ w.getD j 0 ∧ w.getD j 0 ≤ M)
    (hne : ∃ md ∈ S.modes, ∃ w : Vec K, w.length = n ∧ InPoly md.P md.q w) :
    ∃ c, S.mic none none = some c := by
  have R := C44_auto_recorded ht hS
  have hall : ∀ l : List (AMode K), (∀ md ∈ l, ∃ M, ∀ w : Vec K, w.length = n → InPoly md.P md.q w →
      ∀ j, j < n → -M ≤ w.getD j 0 ∧ w.getD j 0 ≤ M) →
      ∃ M, ∀ md ∈ l, ∀ w : Vec K, w.length = n → InPoly md.P md.q w →
      ∀ j, j < n → -M ≤ w.getD j 0 ∧ w.getD j 0 ≤ M := by
    intro l
    induction l with
    | nil => exact fun _ => ⟨0, by simp⟩
    | cons a l ih =>
      intro h
      obtain ⟨M1, h1⟩ := h a (by simp)
      obtain ⟨M2, h2⟩ := ih fun md hmd => h md (by simp [hmd])
      refine ⟨max M1 M2, fun md hmd w hw hP j hj => ?_⟩
      have m1 := le_max_left M1 M2
      have m2 := le_max_right M1 M2
      rcases List.mem_cons.1 hmd with rfl | hmd
      · have := h1 w hw hP j hj
        constructor <;> linarith
      · have := h2 md hmd w hw hP j hj
        constructor <;> linarith
  obtain ⟨M, hM⟩ := hall S.modes hb
  obtain ⟨md, hmd, w, hw, hP⟩ := hne
  have hmem : ∀ j, w.getD j 0 ∈ coords (S.modes.map AMode.toH) n j :=
    fun j => ⟨md.toH, List.mem_map_of_mem hmd, w, hw, hP, rfl⟩
  have hin : ∀ j, j < n → ∀ v ∈ coords (S.modes.map AMode.toH) n j, -M ≤ v ∧ v ≤ M := by
    rintro j hj v ⟨md, hmd, w, hw, hP, rfl⟩
    obtain ⟨a, ha, rfl⟩ := List.mem_map.1 hmd
    exact hM a ha w hw hP j hj
  have flo : ∀ j, j < n → ∃ v, S.loAll.getD j ⊤ = Ext.fin v := by
    intro j hj
    have hinf := R.inf j hj
    rcases ext_cases (S.loAll.getD j ⊤) with e | e | e
    · rw [e] at hinf
      exact absurd ⟨-M, fun v hv => (hin j hj v hv).1⟩ hinf.bot
    · rw [e] at hinf
      have := hmem j
      rw [hinf.top] at this
      cases this
    · exact e
  have fup : ∀ j, j < n → ∃ v, S.upAll.getD j ⊥ = Ext.fin v := by
    intro j hj
    have hsup := R.sup j hj
    rcases ext_cases (S.upAll.getD j ⊥) with e | e | e
    · rw [e] at hsup
      have := hmem j
      rw [hsup.bot] at this
      cases this
    · rw [e] at hsup
      exact absurd ⟨M, fun v hv => (hin j hj v hv).2⟩ hsup.top
    · exact e
  obtain ⟨lo, hlo⟩ := finVec_isSome S.loAll (by rw [R.lenLo]; exact flo)
  obtain ⟨up, hup⟩ := finVec_isSome S.upAll (by
    rw [R.lenUp]
    intro i hi
    obtain ⟨v, hv⟩ := fup i hi
    refine ⟨v, ?_⟩
    rw [← hv]
    simp [List.getD, R.lenUp, hi])
  have hle : ∀ j, j < n + 0 → lo.getD j 0 ≤ up.getD j 0 := by
    intro j hj
    rw [add_zero] at hj
    have a := (R.inf j hj).1.1 ⟨_, hmem j, rfl⟩
    have b := (R.sup j hj).1.1 ⟨_, hmem j, rfl⟩
    rw [fin_getD hlo j (by rw [R.lenLo]; exact hj), fin_le_fin] at a
    rw [fin_getD hup j (by rw [R.lenUp]; exact hj), fin_le_fin] at b
    exact le_trans a b
  have hne' : S.modes.map AMode.toH ≠ [] := by
    intro h
    rw [List.map_eq_nil_iff] at h
    rw [h] at hmd
    cases hmd
  obtain ⟨c, hc⟩ := hybridMIC_isSome hne' hle
  refine ⟨c, ?_⟩
  unfold AutoHybrid.mic
  rw [if_pos (by simp [boundsOrdered])]
  simp only [tighten, Option.bind_eq_bind, Option.bind_some, hlo, hup, R.xdim, hc]

/-- The two modes of the example are bounded. -/
example : ∃ c, exAuto.mic none none = some c := by
  refine C42_auto_available exactLp_truthful exAuto_built ?_
    ⟨exModeB, by simp [exAuto], [1 / 2], rfl, by rw [← polyHas_iff]; decide +kernel⟩
  intro md hmd
  refine ⟨1, fun w hw hP j hj => ?_⟩
  obtain rfl : j = 0 := by omega
  match w, hw with
  | [a], _ =>
    simp only [exAuto, List.mem_cons, List.not_mem_nil, or_false] at hmd
    rcases hmd with rfl | rfl <;>
    · have h0 := hP 0 (by decide)
      have h1 := hP 1 (by decide)
      simp [exModeA, exModeB, dot] at h0 h1
      simp
      constructor <;> linarith

/-! ### C54 -/

/-- **C54**: `setup_relu` returns for at least two widths and enough parameters. -/
theorem C54_accepts (a : K) (β : Bool) (ws : List ℕ) (params : Vec K) (h : 2 ≤ ws.length)
    (hp : numWidths β ws ≤ params.length) : (setupRelu a β ws params).isSome := by
  obtain ⟨t, h, -⟩ := setup_freshNet a β ws params h hp
  rw [h]
  rfl

example : (setupRelu (1 / 10 : ℚ) true [2, 2, 1] [1, 2, 3, 4, 5, 6, 7, 8, 9]).isSome := C54_accepts _ _ _ _ (by decide) (by decide)

end NNL.Props
