import Verif.Lemmas.ExampleSystems

/-!
# Changing the output and adding rows to a constraint set
-/

set_option linter.unusedSectionVars false

namespace NNL.Model

open NNL NNL.Props NNL.Spec

variable {K : Type*} [Field K] [LinearOrder K] [IsStrictOrderedRing K]

/-- Another output keeps the constraint set usable. -/
theorem set_out {c : MIC K} {n p : ℕ} (hr : c.Ready n) (hAb0 : c.Aout_binary = none) {Ai As : Tensor2 K}
    {Ab : Option (Tensor2 K)} {C : Vec K} (hAi : ShapeIs (some Ai) p n) (hAs : ShapeIs (some As) p c.numSlack)
    (hAb : ShapeIs Ab p c.numBinary) (hC : C.length = p) {c' : MIC K}
    (hc' : c' = { c with Aout_input := some Ai, Aout_slack := some As, Aout_binary := Ab, Cout := some C }) :
    c'.Ready n ∧ c'.numOut = p ∧ c'.numSlack = c.numSlack ∧ c'.numBinary = c.numBinary ∧
      ∀ x s z, c'.Feas x s z ↔ c.Feas x s z := by
  have e1 : c'.numInput = n := by subst hc'; exact (hAi Ai rfl).2.1
  have e2 : c'.numSlack = c.numSlack := by subst hc'; exact (hAs As rfl).2.1
  have e3 : c'.numBinary = c.numBinary := by
    subst hc'
    cases Ab with
    | none => simp [MIC.numBinary, hAb0]
    | some B => exact (hAb B rfl).2.1
  have e4 : c'.numOut = p := by subst hc'; exact (hAi Ai rfl).1
  have i1 := hr.sized.input
  have sh := hr.sized.shaped
  refine ⟨⟨⟨?_, e1, ?_, ?_⟩, ?_, ?_⟩, e4, e2, e3, ?_⟩
  · constructor
    · rw [e4, e1]; subst hc'; exact hAi
    · rw [e4, e2]; subst hc'; exact hAs
    · rw [e4, e3]; subst hc'; exact hAb
    · rw [e4]
      subst hc'
      intro v hv
      simp only [Option.some.injEq] at hv
      subst hv
      exact hC
    · rw [e1, ← i1]; subst hc'; exact sh.ain_x
    · rw [e2]; subst hc'; exact sh.ain_s
    · rw [e3]; subst hc'; exact sh.ain_z
    · subst hc'; exact sh.ain_rhs
    · rw [e1, ← i1]; subst hc'; exact sh.aeq_x
    · rw [e2]; subst hc'; exact sh.aeq_s
    · rw [e3]; subst hc'; exact sh.aeq_z
    · subst hc'; exact sh.aeq_rhs
  · rw [e2, ← hr.sized.slack]; subst hc'; rfl
  · rw [e3, ← hr.sized.binary]; subst hc'; rfl
  · have hl := hr.lens
    constructor
    · rw [e1, ← i1]; subst hc'; exact hl.ilo
    · rw [e1, ← i1]; subst hc'; exact hl.iup
    · rw [e2]; subst hc'; exact hl.slo
    · rw [e2]; subst hc'; exact hl.sup
    · rw [e3]; subst hc'; exact hl.blo
    · rw [e3]; subst hc'; exact hl.bup
  · have hr := hr.rows
    exact ⟨by subst hc'; exact hr.ineq, by subst hc'; exact hr.eq⟩
  · intro x s z
    constructor
    · rintro ⟨a, b, c, d, e⟩
      rw [e2] at a
      rw [e3] at b
      subst hc'
      exact ⟨a, b, c, d, e⟩
    · rintro ⟨a, b, c, d, e⟩
      rw [← e2] at a
      rw [← e3] at b
      subst hc'
      exact ⟨a, b, c, d, e⟩

theorem holds_iff (c : MIC K) (x s z : Vec K) : c.Holds x s z ↔
    (∀ i, i < c.numIneq → dot (mrow c.Ain_input i) x + dot (mrow c.Ain_slack i) s + dot (mrow c.Ain_binary i) z ≤
      (c.rhs_in.getD []).getD i 0) ∧ ∀ r ∈ c.eqRows, r.val x s z = r.rhs := by
  unfold MIC.Holds
  refine and_congr ?_ Iff.rfl
  unfold MIC.ineqRows blockRows MIC.numIneq
  simp only [List.mem_map, List.mem_range]
  constructor
  · intro h i hi
    exact h _ ⟨i, hi, rfl⟩
  · rintro h r ⟨i, hi, rfl⟩
    exact h i hi

/-- Additional inequalities on the inputs. -/
theorem add_ineq {c : MIC K} {n : ℕ} (hr : c.Ready n) {Ai As Ab : Tensor2 K} {b : Vec K} (hAi : c.Ain_input = some Ai)
    (hAs : c.Ain_slack = some As) (hAb : c.Ain_binary = some Ab) (hb : c.rhs_in = some b) {R : Mat K} {w : Vec K}
    (hR : ∀ r ∈ R, r.length = n) (hw : w.length = R.length) {c' : MIC K}
    (hc' : c' = { c with
      Ain_input := some ⟨Ai.cols, Ai.rows ++ R⟩
      Ain_slack := some ⟨As.cols, As.rows ++ zerosM R.length c.numSlack⟩
      Ain_binary := some ⟨Ab.cols, Ab.rows ++ zerosM R.length c.numBinary⟩
      rhs_in := some (b ++ w) }) :
    c'.Ready n ∧ c'.numOut = c.numOut ∧ c'.numSlack = c.numSlack ∧ c'.numBinary = c.numBinary ∧
      ∀ x s z, c'.Feas x s z ↔ c.Feas x s z ∧ ∀ i, i < R.length → dot (R.getD i []) x ≤ w.getD i 0 := by
  have sh := hr.sized.shaped
  have i1 := hr.sized.input
  obtain ⟨q1, q2, q3⟩ := sh.ain_x Ai hAi
  obtain ⟨p1, p2, p3⟩ := sh.ain_s As hAs
  obtain ⟨t1, t2, t3⟩ := sh.ain_z Ab hAb
  have nb : c.numIneq = b.length := by simp [MIC.numIneq, hb]
  have e1 : c'.numInput = n := by
    rw [← i1]
    subst hc'
    cases h : c.Aout_input <;> simp [MIC.numInput, numVar, h, hAi]
  have e2 : c'.numSlack = c.numSlack := by
    subst hc'
    cases h : c.Aout_slack <;> simp [MIC.numSlack, numVar, h, hAs]
  have e3 : c'.numBinary = c.numBinary := by
    subst hc'
    cases h : c.Aout_binary <;> simp [MIC.numBinary, numVar, h, hAb]
  have e4 : c'.numOut = c.numOut := by subst hc'; rfl
  have e5 : c'.numIneq = b.length + R.length := by subst hc'; simp [MIC.numIneq, hw]
  refine ⟨⟨⟨?_, e1, ?_, ?_⟩, ?_, ?_⟩, e4, e2, e3, ?_⟩
  · constructor
    · rw [e4, e1, ← i1]; subst hc'; exact sh.aout_x
    · rw [e4, e2]; subst hc'; exact sh.aout_s
    · rw [e4, e3]; subst hc'; exact sh.aout_z
    · rw [e4]; subst hc'; exact sh.cout
    · rw [e5, e1]
      subst hc'
      rintro M ⟨⟩
      refine ⟨by simp [q1, nb], by rw [← i1]; exact q2, fun r hr => ?_⟩
      rcases List.mem_append.1 hr with h | h
      · exact q3 r h
      · show r.length = Ai.cols
        rw [hR r h, q2, i1]
    · rw [e5, e2]
      subst hc'
      rintro M ⟨⟩
      refine ⟨by simp [p1, nb, zerosM], p2, fun r hr => ?_⟩
      rcases List.mem_append.1 hr with h | h
      · exact p3 r h
      · simp only [zerosM, List.mem_replicate] at h
        rw [h.2, length_zeros]
        exact p2.symm
    · rw [e5, e3]
      subst hc'
      rintro M ⟨⟩
      refine ⟨by simp [t1, nb, zerosM], t2, fun r hr => ?_⟩
      rcases List.mem_append.1 hr with h | h
      · exact t3 r h
      · simp only [zerosM, List.mem_replicate] at h
        rw [h.2, length_zeros]
        exact t2.symm
    · subst hc'; simp
    · rw [e1, ← i1]; subst hc'; exact sh.aeq_x
    · rw [e2]; subst hc'; exact sh.aeq_s
    · rw [e3]; subst hc'; exact sh.aeq_z
    · subst hc'; exact sh.aeq_rhs
  · rw [e2, ← hr.sized.slack]; subst hc'; simp [MIC.slackSize, varSize, hAs]
  · rw [e3, ← hr.sized.binary]; subst hc'; simp [MIC.binSize, varSize, hAb]
  · have hl := hr.lens
    constructor
    · rw [e1, ← i1]; subst hc'; exact hl.ilo
    · rw [e1, ← i1]; subst hc'; exact hl.iup
    · rw [e2]; subst hc'; exact hl.slo
    · rw [e2]; subst hc'; exact hl.sup
    · rw [e3]; subst hc'; exact hl.blo
    · rw [e3]; subst hc'; exact hl.bup
  · exact ⟨by subst hc'; simp, by subst hc'; exact hr.rows.eq⟩
  · intro x s z
    have hrows : c'.Holds x s z ↔ c.Holds x s z ∧ ∀ i, i < R.length → dot (R.getD i []) x ≤ w.getD i 0 := by
      rw [holds_iff, holds_iff, e5, nb]
      have eqr : c'.eqRows = c.eqRows := by subst hc'; rfl
      rw [eqr]
      have a1 : ∀ i, i < b.length → dot (mrow c'.Ain_input i) x + dot (mrow c'.Ain_slack i) s +
          dot (mrow c'.Ain_binary i) z = dot (mrow c.Ain_input i) x + dot (mrow c.Ain_slack i) s +
          dot (mrow c.Ain_binary i) z ∧ (c'.rhs_in.getD []).getD i 0 = (c.rhs_in.getD []).getD i 0 := by
        intro i hi
        subst hc'
        simp only [mrow, hAi, hAs, hAb, hb, Option.getD_some]
        rw [getD_append_lt _ _ _ _ (by omega), getD_append_lt _ _ _ _ (by omega), getD_append_lt _ _ _ _ (by omega),
          getD_append_lt _ _ _ _ hi]
        exact ⟨rfl, rfl⟩
      have a2 : ∀ i, i < R.length → dot (mrow c'.Ain_input (b.length + i)) x + dot (mrow c'.Ain_slack (b.length + i)) s +
          dot (mrow c'.Ain_binary (b.length + i)) z = dot (R.getD i []) x ∧
          (c'.rhs_in.getD []).getD (b.length + i) 0 = w.getD i 0 := by
        intro i hi
        subst hc'
        have zr : ∀ k, (zerosM R.length k : Mat K).getD i [] = zeros k := by
          intro k
          simp [zerosM, List.getD, hi]
        simp only [mrow, Option.getD_some]
        rw [← nb, ← q1, getD_append_add, q1, ← p1, getD_append_add, p1, ← t1, getD_append_add, t1, nb, getD_append_add,
          zr, zr]
        simp
      constructor
      · rintro ⟨h, he⟩
        refine ⟨⟨fun i hi => ?_, he⟩, fun i hi => ?_⟩
        · rw [← (a1 i hi).1, ← (a1 i hi).2]
          exact h i (by omega)
        · rw [← (a2 i hi).1, ← (a2 i hi).2]
          exact h _ (by omega)
      · rintro ⟨⟨h, he⟩, h'⟩
        refine ⟨fun i hi => ?_, he⟩
        rcases Nat.lt_or_ge i b.length with q | q
        · rw [(a1 i q).1, (a1 i q).2]
          exact h i q
        · obtain ⟨j, rfl⟩ := Nat.exists_eq_add_of_le q
          rw [(a2 j (by omega)).1, (a2 j (by omega)).2]
          exact h' j (by omega)
    have hbd : c'.BoundsHold x s z ↔ c.BoundsHold x s z := by subst hc'; exact Iff.rfl
    constructor
    · rintro ⟨k1, k2, k3, k4, k5⟩
      obtain ⟨g1, g2⟩ := hrows.1 k4
      exact ⟨⟨by rw [k1, e2], by rw [k2, e3], k3, g1, hbd.1 k5⟩, g2⟩
    · rintro ⟨⟨k1, k2, k3, k4, k5⟩, g⟩
      exact ⟨by rw [k1, e2], by rw [k2, e3], k3, hrows.2 ⟨k4, g⟩, hbd.2 k5⟩

/-- The fields that `transform_input` keeps. -/
theorem transform_keeps {c c' : MIC K} {A : Tensor2 K} {b : Vec K} (h : c.transformInput A b = some c')
    (ho : c.Aout_input = none) : c'.Aout_slack = c.Aout_slack ∧ c'.Aout_binary = c.Aout_binary ∧ c'.Cout = c.Cout ∧
      c'.Aout_input = none ∧ c'.Ain_slack = c.Ain_slack ∧ c'.Ain_binary = c.Ain_binary ∧
      (c.Ain_input.isSome → ∃ M, c'.Ain_input = some M ∧ M.cols = A.cols) ∧ (c.rhs_in.isSome → c'.rhs_in.isSome) := by
  unfold MIC.transformInput at h
  split at h
  · rename_i i e o e1 e2 e3
    simp only [Option.some.injEq] at h
    subst h
    rw [ho] at e3
    simp only [transformOut, Option.some.injEq] at e3
    subst e3
    refine ⟨rfl, rfl, rfl, rfl, rfl, rfl, ?_, ?_⟩
    all_goals
      unfold transformRows at e1
      split at e1
      all_goals first
        | (split at e1)
        | skip
      all_goals simp_all
    all_goals (try (obtain ⟨rfl⟩ := e1; simp))
  · cases h

end NNL.Model
