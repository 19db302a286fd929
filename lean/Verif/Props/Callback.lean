import Verif.Model.Callback
import Verif.Props.Trainer

/-!
C110: stopping the solver early does not change the verdict, if the threshold is not below the tolerance.
-/

namespace NNL.Props

open NNL NNL.Model NNL.Spec

set_option linter.unusedSectionVars false

variable {K : Type} [Field K] [LinearOrder K] [IsStrictOrderedRing K]

/-- What the solver is trusted for, when it maximises over a program with the objective values `vals`: every
`ObjVal` is the objective of a feasible point; at the end it is the maximum; a solution that has been found is not
lost when the solver is stopped. -/
structure RunOk (vals : Set K) (r : SolverRun K) : Prop where
  end_mem : r.objEnd ∈ vals
  end_max : ∀ v ∈ vals, v ≤ r.objEnd
  at_mem : ∀ (k : ℕ) e, r.events[k]? = some e → 0 < e.solCnt → r.objAt k ∈ vals
  at_best : ∀ (k : ℕ) e, r.events[k]? = some e → 0 < e.solCnt → e.objBst ≤ r.objAt k

/-- The callback stops the solver exactly at a node whose relaxation is solved, when a solution has been found and
the best one is above the threshold. -/
theorem C110_callback (t : K) (e : CbEvent K) :
    terminateIf t e = true ↔ e.mipNode = true ∧ 0 < e.solCnt ∧ e.optimal = true ∧ t < e.objBst := by
  unfold terminateIf
  cases e.mipNode <;> cases e.optimal <;> simp

/-- `ObjVal` is the maximum, or it is the objective of a feasible point above the threshold. -/
theorem C110_objVal {vals : Set K} {r : SolverRun K} (h : RunOk vals r) (thr : Option K) :
    r.optimize thr ∈ vals ∧
      ((∀ v ∈ vals, v ≤ r.optimize thr) ∨ ∃ t, thr = some t ∧ t < r.optimize thr) := by
  unfold SolverRun.optimize
  cases thr with
  | none => exact ⟨h.end_mem, Or.inl h.end_max⟩
  | some t =>
    simp only
    cases hf : r.events.findIdx? (terminateIf t) with
    | none => exact ⟨h.end_mem, Or.inl h.end_max⟩
    | some k =>
      obtain ⟨hk, hs, -⟩ := List.findIdx?_eq_some_iff_getElem.1 hf
      obtain ⟨-, h1, -, h2⟩ := (C110_callback t _).1 hs
      have he : r.events[k]? = some r.events[k] := List.getElem?_eq_getElem hk
      exact ⟨h.at_mem k _ he h1, Or.inr ⟨t, rfl, h2.trans_le (h.at_best k _ he h1)⟩⟩

/-- **C110**. With a threshold that is not below the tolerance, the test `ObjVal <= tol` has the same outcome as
without early termination: it succeeds exactly if no feasible point has an objective above the tolerance. -/
theorem C110_verdict {vals : Set K} {r : SolverRun K} (h : RunOk vals r) (thr : Option K) (tol : K)
    (ht : ∀ t, thr = some t → tol ≤ t) :
    (r.optimize thr ≤ tol ↔ ∀ v ∈ vals, v ≤ tol) ∧ (r.optimize thr ≤ tol ↔ r.optimize none ≤ tol) := by
  have key : ∀ thr, (∀ t, thr = some t → tol ≤ t) → (r.optimize thr ≤ tol ↔ ∀ v ∈ vals, v ≤ tol) := by
    intro thr ht
    obtain ⟨h1, h2⟩ := C110_objVal h thr
    constructor
    · intro hle v hv
      rcases h2 with h2 | ⟨t, e, hlt⟩
      · exact (h2 v hv).trans hle
      · exact absurd (hle.trans (ht t e)) (not_le.2 hlt)
    · intro hall
      exact hall _ h1
  exact ⟨key thr ht, (key thr ht).trans (key none (by simp)).symm⟩

/-- With a threshold below the tolerance the test can succeed although some feasible point has an arbitrarily large
objective: stopped at a solution between threshold and tolerance, the solver reports that one. -/
theorem C110_low_threshold_counterexample (t tol M : K) (h : t < tol) :
    ∃ (vals : Set K) (r : SolverRun K), RunOk vals r ∧ r.optimize (some t) ≤ tol ∧ ∃ v ∈ vals, M < v := by
  refine ⟨{tol, max tol (M + 1)}, ⟨[⟨true, 1, true, tol⟩], fun _ => tol, max tol (M + 1)⟩,
    ⟨by simp, ?_, ?_, ?_⟩, ?_, max tol (M + 1), by simp, ?_⟩
  · rintro v (rfl | rfl)
    · exact le_max_left _ _
    · exact le_rfl
  · intro k e _ _
    simp
  · intro k e he _
    cases k with
    | zero =>
      simp only [List.getElem?_cons_zero, Option.some.injEq] at he
      subst he
      exact le_rfl
    | succ k => simp at he
  · simp [SolverRun.optimize, terminateIf, h]
  · exact lt_max_of_lt_right (lt_add_one M)

/-- A trainer that solves its programs with the callback meets the assumption of `C56_train_certificate` and
`C56_adversarial_certificate`. -/
theorem C110_solves {W : Type} (env : Env W K) (lyap : W → Lyap K) (Rw : W → Option (Tensor2 K))
    (sys : W → SysConstr K) (xe : Vec K) (lam eps1 eps2 : K) (et : EpsType) (tP tD : Option K)
    (hp : ∀ w s w', env.solvePos w = some (s, w') → lyap w' = lyap w ∧ Rw w' = Rw w ∧ sys w' = sys w ∧
      ∃ m x r, (lyap w).positivity xe lam eps1 (Rw w) = some (m, x) ∧
        RunOk {c | ∃ v, m.Feas v ∧ m.objVal v = c} r ∧ s.objVal = r.optimize tP)
    (hd : ∀ w s w', env.solveDer w = some (s, w') → lyap w' = lyap w ∧ Rw w' = Rw w ∧ sys w' = sys w ∧
      ∃ D r, (lyap w).derivative (sys w) xe lam eps2 et (Rw w) none none .binary = some D ∧
        RunOk {c | ∃ v, D.m.Feas v ∧ D.m.objVal v = c} r ∧ s.objVal = r.optimize tD) :
    Solves env lyap Rw sys xe lam eps1 eps2 et tP tD := by
  constructor
  · intro w s w' h
    obtain ⟨a1, a2, a3, m, x, r, a4, a5, a6⟩ := hp w s w' h
    refine ⟨a1, a2, a3, m, x, a4, ?_⟩
    rw [a6]
    rcases (C110_objVal a5 tP).2 with h | h
    · exact Or.inl fun v hv => h _ ⟨v, hv, rfl⟩
    · exact Or.inr h
  · intro w s w' h
    obtain ⟨a1, a2, a3, D, r, a4, a5, a6⟩ := hd w s w' h
    refine ⟨a1, a2, a3, D, a4, ?_⟩
    rw [a6]
    rcases (C110_objVal a5 tD).2 with h | h
    · exact Or.inl fun v hv => h _ ⟨v, hv, rfl⟩
    · exact Or.inr h

/-- The hypotheses of C110 are met: maximum 3, stopped at a solution of value 2 above the threshold 1. -/
example : ∃ r : SolverRun ℚ, RunOk {1, 2, 3} r ∧ r.optimize (some 1) = 2 ∧ r.optimize none = 3 := by
  refine ⟨⟨[⟨false, 0, true, 0⟩, ⟨true, 1, true, 1⟩, ⟨true, 2, true, 2⟩], fun k => if k = 2 then 2 else 1, 3⟩,
    ⟨by simp, ?_, ?_, ?_⟩, by decide +kernel, rfl⟩
  · rintro v (rfl | rfl | rfl) <;> norm_num
  · intro k e _ _
    by_cases hk : k = 2 <;> simp [hk]
  · intro k e he hs
    match k, he with
    | 0, he => cases he; simp at hs
    | 1, he => cases he; norm_num
    | 2, he => cases he; norm_num

end NNL.Props
