import Verif.Model.LpCost
import Verif.Basic.Vec
import Mathlib.Tactic.IntervalCases
import Mathlib.Tactic.Linarith
import Mathlib.Tactic.NormNum

/-!
# C104: the optimal cost of a linear program from its active rows
-/

set_option linter.unusedSectionVars false

namespace NNL.Props

open NNL NNL.Model

variable {K : Type*} [Field K] [LinearOrder K] [IsStrictOrderedRing K]

/-- `x` is feasible. -/
def LpFeas (n : ℕ) (A : Mat K) (b : Vec K) (Aeq : Mat K) (beq : Vec K) (x : Vec K) : Prop :=
  x.length = n ∧ (∀ i < A.length, dot (A.getD i []) x ≤ b.getD i 0) ∧ matVec Aeq x = beq

/-- `x` is an optimal solution of `max c x` subject to the constraints. -/
def LpOpt (n : ℕ) (c : Vec K) (A : Mat K) (b : Vec K) (Aeq : Mat K) (beq : Vec K) (x : Vec K) : Prop :=
  LpFeas n A b Aeq beq x ∧ ∀ y, LpFeas n A b Aeq beq y → dot c y ≤ dot c x

/-- `inv` returns left inverses. -/
def LeftInv (n : ℕ) (inv : Mat K → Option (Mat K)) : Prop :=
  ∀ M B, inv M = some B → ∀ x : Vec K, x.length = n → matVec B (matVec M x) = x

theorem mem_activeRows {tol : K} {A : Mat K} {b x : Vec K} {i : ℕ} :
    i ∈ activeRows tol A b x ↔ i < A.length ∧ b.getD i 0 - dot (A.getD i []) x < tol := by
  simp only [activeRows, List.mem_filter, List.mem_range, decide_eq_true_eq]

/-- C104. If the solver finds an optimal solution at which the rows within the tolerance are tight, and the function returns, it returns
the optimal cost. Missing: it raises if more than one inequality is active, see `C104_raises`. -/
theorem C104_cost_partial {n : ℕ} {inv : Mat K → Option (Mat K)} (hinv : LeftInv n inv) {tol : K} {c : Vec K} {d : K} {A : Mat K} {b : Vec K}
    {Aeq : Mat K} {beq : Vec K} {x : Vec K} (hx : LpOpt n c A b Aeq beq x)
    (ht : ∀ i < A.length, b.getD i 0 - dot (A.getD i []) x < tol → dot (A.getD i []) x = b.getD i 0) {res : Option K}
    (h : linearProgramCost inv tol c d A b Aeq beq (some x) = some res) :
    ∃ v, res = some v ∧ v = dot c x + d ∧ ∀ y, LpFeas n A b Aeq beq y → dot c y + d ≤ v := by
  have key : ∀ M w, fillActive A b Aeq beq (activeRows tol A b x) = some (M, w) → matVec M x = w := by
    intro M w hf
    rcases hl : activeRows tol A b x with - | ⟨i, - | ⟨j, l⟩⟩
    · rw [hl] at hf
      simp only [fillActive, Option.some.injEq, Prod.mk.injEq] at hf
      rw [← hf.1, ← hf.2]
      exact hx.1.2.2
    · rw [hl] at hf
      simp only [fillActive, Option.some.injEq, Prod.mk.injEq] at hf
      have hi : i ∈ activeRows tol A b x := by simp [hl]
      rw [mem_activeRows] at hi
      rw [← hf.1, ← hf.2, matVec, List.map_append, List.map_singleton, ht i hi.1 hi.2]
      congr 1
      exact hx.1.2.2
    · rw [hl] at hf
      cases hf
  simp only [linearProgramCost, Option.bind_eq_bind] at h
  rcases hf : fillActive A b Aeq beq (activeRows tol A b x) with - | ⟨M, w⟩
  · simp [hf] at h
  · simp only [hf, Option.bind_some] at h
    rcases hB : inv M with - | B
    · simp [hB] at h
    · simp only [hB, Option.bind_some, Option.some.injEq] at h
      rw [← key M w hf, hinv M B hB x hx.1.1] at h
      exact ⟨_, h.symm, rfl, fun y hy => by linarith [hx.2 y hy]⟩

/-- C104. The function returns a value if at most one inequality is active and the active rows (the equalities and this inequality) can be
inverted. -/
theorem C104_returns_partial (inv : Mat K → Option (Mat K)) (tol : K) (c : Vec K) (d : K) (A : Mat K) (b : Vec K) (Aeq : Mat K) (beq : Vec K)
    (x : Vec K) (h1 : ∀ i j, i < A.length → j < A.length → b.getD i 0 - dot (A.getD i []) x < tol →
      b.getD j 0 - dot (A.getD j []) x < tol → i = j)
    (hinv : ∀ l : List ℕ, l.Nodup → (∀ i, i ∈ l ↔ i < A.length ∧ b.getD i 0 - dot (A.getD i []) x < tol) →
      (inv (Aeq ++ l.map (A.getD · []))).isSome) : ∃ v, linearProgramCost inv tol c d A b Aeq beq (some x) = some (some v) := by
  have hn : (activeRows tol A b x).Nodup := List.nodup_range.filter _
  have hs := hinv _ hn fun i => mem_activeRows
  rcases hl : activeRows tol A b x with - | ⟨i, - | ⟨j, l⟩⟩
  · rw [hl] at hs
    obtain ⟨B, hB⟩ := Option.isSome_iff_exists.1 hs
    simp only [List.map_nil, List.append_nil] at hB
    exact ⟨dot c (matVec B beq) + d, by simp [linearProgramCost, hl, fillActive, hB]⟩
  · rw [hl] at hs
    obtain ⟨B, hB⟩ := Option.isSome_iff_exists.1 hs
    simp only [List.map_cons, List.map_nil] at hB
    refine ⟨dot c (matVec B (beq ++ [b.getD i 0])) + d, ?_⟩
    simp only [linearProgramCost, hl, fillActive, Option.bind_eq_bind, Option.bind_some, hB]
  · have mi : i ∈ activeRows tol A b x := by simp [hl]
    have mj : j ∈ activeRows tol A b x := by simp [hl]
    rw [mem_activeRows] at mi mj
    have := h1 i j mi.1 mj.1 mi.2 mj.2
    rw [hl, this] at hn
    simp at hn

/-- C104 (contradicted). With two active inequalities the function raises, although the program has an optimal solution. -/
theorem C104_raises (inv : Mat K → Option (Mat K)) {tol : K} (htol : 0 < tol) (c : Vec K) (d : K) (A : Mat K) (b : Vec K) (Aeq : Mat K)
    (beq : Vec K) (x : Vec K) {i j : ℕ} (hij : i ≠ j) (hi : i < A.length) (hj : j < A.length) (ei : dot (A.getD i []) x = b.getD i 0)
    (ej : dot (A.getD j []) x = b.getD j 0) : linearProgramCost inv tol c d A b Aeq beq (some x) = none := by
  have mi : i ∈ activeRows tol A b x := by
    rw [mem_activeRows, ei, sub_self]
    exact ⟨hi, htol⟩
  have mj : j ∈ activeRows tol A b x := by
    rw [mem_activeRows, ej, sub_self]
    exact ⟨hj, htol⟩
  have hn : fillActive A b Aeq beq (activeRows tol A b x) = none := by
    rcases hl : activeRows tol A b x with - | ⟨k, - | ⟨k', l⟩⟩
    · simp [hl] at mi
    · simp only [hl, List.mem_singleton] at mi mj
      exact absurd (mi.trans mj.symm) hij
    · rfl
  simp [linearProgramCost, hn]

/-- C104. Without an optimal solution the function returns `None`. -/
theorem C104_none (inv : Mat K → Option (Mat K)) (tol : K) (c : Vec K) (d : K) (A : Mat K) (b : Vec K) (Aeq : Mat K) (beq : Vec K) :
    linearProgramCost inv tol c d A b Aeq beq none = some none := rfl

/-! ### Concrete cases -/

namespace LpCostExample

/-- The inverse of `[[1, 1], [1, 0]]`. -/
def inv (M : Mat ℚ) : Option (Mat ℚ) := if M = [[1, 1], [1, 0]] then some [[0, 1], [1, -1]] else none

/-- `max 2 x + y + 1` subject to `x + y = 3`, `x ≤ 1`, `y ≤ 9`: the cost is 5. -/
example : linearProgramCost inv (1 / 100000) [2, 1] 1 [[1, 0], [0, 1]] [1, 9] [[1, 1]] [3] (some [1, 2]) = some (some 5) := by
  decide +kernel

theorem inv_left : LeftInv 2 inv := by
  intro M B h x hx
  unfold inv at h
  split_ifs at h with hM
  subst hM
  rw [Option.some.injEq] at h
  subst h
  match x, hx with
  | [a, b], _ => simp [matVec, dot]

theorem opt : LpOpt (2 : ℕ) [2, 1] [[1, 0], [0, 1]] [(1 : ℚ), 9] [[1, 1]] [3] [1, 2] := by
  refine ⟨⟨rfl, ?_, by norm_num [matVec, dot]⟩, ?_⟩
  · intro i hi
    have : i < 2 := hi
    interval_cases i <;> norm_num [dot]
  · rintro y ⟨hy, h1, h2⟩
    match y, hy with
    | [a, b], _ =>
      have e1 := h1 0 (by simp)
      simp [matVec, dot] at h2 e1 ⊢
      linarith

example : ∃ v, linearProgramCost inv (1 / 100000) [2, 1] 1 [[1, 0], [0, 1]] [1, 9] [[1, 1]] [3] (some [1, 2]) = some (some v) ∧
    ∀ y, LpFeas 2 [[1, 0], [0, 1]] [1, 9] [[1, 1]] [3] y → dot [2, 1] y + 1 ≤ v := by
  have e : linearProgramCost inv (1 / 100000) [2, 1] 1 [[1, 0], [0, 1]] [1, 9] [[1, 1]] [3] (some [1, 2]) = some (some 5) := by
    decide +kernel
  obtain ⟨v, h1, -, h3⟩ := C104_cost_partial inv_left opt (by
    intro i hi
    have : i < 2 := hi
    interval_cases i <;> norm_num [dot]) e
  exact ⟨v, by rw [e, h1], h3⟩

/-- The unit square: at its corner two inequalities are active. -/
example (inv : Mat ℚ → Option (Mat ℚ)) :
    linearProgramCost inv (1 / 100000) [1, 1] 0 [[1, 0], [0, 1]] [1, 1] [] [] (some [1, 1]) = none :=
  C104_raises inv (by norm_num) _ _ _ _ _ _ _ (i := 0) (j := 1) (by decide) (by decide) (by decide) (by norm_num [dot]) (by norm_num [dot])

end LpCostExample

end NNL.Props
