import Mathlib.Data.List.MinMax
import Mathlib.Data.List.FinRange
import Mathlib.Data.Real.Basic
import Mathlib.Algebra.Order.WithTop.Untop0

/-!
# Value iteration on a grid (examples/car/value_iteration.py)

Costs are real numbers or `np.inf` (`⊤`). Printing is not modelled.
-/

namespace NNL.Model

variable {n : ℕ} {U : Type*}

/-- `discount_factor * V[j]` for a positive factor: infinity stays infinity. -/
noncomputable def discounted (γ : ℝ) (v : WithTop ℝ) : WithTop ℝ := v.map (γ * ·)

/-- value_iteration.py 34: `np.argmin(r[i, :] + discount_factor * V)`, the first index of the minimum. The list contains `i`, so there
is a minimum. -/
noncomputable def lookaheadArg (γ : ℝ) (r : Fin n → Fin n → WithTop ℝ) (V : Fin n → WithTop ℝ) (i : Fin n) : Fin n :=
  ((List.finRange n).argmin fun j => r i j + discounted γ (V j)).getD i

/-- value_iteration.py 35: the value at the minimum. -/
noncomputable def lookahead (γ : ℝ) (r : Fin n → Fin n → WithTop ℝ) (V : Fin n → WithTop ℝ) (i : Fin n) : WithTop ℝ :=
  r i (lookaheadArg γ r V i) + discounted γ (V (lookaheadArg γ r V i))

/-- `abs(a - b)` of two different values: infinite if one of them is. -/
noncomputable def absDiff : WithTop ℝ → WithTop ℝ → WithTop ℝ
  | some a, some b => some |a - b|
  | _, _ => ⊤

/-- `V`, `policy` and `delta`. -/
structure SweepState (n : ℕ) (U : Type*) where
  V : Fin n → WithTop ℝ
  policy : Fin n → U
  delta : WithTop ℝ

/-- value_iteration.py 53-62: the body of the loop over the states. -/
noncomputable def sweepStep (γ : ℝ) (r : Fin n → Fin n → WithTop ℝ) (u : Fin n → Fin n → U) (s : SweepState n U) (i : Fin n) :
    SweepState n U where
  V := Function.update s.V i (lookahead γ r s.V i)
  policy := Function.update s.policy i (u i (lookaheadArg γ r s.V i))
  delta := if lookahead γ r s.V i ≠ s.V i then max s.delta (absDiff (lookahead γ r s.V i) (s.V i)) else s.delta

/-- value_iteration.py 47-62: one pass over all states. -/
noncomputable def sweep (γ : ℝ) (r : Fin n → Fin n → WithTop ℝ) (u : Fin n → Fin n → U) (V : Fin n → WithTop ℝ) (policy : Fin n → U) :
    SweepState n U :=
  (List.finRange n).foldl (sweepStep γ r u) ⟨V, policy, 0⟩

open Classical in
/-- value_iteration.py 45-69: the `while` loop, with at most `fuel` passes (`none` if it is not left by then). -/
noncomputable def valueIterationLoop (γ ε : ℝ) (r : Fin n → Fin n → WithTop ℝ) (u : Fin n → Fin n → U) :
    ℕ → (Fin n → WithTop ℝ) → (Fin n → U) → Option ((Fin n → WithTop ℝ) × (Fin n → U))
  | 0, _, _ => none
  | fuel + 1, V, policy =>
    let s := sweep γ r u V policy
    if s.delta < (ε : WithTop ℝ) then some (s.V, s.policy) else valueIterationLoop γ ε r u fuel s.V s.policy

/-- value_iteration.py 16-69 `value_iteration`; `u0` is the zero control that fills `policy` at the start. -/
noncomputable def valueIteration (γ ε : ℝ) (r : Fin n → Fin n → WithTop ℝ) (u : Fin n → Fin n → U) (u0 : U) (fuel : ℕ) :
    Option ((Fin n → WithTop ℝ) × (Fin n → U)) :=
  valueIterationLoop γ ε r u fuel (fun _ => 0) fun _ => u0

/-- value_iteration.py 198-202 `flat_to_3d`; `na` is `n_grid_angle`, `nxy` is `n_grid_xy`. -/
def flatTo3d (na nxy : ℕ) (i : ℕ) : ℕ × ℕ × ℕ :=
  let i0 := i / (na * nxy)
  let i1 := (i - na * nxy * i0) / na
  let i2 := i - na * nxy * i0 - na * i1
  (i0, i1, i2)

/-- value_iteration.py 205-206 `threeD_to_flat`. -/
def threeDToFlat (na nxy : ℕ) (i0 i1 i2 : ℕ) : ℕ := na * nxy * i0 + na * i1 + i2

end NNL.Model
