import Verif.Model.ValueIteration
import Mathlib.Algebra.Order.Floor.Ring

/-!
# The costs between neighbouring grid points (examples/car/value_iteration.py)

`solve i j` is the result of the trajectory optimization from grid point `i` to grid point `j`: the optimal cost and the first control, or `none` if
the solver does not succeed. The arrays `r` and `u_optimal` are always written together, so they are one array here; an entry that is not written
(`np.inf` and `np.nan`) is `none`.
-/

namespace NNL.Model

variable {S : Type}

/-- The arrays `r` and `u_optimal`. -/
abbrev CostArr (S : Type) := ℕ → ℕ → Option S

/-- An assignment to one entry. -/
def setCell (r : CostArr S) (i j : ℕ) (v : Option S) : CostArr S := fun a b => if a = i ∧ b = j then v else r a b

/-- value_iteration.py 99-101, 156-158: `j` differs from `i` and lies in the window around it. -/
def inWindow (na nxy n0 n1 n2 i j : ℕ) : Prop :=
  let a := flatTo3d na nxy i
  let b := flatTo3d na nxy j
  i ≠ j ∧ (a.1 ≤ b.1 + n0 ∧ b.1 ≤ a.1 + n0) ∧ (a.2.1 ≤ b.2.1 + n1 ∧ b.2.1 ≤ a.2.1 + n1) ∧ (a.2.2 ≤ b.2.2 + n2 ∧ b.2.2 ≤ a.2.2 + n2)

instance (na nxy n0 n1 n2 i j : ℕ) : Decidable (inWindow na nxy n0 n1 n2 i j) := by unfold inWindow; infer_instance

/-- value_iteration.py 72-117 `calculate_r_complete`. -/
def rComplete (na nxy n0 n1 n2 : ℕ) (solve : ℕ → ℕ → Option S) (ns : ℕ) : CostArr S :=
  (List.range ns).foldl (fun r i => (List.range ns).foldl (fun r j =>
    if inWindow na nxy n0 n1 n2 i j then
      match solve i j with
      | some v => setCell r i j (some v)
      | none => r
    else r) r) fun _ _ => none

/-- The duplicated block `r3d` (with `u3d`). -/
abbrev CostBlock (S : Type) := ℕ × ℕ × ℕ → Option S

/-- value_iteration.py 170-171, 189-190: the place of `j` in the block around `i`. -/
def blockIdx (na nxy n0 n1 n2 i j : ℕ) : ℕ × ℕ × ℕ :=
  let a := flatTo3d na nxy i
  let b := flatTo3d na nxy j
  (b.1 + n0 - a.1, b.2.1 + n1 - a.2.1, b.2.2 + n2 - a.2.2)

/-- value_iteration.py 148-177: the solutions from corner `c`, written to `r` and to the block. -/
def cornerStep (na nxy n0 n1 n2 : ℕ) (solve : ℕ → ℕ → Option S) (ns i2 : ℕ) (s : CostArr S × CostBlock S) (c : ℕ × ℕ) :
    CostArr S × CostBlock S :=
  let i := threeDToFlat na nxy c.1 c.2 i2
  (List.range ns).foldl (fun s j =>
    if inWindow na nxy n0 n1 n2 i j then
      match solve i j with
      | some v => (setCell s.1 i j (some v), fun e => if e = blockIdx na nxy n0 n1 n2 i j then some v else s.2 e)
      | none => s
    else s) s

/-- value_iteration.py 185-188: the place of `j` lies in the block around `i`, and `j` differs from `i`. -/
def inBlock (na nxy n0 n1 n2 i j : ℕ) : Prop :=
  let a := flatTo3d na nxy i
  let b := flatTo3d na nxy j
  i ≠ j ∧ (a.1 ≤ b.1 + n0 ∧ b.1 + n0 < a.1 + (2 * n0 + 1)) ∧ (a.2.1 ≤ b.2.1 + n1 ∧ b.2.1 + n1 < a.2.1 + (2 * n1 + 1)) ∧
    (a.2.2 ≤ b.2.2 + n2 ∧ b.2.2 + n2 < a.2.2 + (2 * n2 + 1))

instance (na nxy n0 n1 n2 i j : ℕ) : Decidable (inBlock na nxy n0 n1 n2 i j) := by unfold inBlock; infer_instance

/-- value_iteration.py 141-142: the corners of the grid. -/
def gridCorners (nxy : ℕ) : List (ℕ × ℕ) := [(0, 0), (0, nxy - 1), (nxy - 1, 0), (nxy - 1, nxy - 1)]

/-- value_iteration.py 143-193: the pass for the angle `i2`. The test `[i0, i1] not in i01` in line 181 compares a list with the integers of the last
corner, so it is always true, and it is left out here. -/
def duplicateStep (na nxy n0 n1 n2 : ℕ) (solve : ℕ → ℕ → Option S) (ns : ℕ) (r : CostArr S) (i2 : ℕ) : CostArr S :=
  let s := (gridCorners nxy).foldl (cornerStep na nxy n0 n1 n2 solve ns i2) (r, fun _ => none)
  (List.range nxy).foldl (fun r i0 => (List.range nxy).foldl (fun r i1 =>
    let i := threeDToFlat na nxy i0 i1 i2
    (List.range ns).foldl (fun r j =>
      if inBlock na nxy n0 n1 n2 i j then setCell r i j (s.2 (blockIdx na nxy n0 n1 n2 i j)) else r) r) r) s.1

/-- value_iteration.py 120-195 `calculate_r_duplicate`. -/
def rDuplicate (na nxy n0 n1 n2 : ℕ) (solve : ℕ → ℕ → Option S) (ns : ℕ) : CostArr S :=
  (List.range na).foldl (duplicateStep na nxy n0 n1 n2 solve ns) fun _ _ => none

/-- `np.linspace(lo, up, n)[a]`, value_iteration.py 300-302. -/
def linAt {K : Type} [Field K] (lo up : K) (n a : ℕ) : K := lo + a * ((up - lo) / (n - 1))

/-- value_iteration.py 306-311: the size of the window along an axis; `reach` is `u_up * dt_max * (nT - 1)`. -/
def windowSize {K : Type} [Field K] [LinearOrder K] [IsStrictOrderedRing K] [FloorRing K] (reach lo up : K) (n : ℕ) : ℤ :=
  ⌈reach / (up - lo) * (n - 1)⌉

end NNL.Model
