import Verif.Basic.Vec

/-!
# `linear_program_cost` (utils.py 842-895)
-/

set_option linter.unusedSectionVars false

namespace NNL.Model

open NNL

variable {K : Type*} [Field K] [LinearOrder K]

/-- utils.py 883-885: the rows of the inequality constraints with a slack below the tolerance (1e-5). -/
def activeRows (tol : K) (A : Mat K) (b : Vec K) (x : Vec K) : List ℕ :=
  (List.range A.length).filter fun i => decide (b.getD i 0 - dot (A.getD i []) x < tol)

/-- utils.py 886-894: `np.nonzero` returns a tuple with one array, so `active_in_indices[0]` are all the active rows: they can be assigned
to one row of `A_act` only if there is one of them. Returns `A_act`, `b_act`. -/
def fillActive (A : Mat K) (b : Vec K) (Aeq : Mat K) (beq : Vec K) : List ℕ → Option (Mat K × Vec K)
  | [] => some (Aeq, beq)
  | [i] => some (Aeq ++ [A.getD i []], beq ++ [b.getD i 0])
  | _ :: _ :: _ => none

/-- utils.py 842-895 `linear_program_cost`: `none` if it raises, `some none` if it returns `None`. `sol` is the solution of the solver with
status optimal, `inv` is `torch.inverse` (which raises for a matrix that is not square or singular). -/
def linearProgramCost (inv : Mat K → Option (Mat K)) (tol : K) (c : Vec K) (d : K) (A : Mat K) (b : Vec K) (Aeq : Mat K) (beq : Vec K)
    (sol : Option (Vec K)) : Option (Option K) :=
  match sol with
  | none => some none
  | some x => do
    let t ← fillActive A b Aeq beq (activeRows tol A b x)
    let B ← inv t.1
    some (some (dot c (matVec B t.2) + d))

end NNL.Model
