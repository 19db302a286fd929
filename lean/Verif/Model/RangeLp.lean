import Verif.Model.Hybrid
import Verif.Spec.RangeLp

/-!
# The range of an affine map by linear programming (mip_utils.py 332-410)
-/

set_option linter.unusedSectionVars false

namespace NNL.Model

open NNL NNL.Spec

variable {K : Type*} [Field K] [LinearOrder K]

/-- A solver for `max / min  a x + b  s.t.  lo <= x <= up, C x <= d`; the last argument is true for `max`. -/
abbrev BoxLp (K : Type*) := List (Ext K) → List (Ext K) → Mat K → Vec K → Vec K → K → Bool → LpAnswer K

/-- mip_utils.py 382-389: the entry of `y_ub` by the status of the maximisation; `none` is the exception. -/
def rangeUpOf : LpAnswer K → Option (Ext K)
  | .optimal v => some (Ext.fin v)
  | .infeasible => some ⊥
  | .unbounded => some ⊤
  | .other => none

/-- mip_utils.py 402-409: the entry of `y_lb` by the status of the minimisation. -/
def rangeLoOf : LpAnswer K → Option (Ext K)
  | .optimal v => some (Ext.fin v)
  | .infeasible => some ⊤
  | .unbounded => some ⊥
  | .other => none

/-- mip_utils.py 370-409: the loop over the rows of `A`, here over the rows that are left, with the entries of
`b` that are left. An index past the end of `b` raises. -/
def rangeLoop (lp : BoxLp K) (lo up : List (Ext K)) (C : Mat K) (d : Vec K) :
    Mat K → Vec K → Option (List (Ext K) × List (Ext K))
  | [], _ => some ([], [])
  | _ :: _, [] => none
  | a :: A, b :: bs => do
    let u ← rangeUpOf (lp lo up C d a b true)
    let l ← rangeLoOf (lp lo up C d a b false)
    let r ← rangeLoop lp lo up C d A bs
    some (l :: r.1, u :: r.2)

/-- mip_utils.py 332-410 `compute_range_by_lp(A, b, x_lb, x_ub, C, d)`; `n` is `A.shape[1]`. The warning is not
modelled. `addMVar` and `addMConstr` raise on wrong shapes, the latter also without `d`; `d` without `C` is
ignored. -/
def computeRangeLp (lp : BoxLp K) (n : ℕ) (A : Mat K) (b : Vec K) (xlb xub : Option (List (Ext K)))
    (C : Option (Mat K)) (d : Option (Vec K)) : Option (List (Ext K) × List (Ext K)) :=
  let lo := xlb.getD (List.replicate n ⊥)
  let up := xub.getD (List.replicate n ⊤)
  if lo.length = n ∧ up.length = n then
    match C, d with
    | none, _ => rangeLoop lp lo up [] [] A b
    | some _, none => none
    | some C, some d =>
      if (∀ r ∈ C, r.length = n) ∧ d.length = C.length then rangeLoop lp lo up C d A b else none
  else none

end NNL.Model
