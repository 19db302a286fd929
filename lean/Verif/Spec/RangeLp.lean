import Verif.Spec.Hybrid

/-!
# The range of an affine map on a box cut by half spaces
-/

namespace NNL.Spec

open NNL

variable {K : Type*} [Field K] [LinearOrder K]

/-- `lo ≤ x ≤ up` (the bounds may be infinite) and `C x ≤ d`. -/
def InCutBox (lo up : List (Ext K)) (C : Mat K) (d x : Vec K) : Prop :=
  x.length = lo.length ∧ (∀ i, i < x.length → lo.getD i ⊥ ≤ Ext.fin (x.getD i 0)) ∧
    (∀ i, i < x.length → Ext.fin (x.getD i 0) ≤ up.getD i ⊤) ∧ InPoly C d x

/-- The values of `a x + b` on that set. -/
def cutBoxValues (lo up : List (Ext K)) (C : Mat K) (d a : Vec K) (b : K) : Set K :=
  {v | ∃ x : Vec K, InCutBox lo up C d x ∧ dot a x + b = v}

end NNL.Spec
