import Verif.Spec.Norm

/-!
# Gradients of norms, Minkowski sums

utils.py 1411-1513, 1545-1562.
-/

set_option linter.unusedSectionVars false

namespace NNL.Model

open NNL NNL.Spec

variable {K : Type*} [Field K] [LinearOrder K]

/-- utils.py 1439-1482 `l1_gradient`, after the argument checks. `subs` are the sub-gradient samples
(`[]` for None: both branches of the code then compute the same). -/
def l1GradLoop (tol : K) (subs : List K) (x : Vec K) : List (Vec K) :=
  match h : x.findIdx? (fun a => decide (|a| ≤ tol)) with
  | none => [x.map sgn]
  | some k =>
    if (x.filter fun a => decide (|a| < tol)).length = 1 then
      ([1, -1] ++ subs).map fun v => (x.map sgn).map fun s => if |s| ≤ tol then v else s
    else
      let after := l1GradLoop tol subs (x.drop (k + 1))
      ([1, -1] ++ subs).flatMap fun v => after.map fun g => (x.take k).map sgn ++ v :: g
termination_by x.length
decreasing_by
  have := (List.findIdx?_eq_some_iff_getElem.1 h).1
  rw [List.length_drop]; omega

/-- utils.py 1411-1483 `l1_gradient`. -/
def l1Gradient (tol : K) (subs : Option (List K)) (x : Vec K) : Option (List (Vec K)) :=
  if tol ≥ 0 ∧ (∀ s ∈ subs.getD [], s > -1 ∧ s < 1) then some (l1GradLoop tol (subs.getD []) x)
  else none

/-- `torch.norm(x, p=inf)`; raises on an empty tensor. -/
def normInf : Vec K → Option K
  | [] => none
  | a :: x => some (x.foldl (fun m b => max m |b|) |a|)

/-- utils.py 1486-1513 `l_infinity_gradient`. -/
def lInfGradient (tol : K) (x : Vec K) : Option (List (Vec K)) :=
  match normInf x with
  | none => none
  | some m => some <|
    if m ≤ tol then eye x.length ++ (eye x.length).map vneg
    else
      let grad : Vec K := x.map fun a =>
        (if |a - m| ≤ tol then 1 else 0) + (if |a + m| ≤ tol then -1 else 0)
      let idx := (List.range x.length).filter fun i => decide (grad.getD i 0 ≠ 0)
      if idx.length = 1 then [grad]
      else idx.map fun i => (zeros x.length).set i (grad.getD i 0)

/-- utils.py 1545-1562 `minkowski_sum`; the trailing dimensions are one flat row. -/
def minkowskiSum (x y : Mat K) : Mat K :=
  List.zipWith vadd (List.replicate x.length y).flatten
    (x.flatMap fun r => List.replicate y.length r)

end NNL.Model
