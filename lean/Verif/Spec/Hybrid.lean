import Verif.Basic.Vec
import Mathlib.Order.WithBot
import Mathlib.Order.Bounds.Basic

/-!
# Piecewise affine systems
-/

set_option linter.unusedSectionVars false

namespace NNL.Spec

open NNL

variable {K : Type*} [Field K] [LinearOrder K]

/-- One mode: `x⁺ = A x + B u + c` if `P [x; u] ≤ q`. -/
structure HMode (K : Type*) where
  A : List (List K)
  B : List (List K)
  c : List K
  P : List (List K)
  q : List K

/-- The shapes checked by `add_mode`. -/
structure HMode.Ok (md : HMode K) (n m : ℕ) : Prop where
  rowsA : md.A.length = n
  colsA : HasCols md.A n
  rowsB : md.B.length = n
  colsB : HasCols md.B m
  c : md.c.length = n
  colsP : HasCols md.P (n + m)
  q : md.q.length = md.P.length

/-- `P w ≤ q`, row by row. -/
def InPoly (P : Mat K) (q w : Vec K) : Prop := ∀ i, i < q.length → dot (P.getD i []) w ≤ q.getD i 0

/-- `(x, u)` is in the mode. -/
def HMode.Has (md : HMode K) (x u : Vec K) : Prop := InPoly md.P md.q (x ++ u)

/-- The affine map of the mode. -/
def HMode.next (md : HMode K) (x u : Vec K) : Vec K := vadd (vadd (matVec md.A x) (matVec md.B u)) md.c

/-- The (set-valued) dynamics: any mode that contains `(x, u)`. -/
def HStep (modes : List (HMode K)) (x u xn : Vec K) : Prop :=
  ∃ md ∈ modes, md.Has x u ∧ xn = md.next x u

/-- Numbers with `-inf` and `inf`. -/
abbrev Ext (K : Type*) := WithBot (WithTop K)

/-- A finite number. -/
def Ext.fin (a : K) : Ext K := ((a : WithTop K) : WithBot (WithTop K))

/-- `a` is the infimum of `S` (`inf` for the empty set), and is attained if it is finite. -/
def ExactInf (S : Set K) (a : Ext K) : Prop := IsGLB (Ext.fin '' S) a ∧ ∀ v, a = Ext.fin v → v ∈ S

/-- `a` is the supremum of `S` (`-inf` for the empty set), and is attained if it is finite. -/
def ExactSup (S : Set K) (a : Ext K) : Prop := IsLUB (Ext.fin '' S) a ∧ ∀ v, a = Ext.fin v → v ∈ S

/-- The values of `c w` on `{w | P w ≤ q}`, `w` with `n` entries. -/
def polyValues (n : ℕ) (P : Mat K) (q c : Vec K) : Set K :=
  {v | ∃ w : Vec K, w.length = n ∧ InPoly P q w ∧ dot c w = v}

end NNL.Spec
