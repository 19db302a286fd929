import Verif.Model.ModelBounds

/-!
Specification for C108: what the mixed-integer quadratic programs mean (model_bounds.py 38-47 documents the
returned program in these words).
-/

namespace NNL.Spec

open NNL.Model

variable {K : Type*} [Field K] [LinearOrder K]

/-- `M1 u + M2 v + M3 w (R) rhs`, row by row. -/
def RowsHold (R : K → K → Prop) (M1 M2 M3 : Mat K) (rhs u v w : Vec K) : Prop :=
  ∀ i, i < rhs.length →
    R (dot (M1.getD i []) u + dot (M2.getD i []) v + dot (M3.getD i []) w) (rhs.getD i 0)

/-- `.5 uᵀ Q u + qᵀ u`. -/
def quadCost (Q : Mat K) (q u : Vec K) : K := 1 / 2 * dot u (matVec Q u) + dot q u

/-- The points of the trajectory optimisation program from the initial state `x`. -/
structure TrajFeas (T : TrajProg K) (x s α : Vec K) : Prop where
  len_x : x.length = T.Ain1.cols
  len_s : s.length = T.Ain2.cols
  len_α : α.length = T.Ain3.cols
  bin : IsBin α
  ineq : RowsHold (· ≤ ·) T.Ain1.rows T.Ain2.rows T.Ain3.rows T.rhsIn x s α
  eq : RowsHold (· = ·) T.Aeq1.rows T.Aeq2.rows T.Aeq3.rows T.rhsEq x s α

/-- The cost of the trajectory optimisation program. -/
def trajCost (T : TrajProg K) (x s α : Vec K) : K :=
  quadCost T.Q1 T.q1 x + quadCost T.Q2 T.q2 s + quadCost T.Q3 T.q3 α + T.c

/-- The points of the program returned by `epsilon_opt`. -/
structure EpsFeas (P : EpsProg K) (x y γ : Vec K) : Prop where
  len_x : x.length = P.G0.cols
  len_y : y.length = P.G1.cols
  len_γ : γ.length = P.G2.cols
  bin : IsBin γ
  ineq : RowsHold (· ≤ ·) P.G0.rows P.G1.rows P.G2.rows P.h x y γ
  eq : RowsHold (· = ·) P.A0.rows P.A1.rows P.A2.rows P.b x y γ

/-- Its objective. -/
def epsObj (P : EpsProg K) (x y γ : Vec K) : K :=
  1 / 2 * dot x (matVec P.Q0 x) + 1 / 2 * dot y (matVec P.Q1 y) + 1 / 2 * dot γ (matVec P.Q2 γ) +
    dot x P.q0 + dot y P.q1 + dot γ P.q2 + P.k

/-- `V` is the optimal cost of the trajectory optimisation program from `x`. -/
def IsValue (T : TrajProg K) (x : Vec K) (V : K) : Prop :=
  IsLeast {v | ∃ s α, TrajFeas T x s α ∧ v = trajCost T x s α} V

end NNL.Spec
