import Verif.Basic.Vec

/-!
# `simple_pwl_lyapunov.py`
-/

set_option linter.unusedSectionVars false

namespace NNL.Model

open NNL

variable {K : Type*} [Field K] [LinearOrder K]

/-- The decision variables (simple_pwl_lyapunov.py 64-67); `c` by columns. -/
structure PwlVal (K : Type*) where
  c : List (Vec K)
  d : Vec K
  s1 : K
  s2 : K

/-- `SimplePWLLyapunov`; a `cvxpy` constraint is a predicate of the decision variables. -/
structure Pwl (K : Type*) where
  xDim : ℕ
  numModes : ℕ
  eps1 : K
  eps2 : K
  xEq : Vec K
  cons : List (PwlVal K → Prop)

/-- The shapes declared for the decision variables. -/
def Pwl.Shaped (S : Pwl K) (p : PwlVal K) : Prop :=
  p.c.length = S.numModes ∧ HasCols p.c S.xDim ∧ p.d.length = S.numModes

/-- `c[:, i]`. -/
def PwlVal.col (p : PwlVal K) (i : ℕ) : Vec K := p.c.getD i []

/-- simple_pwl_lyapunov.py 43-73 `__init__`. A mode out of range is an `IndexError`. -/
def Pwl.new (xDim numModes : ℕ) (eps1 eps2 : K) (xEq : Vec K) (eqMode : ℕ) : Option (Pwl K) :=
  if xEq.length = xDim ∧ eqMode < numModes then
    some ⟨xDim, numModes, eps1, eps2, xEq,
      [fun p => p.s1 ≥ 0, fun p => p.s2 ≥ 0, fun p => dot (p.col eqMode) xEq + p.d.getD eqMode 0 = 0]⟩
  else none

/-- `A + a * np.eye(n)`. -/
def addEye (n : ℕ) (A : Mat K) (a : K) : Mat K := List.zipWith vadd A ((eye n).map (vsmul a))

/-- `self.constraints.extend(l)`. -/
def Pwl.extend (S : Pwl K) (l : List (PwlVal K → Prop)) : Pwl K := { S with cons := S.cons ++ l }

open Classical in
/-- simple_pwl_lyapunov.py 75-97 `add_lyapunov_derivative_in_mode`. -/
noncomputable def Pwl.addDerivative (S : Pwl K) (i : ℕ) (vs : Mat K) (A : Mat K) (g : Vec K) : Option (Pwl K) :=
  if HasCols vs S.xDim ∧ A.length = S.xDim ∧ HasCols A S.xDim ∧ g.length = S.xDim ∧ i < S.numModes then
    some (S.extend (vs.map fun v => fun p =>
      p.s1 ≥ dot (p.col i) (vadd (matVec (addEye S.xDim A S.eps2) v) g) + S.eps2 * p.d.getD i 0))
  else none

/-- simple_pwl_lyapunov.py 115-124: the signs are `1` or `-1` and fit the vertices. -/
def signsFit (xEq : Vec K) (vs : Mat K) (sg : Vec K) : Prop :=
  ∀ j, j < xEq.length → (sg.getD j 0 = 1 ∧ ∀ v ∈ vs, v.getD j 0 ≥ xEq.getD j 0) ∨
    (sg.getD j 0 = -1 ∧ ∀ v ∈ vs, v.getD j 0 ≤ xEq.getD j 0)

open Classical in
/-- simple_pwl_lyapunov.py 99-132 `add_lyapunov_positivity_in_mode`. -/
noncomputable def Pwl.addPositivity (S : Pwl K) (i : ℕ) (vs : Mat K) (sg : Vec K) : Option (Pwl K) :=
  if HasCols vs S.xDim ∧ sg.length = S.xDim ∧ signsFit S.xEq vs sg ∧ i < S.numModes then
    some (S.extend (vs.map fun v => fun p =>
      p.s2 ≥ -dot (vsub (p.col i) (vsmul S.eps1 sg)) v - p.d.getD i 0 - S.eps1 * dot sg S.xEq))
  else none

open Classical in
/-- simple_pwl_lyapunov.py 134-150 `add_continuity_constraint`: the vector `common_vertices @ (cᵢ - cⱼ)` has one entry
for every vertex and is added to a vector with `x_dim` entries (line 150); `cvxpy` accepts this if the lengths agree
or one of them is one. -/
noncomputable def Pwl.addContinuity (S : Pwl K) (i j : ℕ) (us : Mat K) : Option (Pwl K) :=
  if HasCols us S.xDim ∧ i < S.numModes ∧ j < S.numModes ∧
      (us.length = S.xDim ∨ us.length = 1 ∧ 0 < S.xDim ∨ S.xDim = 1) then
    some (S.extend [fun p => ∀ u ∈ us, dot u (vsub (p.col i) (p.col j)) + (p.d.getD i 0 - p.d.getD j 0) = 0])
  else none

/-- The points that `solve` (simple_pwl_lyapunov.py 152-167) may return. -/
def Pwl.Feas (S : Pwl K) (p : PwlVal K) : Prop := S.Shaped p ∧ ∀ c ∈ S.cons, c p

/-- simple_pwl_lyapunov.py 163-165: the cost. -/
def Pwl.cost (w : K) (p : PwlVal K) : K := (1 - w) * p.s1 + w * p.s2

/-- One call on the object. -/
inductive PwlCall (K : Type*)
  | derivative (i : ℕ) (vs : Mat K) (A : Mat K) (g : Vec K)
  | positivity (i : ℕ) (vs : Mat K) (sg : Vec K)
  | continuity (i j : ℕ) (us : Mat K)

/-- The call. -/
noncomputable def Pwl.call (S : Pwl K) : PwlCall K → Option (Pwl K)
  | .derivative i vs A g => S.addDerivative i vs A g
  | .positivity i vs sg => S.addPositivity i vs sg
  | .continuity i j us => S.addContinuity i j us

/-- A sequence of calls. -/
noncomputable def Pwl.calls (S : Pwl K) : List (PwlCall K) → Option (Pwl K)
  | [] => some S
  | c :: cs => do
    let S ← S.call c
    S.calls cs

end NNL.Model
