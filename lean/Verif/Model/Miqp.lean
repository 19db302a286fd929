import Verif.Model.Mip

/-!
# `GurobiTorchMIQP` (gurobi_torch_mip.py 1142-1343)

A program with a quadratic objective. The variables and the constraints are those of `Mip`.
-/

set_option linter.unusedSectionVars false

namespace NNL.Model

open NNL

variable {K : Type*} [Field K] [LinearOrder K]

/-- gurobi_torch_mip.py 1153-1162: the objective data. -/
structure MiqpObj (K : Type*) where
  Q_r : Mat K
  Q_zeta : Mat K
  Q_rzeta : Mat K
  c_r : Vec K
  c_zeta : Vec K
  const : K
  maximize : Bool
deriving DecidableEq

/-- `Q[i, j] = c`. -/
def setM (Q : Mat K) (i j : ℕ) (c : K) : Mat K := Q.set i ((Q.getD i []).set j c)

/-- gurobi_torch_mip.py 1256-1263: the position in `Q_rzeta`; looking up a variable that is in neither
dictionary raises `KeyError`. `ra`, `za` are what the dictionaries have for the left variable, `rb`, `zb` for
the right one. -/
def mixedIdx (ra za rb zb : Option ℕ) : Option (ℕ × ℕ) :=
  match ra with
  | some i =>
    match rb with
    | some _ => none
    | none => zb.map fun j => (i, j)
  | none => za.bind fun j => rb.map fun i => (i, j)

/-- gurobi_torch_mip.py 1225-1270: the loop over the quadratic terms. `ur`, `uz`, `urz` are the positions
whose `used_flag` is set. -/
def quadLoop (rIdx zIdx : List (ℕ × ℕ)) : List (K × ℕ × ℕ) → List (ℕ × ℕ) → List (ℕ × ℕ) → List (ℕ × ℕ) →
    Mat K → Mat K → Mat K → Option (Mat K × Mat K × Mat K)
  | [], _, _, _, Qr, Qz, Qm => some (Qr, Qz, Qm)
  | (c, a, b) :: rest, ur, uz, urz, Qr, Qz, Qm =>
    match rIdx.lookup a, rIdx.lookup b with
    | some i, some j =>
      if (i, j) ∈ ur then none
      else quadLoop rIdx zIdx rest ((i, j) :: ur) uz urz (setM Qr i j c) Qz Qm
    | ra, rb =>
      match zIdx.lookup a, zIdx.lookup b with
      | some i, some j =>
        if (i, j) ∈ uz then none
        else quadLoop rIdx zIdx rest ur ((i, j) :: uz) urz Qr (setM Qz i j c) Qm
      | za, zb =>
        match mixedIdx ra za rb zb with
        | none => none
        | some (i, j) =>
          if (i, j) ∈ urz then none
          else quadLoop rIdx zIdx rest ur uz ((i, j) :: urz) Qr Qz (setM Qm i j c)

/-- The terms `coeff[i, j] * left[i] * right[j]` in the order of the loops 1228-1229. -/
def quadTerms (coeff : Mat K) (L R : List ℕ) : List (K × ℕ × ℕ) :=
  (List.zipWith (fun row a => List.zipWith (fun c b => (c, a, b)) row R) coeff L).flatten

/-- gurobi_torch_mip.py 1164-1297 `setObjective`; the Gurobi half is `MiqpObj.gurobi`. A constant that is
neither a float nor a tensor of shape `()` is not modelled. -/
def Mip.setQuadObjective (m : Mip K) (qc : List (Mat K)) (qv : List (List ℕ × List ℕ)) (lc : List (Vec K))
    (lv : List (List ℕ)) (const : K) (maximize : Bool) : Option (MiqpObj K) :=
  if lc.length = lv.length ∧ qc.length = qv.length ∧ (∀ t ∈ lc.zip lv, t.2.length ≤ t.1.length) ∧
      (∀ t ∈ qc.zip qv, t.1.length = t.2.1.length ∧ ∀ row ∈ t.1, row.length = t.2.2.length) then do
    let c ← objLoop m.rIdx m.zIdx (List.zipWith (fun c v => c.zip v) lc lv).flatten [] [] (zeros m.r.length)
      (zeros m.zeta.length)
    let q ← quadLoop m.rIdx m.zIdx (List.zipWith (fun c v => quadTerms c v.1 v.2) qc qv).flatten [] [] []
      (zerosM m.r.length m.r.length) (zerosM m.zeta.length m.zeta.length) (zerosM m.r.length m.zeta.length)
    some ⟨q.1, q.2.1, q.2.2, c.1, c.2, const, maximize⟩
  else none

/-- gurobi_torch_mip.py 1280-1293: the sum of the terms `Q[i, j] * x[i] * y[j]` with `Q[i, j] != 0`. -/
def quadSum (Q : Mat K) (x y : Vec K) : K :=
  ((List.range x.length).map fun i => ((List.range y.length).map fun j =>
    if (Q.getD i []).getD j 0 ≠ 0 then (Q.getD i []).getD j 0 * (x.getD i 0 * y.getD j 0) else 0).sum).sum

/-- gurobi_torch_mip.py 1279-1297: the objective handed to Gurobi. -/
def MiqpObj.gurobi (o : MiqpObj K) (m : Mip K) (v : ℕ → K) : K :=
  quadSum o.Q_r (m.r.map v) (m.r.map v) + quadSum o.Q_zeta (m.zeta.map v) (m.zeta.map v) +
    quadSum o.Q_rzeta (m.r.map v) (m.zeta.map v) + dot o.c_r (m.r.map v) + dot o.c_zeta (m.zeta.map v) + o.const

/-- gurobi_torch_mip.py 1328-1337: the matrix `M`. -/
def kktMatrix (n : ℕ) (Q A : Mat K) (penalty : K) : Mat K :=
  ((List.range n).map fun i =>
    vadd (vsmul 2 (Q.getD i [])) (vsmul penalty (eyeRow n i)) ++ (transp n A).getD i []) ++
  ((List.range A.length).map fun i => A.getD i [] ++ vsmul penalty (eyeRow A.length i))

/-- gurobi_torch_mip.py 1341-1343: the objective at `r`, `zeta`. -/
def MiqpObj.value (o : MiqpObj K) (r zeta : Vec K) : K :=
  dot r (matVec o.Q_r r) + dot zeta (matVec o.Q_zeta zeta) + dot r (matVec o.Q_rzeta zeta) + dot o.c_r r +
    dot o.c_zeta zeta + o.const

/-- gurobi_torch_mip.py 1299-1343 `compute_objective_from_mip_data`; `inv` is `torch.inverse`. -/
def Mip.quadFromData (m : Mip K) (o : MiqpObj K) (inv : Mat K → Mat K) (penalty : K) (active : List ℕ)
    (zeta : Vec K) : K :=
  let t := m.activeConstraints active zeta
  let pd := matVec (inv (kktMatrix m.r.length o.Q_r t.1 penalty)) (vneg o.c_r ++ t.2)
  o.value (pd.take m.r.length) zeta

/-- gurobi_torch_mip.py 958-1033 `compute_objective_from_mip_data_and_solution` of a MIQP. -/
def Mip.quadAndSolution (m : Mip K) (o : MiqpObj K) (inv : Mat K → Mat K) (penalty : K) (r zeta : Vec K)
    (pool tol objTol : K) : Option K :=
  retryLoop (fun a => m.quadFromData o inv penalty a zeta) (m.activeSet r zeta) pool objTol 10 tol

end NNL.Model
