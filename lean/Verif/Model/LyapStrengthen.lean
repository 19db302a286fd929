import Verif.Model.Lyapunov

/-!
# Strengthening of the derivative program (lyapunov.py 784-863)
-/

set_option linter.unusedSectionVars false

namespace NNL.Model

open NNL NNL.Spec

variable {K : Type*} [Field K] [LinearOrder K]

/-- lyapunov.py 807-809: `objective >= 0` as a Gurobi constraint; the objective is
`LinExpr(c_r, r) + LinExpr(c_zeta, zeta) + c_constant`. -/
def Mip.objCon (m : Mip K) : GCon K :=
  match m.obj with
  | none => ⟨[], [], .ge, 0⟩
  | some o => ⟨o.c_r ++ o.c_zeta, m.r ++ m.zeta, .ge, -o.const⟩

/-- lyapunov.py 807-809, 836-838: the program that is solved for unit `i`, with the two temporary
constraints (which are only added to the Gurobi model). -/
def Mip.probe (m : Mip K) (b bn : ℕ) : Mip K :=
  { m with cons := m.cons ++ [m.objCon, ⟨[1, 1], [b, bn], .eq, 1⟩] }

/-- lyapunov.py 828-835: both inputs of unit `i` can take either sign. -/
def straddles (r rn : ReluMIC K) (i : ℕ) : Bool :=
  decide (r.reluInputLo.getD i 0 < 0) && decide (r.reluInputUp.getD i 0 > 0) &&
    decide (rn.reluInputLo.getD i 0 < 0) && decide (rn.reluInputUp.getD i 0 > 0)

/-- lyapunov.py 826-856: the loop over the units. `infeasible p` is the answer of the solver: the status of
program `p` is INFEASIBLE. The temporary constraints are removed again. -/
def strengthenLoop (infeasible : Mip K → Bool) (r rn : ReluMIC K) (beta betaN : List ℕ) :
    List ℕ → Mip K → Option (Mip K)
  | [], m => some m
  | i :: is, m =>
    if straddles r rn i && infeasible (m.probe (beta.getD i 0) (betaN.getD i 0)) then do
      let m' ← m.addLConstr [[1, -1]] [[beta.getD i 0, betaN.getD i 0]] .eq 0
      strengthenLoop infeasible r rn beta betaN is m'
    else strengthenLoop infeasible r rn beta betaN is m

/-- lyapunov.py 784-863 `strengthen_lyapunov_derivative_milp_binary`; the program after the call. Solver
parameters are dropped. -/
def strengthenBinary (infeasible : Mip K → Bool) (D : DerivRet K) : Option (Mip K) :=
  if D.beta.length = D.betaNext.length then
    strengthenLoop infeasible D.ret D.retNext D.beta D.betaNext (List.range D.beta.length) D.m
  else none

end NNL.Model
