import Verif.Basic.Vec

/-!
# The early termination callback (utils.py 1163-1185) and its use (train_lyapunov_barrier.py 340-347, 404-411)
-/

namespace NNL.Model

variable {K : Type*} [LinearOrder K]

/-- What the callback can see when Gurobi calls it: whether `where == MIPNODE`, `MIPNODE_SOLCNT`, whether
`MIPNODE_STATUS == OPTIMAL`, and `MIPNODE_OBJBST`. -/
structure CbEvent (K : Type*) where
  mipNode : Bool
  solCnt : ℕ
  optimal : Bool
  objBst : K

/-- utils.py 1171-1183 `gurobi_terminate_if`: whether `model.terminate()` is called. -/
def terminateIf (threshold : K) (e : CbEvent K) : Bool :=
  if e.mipNode then
    if e.solCnt > 0 then
      if e.optimal then decide (e.objBst > threshold) else false
    else false
  else false

/-- A run of the solver: the events it would report if it is never stopped, `ObjVal` if it is stopped at event
`k`, and `ObjVal` if it runs to the end. -/
structure SolverRun (K : Type*) where
  events : List (CbEvent K)
  objAt : ℕ → K
  objEnd : K

/-- train_lyapunov_barrier.py 340-347 and 404-411: `optimize` with the callback if a threshold is set, then
`ObjVal`. -/
def SolverRun.optimize (r : SolverRun K) (threshold : Option K) : K :=
  match threshold with
  | none => r.objEnd
  | some t =>
    match r.events.findIdx? (terminateIf t) with
    | none => r.objEnd
    | some k => r.objAt k

end NNL.Model
