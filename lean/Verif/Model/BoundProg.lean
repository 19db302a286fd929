import Verif.Model.ContinuousLyap
import Verif.Model.ReluSystem

/-!
# Bounds of the velocity computed by the solver (methods LP and MIP)

relu_to_optimization.py 1210-1328, relu_system.py 71-93, continuous_time_lyapunov.py 136-151 and 204-222. The
solver is a parameter. The calls on the underlying Gurobi model (`prog.setObjective`, `prog.addVar`,
`prog.addMConstr`) are modelled by the calls of its wrapper, which create the same program. Names are dropped.
-/

set_option linter.unusedSectionVars false

namespace NNL.Model

open NNL NNL.Spec

variable {K : Type*} [Field K] [LinearOrder K]

/-- `prog.optimize()` followed by `prog.ObjVal`; `none` when the status is not OPTIMAL (the assertion fails, or
reading `ObjVal` raises). -/
abbrev Solver (K : Type*) := Mip K → Option K

/-- relu_to_optimization.py 1271-1280 (and 1249-1259, 1316-1327; continuous_time_lyapunov.py 208-222): maximise,
then minimise one linear expression. The result is the program, the lower and the upper bound. -/
def Mip.rangeBy (m : Mip K) (solve : Solver K) (c : Vec K) (x : List ℕ) : Option (Mip K × K × K) := do
  let m ← m.setObjective [c] [x] 0 true
  let up ← solve m
  let m ← m.setObjective [c] [x] 0 false
  let lo ← solve m
  some (m, lo, up)

/-- relu_to_optimization.py 1249-1259: the bounds of the variables `z0`. -/
def varRanges (solve : Solver K) : List ℕ → Mip K → Option (Mip K × List (K × K))
  | [], m => some (m, [])
  | i :: is, m => do
    let r ← m.rangeBy solve [1] [i]
    let q ← varRanges solve is r.1
    some (q.1, r.2 :: q.2)

/-- The bounds of `W z` row by row: relu_to_optimization.py 1275-1287 for the last layer,
continuous_time_lyapunov.py 207-222 for `R xdot`. -/
def rowRanges (solve : Solver K) (z : List ℕ) : Mat K → Mip K → Option (Mip K × List (K × K))
  | [], m => some (m, [])
  | w :: W, m => do
    let r ← m.rangeBy solve w z
    let q ← rowRanges solve z W r.1
    some (q.1, r.2 :: q.2)

/-- What the loop over the units of a layer has collected: the program, the bounds of `W_i z_i`, the variables
`z_{i+1}` and their bounds. -/
structure WzState (K : Type*) where
  m : Mip K
  wz : List (K × K)
  z : List ℕ
  zb : List (K × K)

/-- relu_to_optimization.py 1275-1327: the loop over the units of a hidden layer; `beta` are the binaries of the
layer. -/
def wzUnits (solve : Solver K) (a : Act K) (z : List ℕ) : Mat K → List ℕ → Mip K → Option (WzState K)
  | [], _, m => some ⟨m, [], [], []⟩
  | _ :: _, [], _ => none
  | w :: W, b :: beta, m => do
    let r ← m.rangeBy solve w z
    let p ← gradScalar a r.2.1 r.2.2
    let t ← r.1.addVars 1 (noBound 1) (noBound 1) .continuous
    let m ← t.1.addMConstr [⟨z.length, p.Ax.map fun c => vsmul c w⟩, colT p.As, colT p.Aa] [z, t.2, [b]] .le p.rhs
    let e ← m.rangeBy solve [1] t.2
    let q ← wzUnits solve a z W beta e.1
    some ⟨q.m, r.2 :: q.wz, t.2 ++ q.z, e.2 :: q.zb⟩

/-- Lower and upper bounds as two vectors. -/
def unzipB (b : List (K × K)) : Vec K × Vec K := (b.map Prod.fst, b.map Prod.snd)

/-- What the loop over the layers has collected: the program, the bounds of `W_i z_i` for the hidden layers, the
variables of the last layer's input, the bounds of `z_1, z_2, ...`. -/
structure WzLayers (K : Type*) where
  m : Mip K
  wz : List (Vec K × Vec K)
  z : List ℕ
  zb : List (Vec K × Vec K)

/-- relu_to_optimization.py 1262-1327: the loop over the hidden layers. `relu_unit_index` numbers the units
consecutively. -/
def wzHidden (solve : Solver K) : List (Lin K × Act K) → List ℕ → List ℕ → Mip K → Option (WzLayers K)
  | [], z, _, m => some ⟨m, [], z, []⟩
  | (l, a) :: hs, z, beta, m => do
    let u ← wzUnits solve a z l.W (beta.take l.W.length) m
    let q ← wzHidden solve hs u.z (beta.drop l.W.length) u.m
    some ⟨q.m, unzipB u.wz :: q.wz, q.z, unzipB u.zb :: q.zb⟩

/-- The bounds returned by `_compute_Wz_bounds_optimization`, with the program as it is left. -/
structure WzOpt (K : Type*) where
  m : Mip K
  /-- `z_lo[0]`, `z_up[0]` -/
  z0 : Vec K × Vec K
  /-- `z_lo[i]`, `z_up[i]` for `i = 1, 2, ...` -/
  zb : List (Vec K × Vec K)
  /-- `Wz_lo[i]`, `Wz_up[i]` for the hidden layers -/
  wz : List (Vec K × Vec K)
  /-- `Wz_lo[-1]`, `Wz_up[-1]` -/
  last : Vec K × Vec K

/-- relu_to_optimization.py 1210-1328 `_compute_Wz_bounds_optimization(prog, z0, beta)`. -/
def wzBoundsOpt (solve : Solver K) (net : Net K) (m : Mip K) (z0 beta : List ℕ) : Option (WzOpt K) := do
  let b0 ← varRanges solve z0 m
  let q ← wzHidden solve net.hidden z0 beta b0.1
  let e ← rowRanges solve q.z net.last.W q.m
  some ⟨e.1, unzipB b0.2, q.zb, q.wz, unzipB e.2⟩

/-- `x_next_bound_prog`, `x_var`, `x_next_bound_var` of the constraint return. -/
structure BoundProg (K : Type*) where
  m : Mip K
  x : List ℕ
  xn : List ℕ

/-- The type of the flags of the bound programs (relu_system.py 86-88, continuous_time_lyapunov.py 140-142). -/
def boundType (lp : Bool) : VType := if lp then .continuous else .binary

/-- relu_system.py 76-92 (in `_add_dynamics_constraint_autonmous`): the program from which bounds of the next
state (or velocity) are computed. `lp` says that the method is LP. -/
def autoBoundProg (c : Option (ReluMIC K)) (n : ℕ) (lp : Bool) : Option (BoundProg K) := do
  let r ← c
  let tn ← (Mip.empty : Mip K).addVars n (noBound n) (noBound n) .continuous
  let tx ← tn.1.addVars n (noBound n) (noBound n) .continuous
  let t ← tx.1.addMIC r.mic tx.2 (some tn.2) .fresh (boundType lp)
  some ⟨t.1, tx.2, tn.2⟩

/-- continuous_time_lyapunov.py 136-151 and 204-222: the bounds of `W_i z_i` and of `R xdot` from the bound
program of the system. -/
def Lyap.optBounds (L : Lyap K) (solve : Solver K) (P : BoundProg K) (R : Mat K) (lp : Bool) :
    Option (RateBounds K) := do
  let r ← outputConstraint L.net L.dim L.xLo L.xUp L.method
  let t ← P.m.addMIC r.mic P.x none .fresh (boundType lp)
  let q ← wzBoundsOpt solve L.net t.1 P.xn t.2.2
  let e ← rowRanges solve P.xn R q.m
  some (.opt q.wz (unzipB e.2).1 (unzipB e.2).2)

end NNL.Model
