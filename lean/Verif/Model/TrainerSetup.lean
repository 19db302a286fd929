import Verif.Model.Hybrid
import Verif.Model.Barrier

/-!
# Giving a Lyapunov function and a barrier function to the trainer

train_lyapunov_barrier.py 23-29, 72-77, 164-224 and lyapunov.py 482-490. The assignments are made in the order of the
source: a call that raises keeps those made before.
-/

set_option linter.unusedSectionVars false

namespace NNL.Model

open NNL NNL.Spec

variable {K : Type*} [Field K] [LinearOrder K]

/-- An argument of a call: a `float`, a tensor with one axis, an `ROptions` object or anything else. -/
inductive PyArg (K : Type*) where
  | float (v : K)
  | tensor (v : Vec K)
  | rOptions (i : ℕ)
  | other

/-- A `LyapunovHybridLinearSystem` or a `Barrier`: the object and its `system` (compared with `is`). -/
structure SysUser where
  id : ℕ
  sys : ℕ
deriving DecidableEq

/-- `x_dim`, `x_lo_all` and `x_up_all` of a system. -/
structure StateBox (K : Type*) where
  dim : ℕ
  lo : List (Ext K)
  up : List (Ext K)

/-- lyapunov.py 482-490 `validate_x_equilibrium`: the assertions hold. (The bounds have `x_dim` entries.) -/
def StateBox.validEquilibrium (B : StateBox K) (x : Vec K) : Prop :=
  x.length = B.dim ∧ (∀ i, i < B.dim → Ext.fin (x.getD i 0) ≤ B.up.getD i ⊤) ∧
    ∀ i, i < B.dim → B.lo.getD i ⊥ ≤ Ext.fin (x.getD i 0)

/-- The attributes of the trainer (train_lyapunov_barrier.py 26-29, 74-77); `none` is `None`. -/
structure TrainerSetup (K : Type*) where
  lyap : Option SysUser := none
  vLambda : Option K := none
  xEq : Option (Vec K) := none
  rOpt : Option ℕ := none
  barrier : Option SysUser := none
  xStar : Option (PyArg K) := none
  c : Option K := none
  eps : Option K := none

/-- lines 202-204, 216-218: both use one system, if both are given. -/
def TrainerSetup.sameSystem (T : TrainerSetup K) : Prop := ∀ L ∈ T.lyap, ∀ B ∈ T.barrier, B.sys = L.sys

open Classical in
/-- train_lyapunov_barrier.py 164-211 `add_lyapunov`: whether it returns, and the attributes afterwards. -/
noncomputable def TrainerSetup.addLyapunov (box : ℕ → StateBox K) (T : TrainerSetup K) (L : SysUser)
    (lam xe R : PyArg K) : Bool × TrainerSetup K :=
  let T := { T with lyap := some L }
  if T.sameSystem then
    match lam with
    | .float l =>
      let T := { T with vLambda := some l }
      match xe with
      | .tensor x =>
        if (box L.sys).validEquilibrium x then
          let T := { T with xEq := some x }
          match R with
          | .rOptions r => (true, { T with rOpt := some r })
          | _ => (false, T)
        else (false, T)
      | _ => (false, T)
    | _ => (false, T)
  else (false, T)

open Classical in
/-- train_lyapunov_barrier.py 213-224 `add_barrier`. -/
noncomputable def TrainerSetup.addBarrier (T : TrainerSetup K) (B : SysUser) (xStar c eps : PyArg K) :
    Bool × TrainerSetup K :=
  let T := { T with barrier := some B }
  if T.sameSystem then
    let T := { T with xStar := some xStar }
    match c with
    | .float cv =>
      let T := { T with c := some cv }
      match eps with
      | .float e => if e ≥ 0 then (true, { T with eps := some e }) else (false, T)
      | _ => (false, T)
    | _ => (false, T)
  else (false, T)

/-- One call. -/
inductive SetupCall (K : Type*) where
  | lyapunov (L : SysUser) (lam xe R : PyArg K)
  | barrier (B : SysUser) (xStar c eps : PyArg K)

end NNL.Model
