import Verif.Model.NetEnc
import Verif.Model.Mic

/-!
# `control_affine_system.py`
-/

set_option linter.unusedSectionVars false

namespace NNL.Model

open NNL NNL.Spec

variable {K : Type*} [Field K] [LinearOrder K]

/-- control_affine_system.py 8-26 `ControlAffineSystemConstraintReturn`. -/
structure AffineRet (K : Type*) where
  f : MIC K
  G : MIC K
  fLo : Vec K
  fUp : Vec K
  gLo : Vec K
  gUp : Vec K

/-- `torch.max(torch.min(u, u_up), u_lo)`. -/
def clampVec (lo up u : Vec K) : Vec K := List.zipWith max (List.zipWith min u up) lo

/-- control_affine_system.py 86-91 `dynamics`. -/
def affineDynamics (f : Vec K → Vec K) (G : Vec K → Mat K) (uLo uUp : Vec K) (x u : Vec K) : Vec K :=
  vadd (f x) (matVec (G x) (clampVec uLo uUp u))

/-- `LinearSystem` (control_affine_system.py 106-117). -/
structure LinSys (K : Type*) where
  xLo : Vec K
  xUp : Vec K
  uLo : Vec K
  uUp : Vec K
  A : Mat K
  B : Mat K

/-- control_affine_system.py 119-134 `LinearSystem.mixed_integer_constraints`. -/
def LinSys.mic (S : LinSys K) : Option (AffineRet K) := do
  let b ← rangeIA S.xLo.length S.A (zeros S.xLo.length) S.xLo S.xUp
  some ⟨{ Aout_input := some ⟨S.xLo.length, S.A⟩ }, { Cout := some S.B.flatten }, b.1, b.2, S.B.flatten, S.B.flatten⟩

/-- `torch.vstack((torch.zeros((k, A.shape[1])), A))`. -/
def zerosOver (k : ℕ) (A : Tensor2 K) : Tensor2 K := ⟨A.cols, zerosM k A.cols ++ A.rows⟩

/-- control_affine_system.py 182-208: `mip_cnstr_f` from `mip_cnstr_a`. The rows of a missing `Aout_input` are zeros;
`torch.vstack` needs `x_dim` columns. -/
def stackF (nq xDim : ℕ) (a : MIC K) : Option (MIC K) :=
  let top := (List.range nq).map fun i => zeros nq ++ eyeRow nq i
  let low := a.Aout_input.getD ⟨xDim, zerosM nq xDim⟩
  if nq + nq = low.cols then
    let A : Tensor2 K := ⟨xDim, top ++ low.rows⟩
    some { a with Aout_input := some A, Aout_slack := a.Aout_slack.map (zerosOver nq), Aout_binary := a.Aout_binary.map (zerosOver nq), Cout := a.Cout.map (zeros nq ++ ·) }
  else none

/-- control_affine_system.py 210-231: `mip_cnstr_G` from `mip_cnstr_b_flat`. The zeros over `Aout_input` have `nq`
columns (line 219), so that `torch.vstack` needs `nq` columns there. -/
def stackG (nq uDim : ℕ) (b : MIC K) : Option (MIC K) :=
  let rest : MIC K := { b with Aout_slack := b.Aout_slack.map (zerosOver (nq * uDim)), Aout_binary := b.Aout_binary.map (zerosOver (nq * uDim)), Cout := b.Cout.map (zeros (nq * uDim) ++ ·) }
  match b.Aout_input with
  | none => some rest
  | some A => if A.cols = nq then some { rest with Aout_input := some ⟨nq, zerosM (nq * uDim) nq ++ A.rows⟩ } else none

/-- control_affine_system.py 176-238 `SecondOrderControlAffineSystem.mixed_integer_constraints`, from the result of
`_mixed_integer_constraints_v`. -/
def secondOrderMic (xLo xUp : Vec K) (nq uDim : ℕ) (a b : MIC K) (aLo aUp bLo bUp : Vec K) : Option (AffineRet K) := do
  let f ← stackF nq xLo.length a
  let G ← stackG nq uDim b
  some ⟨f, G, xLo.drop nq ++ aLo, xUp.drop nq ++ aUp, zeros (nq * uDim) ++ bLo, zeros (nq * uDim) ++ bUp⟩

/-- control_affine_system.py 162-164 `f`. -/
def secondF (nq : ℕ) (a : Vec K → Vec K) (x : Vec K) : Vec K := x.drop nq ++ a x

/-- control_affine_system.py 166-168 `G`. -/
def secondG (nq uDim : ℕ) (b : Vec K → Mat K) (x : Vec K) : Mat K := zerosM nq uDim ++ b x

/-- `ReluSecondOrderControlAffineSystem` (control_affine_system.py 241-269). -/
structure ReluAffine (K : Type*) where
  xLo : Vec K
  xUp : Vec K
  uLo : Vec K
  uUp : Vec K
  phiA : Net K
  phiB : Net K
  method : Method K
  methodB : Method K

/-- `nq = x_dim / 2`. -/
def ReluAffine.nq (S : ReluAffine K) : ℕ := S.xLo.length / 2

/-- `t.reshape((r, c))` of a flat vector. -/
def reshapeRows (r c : ℕ) (v : Vec K) : Mat K := (List.range r).map fun i => (v.drop (i * c)).take c

/-- control_affine_system.py 271-272 `a`. -/
def ReluAffine.a (S : ReluAffine K) (x : Vec K) : Vec K := S.phiA.eval x

/-- control_affine_system.py 274-275 `b`. -/
def ReluAffine.b (S : ReluAffine K) (x : Vec K) : Mat K := reshapeRows S.nq S.uLo.length (S.phiB.eval x)

/-- control_affine_system.py 277-286 with 176-238. The two calls use the same method; the answers of the solvers for
the two networks are separate. -/
def ReluAffine.mic (S : ReluAffine K) : Option (AffineRet K) := do
  let a ← outputConstraint S.phiA S.xLo.length S.xLo S.xUp S.method
  let b ← outputConstraint S.phiB S.xLo.length S.xLo S.xUp S.methodB
  secondOrderMic S.xLo S.xUp S.nq S.uLo.length a.mic b.mic a.nnOutputLo a.nnOutputUp b.nnOutputLo b.nnOutputUp

end NNL.Model
