import Verif.Model.Sampling
import Verif.Model.Integrator
import Verif.Model.Physics

/-!
# Data sets of simulated transitions: examples/tinydiffsim/learn_ca_dyn.py, examples/pole/learn_relu_dynamics.py
-/

namespace NNL.Model

variable {K : Type} [Field K] [LinearOrder K]

/-- learn_ca_dyn.py 57-60: `for i in range(n): buf[i] = src[i]`; `none` is an index out of range. -/
def copyInto (buf src : List K) : ℕ → Option (List K)
  | 0 => some buf
  | n + 1 => (copyInto buf src n).bind fun b =>
    if n < b.length then (src[n]?).map fun v => b.set n v else none

/-- learn_ca_dyn.py 61-68: the loop over the forces, `k` rounds left; `i` and `j` are the loop variables. -/
def forceLoop (mask : List Bool) (u : List K) : ℕ → ℕ → ℕ → List K → Option (ℕ × List K)
  | 0, _, j, tau => some (j, tau)
  | k + 1, i, j, tau =>
    match mask[i]? with
    | none => none
    | some true =>
      match u[j]? with
      | none => none
      | some v => forceLoop mask u k (i + 1) (j + 1) (tau.set i v)
    | some false => forceLoop mask u k (i + 1) j (tau.set i 0)

/-- The buffers `q`, `qd`, `tau` (learn_ca_dyn.py 36-38), which are reused for all samples. -/
structure BodyBuf (K : Type) where
  q : List K
  qd : List K
  tau : List K

/-- learn_ca_dyn.py 54-78: one round. `fd` is `pd.forward_dynamics`: the accelerations for positions, velocities and
forces. -/
def bodySample (fd : List K → List K → List K → List K) (mask : List Bool) (b : BodyBuf K) (s : List K) :
    Option (BodyBuf K × List K × List K) := do
  let nq := b.q.length
  let nv := b.qd.length
  let nu := mask.count true
  let qs := s.take nq
  let qds := (s.drop nq).take nv
  let us := (s.drop (nq + nv)).take nu
  let q ← copyInto b.q qs nq
  let qd ← copyInto b.qd qds nv
  let (j, tau) ← forceLoop mask us b.tau.length 0 0 b.tau
  if j = nu then some (⟨q, qd, tau⟩, s, qds ++ fd q qd tau) else none

/-- learn_ca_dyn.py 53-78: the loop over the samples. -/
def bodyLoop (fd : List K → List K → List K → List K) (mask : List Bool) :
    BodyBuf K → List (List K) → Option (List (List K × List K))
  | _, [] => some []
  | b, s :: l => (bodySample fd mask b s).bind fun r => (bodyLoop fd mask r.1 l).map fun t => r.2 :: t

/-- learn_ca_dyn.py 28-84 `generate_dataset`; `buf` are the buffers before the loop. `torch.cat` of no rows raises. -/
def bodyDataset (fd : List K → List K → List K → List K) (mask : List Bool) (buf : BodyBuf K)
    (qLo qdLo uLo qUp qdUp uUp : List K) (draws : List (List K)) : Option (List (List K × List K)) := do
  let samples ← sampleInBox (qLo ++ qdLo ++ uLo) (qUp ++ qdUp ++ uUp) draws
  let l ← bodyLoop fd mask buf samples
  if l = [] then none else some l

/-- learn_ca_dyn.py 87-105 `get_models`: the sizes of the outputs of the two networks. -/
def bodyModelSizes (nq nv nu : ℕ) : ℕ × ℕ := (nq + nv, (nq + nv) * nu)

/-! ## The pole -/

/-- pole.py 77-113 in floating point: `torch.sqrt` of a negative number is NaN, and so is then the derivative. (For
the ball exactly at the height of the plate the code divides by zero; this is `none` as well.) -/
noncomputable def PoleDyn.dynNan (P : PoleDyn) (x : Fin 7 → ℝ) (u : Fin 3 → ℝ) : Option (Fin 7 → ℝ) :=
  if 0 < P.length ^ 2 - x 0 ^ 2 - x 1 ^ 2 then P.dyn x u else none

/-- learn_relu_dynamics.py 27-35: one round of `rk4_constant_control` (integrator.py 19-23); `none` is NaN. -/
noncomputable def PoleDyn.label (P : PoleDyn) (dt : ℝ) (x : Fin 7 → ℝ) (u : Fin 3 → ℝ) : Option (Fin 7 → ℝ) := do
  let k1 ← P.dynNan x u
  let k2 ← P.dynNan (x + (dt / 2) • k1) u
  let k3 ← P.dynNan (x + (dt / 2) • k2) u
  let k4 ← P.dynNan (x + dt • k3) u
  some (x + (1 / 6 * dt) • (k1 + (2 : ℝ) • k2 + (2 : ℝ) • k3 + k4))

/-- utils.py 1325-1336 `uniform_sample_in_box`, for one row of draws. -/
def boxSample {n : ℕ} (lo up r : Fin n → ℝ) : Fin n → ℝ := fun i => r i * (up i - lo i) + lo i

/-- learn_relu_dynamics.py 10-12: the bounds of the states. -/
def PoleDyn.stateUp (P : PoleDyn) : Fin 7 → ℝ := ![P.length, P.length, 2, 2, 1, 2, 2]

/-- learn_relu_dynamics.py 18-19: the lower bounds of the forces. -/
noncomputable def PoleDyn.forceLo (P : PoleDyn) : Fin 3 → ℝ :=
  ((P.mSphere + P.mEe) * P.gravity) • ![-1, -1, 0.5]

/-- learn_relu_dynamics.py 20-21: the upper bounds of the forces. -/
noncomputable def PoleDyn.forceUp (P : PoleDyn) : Fin 3 → ℝ :=
  ((P.mSphere + P.mEe) * P.gravity) • ![1, 1, 1.5]

open Classical in
/-- learn_relu_dynamics.py 9-42 `generate_dataset`; `xDraws` and `uDraws` are the draws for the states and for the
forces of the states that are kept (22). -/
noncomputable def PoleDyn.dataset (P : PoleDyn) (dt : ℝ) (xDraws : List (Fin 7 → ℝ)) (uDraws : List (Fin 3 → ℝ)) :
    List (((Fin 7 → ℝ) × (Fin 3 → ℝ)) × (Fin 7 → ℝ)) :=
  let xs := (xDraws.map (boxSample (-P.stateUp) P.stateUp)).filter
    fun x => decide (√(x 0 ^ 2 + x 1 ^ 2) < 0.7 * P.length)
  let us := uDraws.map (boxSample P.forceLo P.forceUp)
  (xs.zip us).filterMap fun p => (P.label dt p.1 p.2).map fun y => (p, y)

end NNL.Model
