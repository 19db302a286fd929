import Mathlib.Algebra.Order.Floor.Semiring
import Mathlib.Data.List.Basic
import Mathlib.Tactic.NormNum

/-!
# Data generation with a physics simulator (pybullet_data_generation.py)

The simulator is a parameter: `P` is its state, `I` an image (one block of channels), `X` a state vector of the robot.
-/

namespace NNL.Model

/-- What the generator uses of the simulator: `reset` is `restoreState` followed by setting the state of the robot, `sim` is `stepSimulation`, `cam` is
the image as it is stored, and `read` reads the state of the robot back; it may raise. -/
structure PbWorld (X P I : Type) where
  reset : X → P
  sim : P → P
  cam : P → I
  read : P → Option X

variable {X P I K : Type}

/-- pybullet_data_generation.py 196: `num_step`, with `timestep` from line 136; `int` truncates, and `range` of a negative number is empty. -/
def numStep [Field K] [LinearOrder K] [IsStrictOrderedRing K] [FloorSemiring K] (timestep dt : K) : ℕ := ⌊dt * ((1 / 2) / timestep)⌋₊

/-- pybullet_data_generation.py 179-279 `generate_sample`, without the assertions: `x1`, `X` and `X_next`. `k` is `num_step`. -/
def PbWorld.sample (W : PbWorld X P I) (k : ℕ) (x0 : X) : Option (X × (I × I) × I) :=
  let p0 := W.reset x0
  let p1 := W.sim^[k] p0
  let p2 := W.sim^[k] p1
  (W.read p2).bind fun x1 => some (x1, (W.cam p0, W.cam p1), W.cam p2)

/-- pybullet_data_generation.py 281-299 `generate_rollout`: `x_data` and `X_data`. -/
def PbWorld.rollout (W : PbWorld X P I) (k : ℕ) (x0 : X) (N : ℕ) : Option (List X × List I) := do
  let r ← W.sample k x0
  (List.range N).foldlM (fun (s : List X × List I) n => do
    let x ← s.1[n]?
    let q ← W.sample k x
    some (s.1 ++ [q.1], s.2 ++ [q.2.2])) ([x0], [r.2.1.1, r.2.1.2])

/-- A row of the data: `x_data`, `x_next_data`, `X_data` and `X_next_data`. -/
abbrev PbRow (X I : Type) := X × X × (I × I) × I

/-- pybullet_data_generation.py 338-345: the rows of rollout `i`; a row that has not been written is `none`. -/
def pbRows (N i : ℕ) (r : List X × List I) (s : List (Option (PbRow X I))) : Option (List (Option (PbRow X I))) :=
  (List.range N).foldlM (fun s n => do
    let a ← r.2[n]?
    let b ← r.2[n + 1]?
    let c ← r.2[n + 2]?
    let x ← r.1[n]?
    let x' ← r.1[n + 1]?
    if i * N + n < s.length then some (s.set (i * N + n) (some (x, x', (a, b), c))) else none) s

/-- pybullet_data_generation.py 301-346 `generate_dataset`; `x0 i` is the initial state that is drawn for rollout `i`. -/
def PbWorld.dataset (W : PbWorld X P I) (k N R : ℕ) (x0 : ℕ → X) : Option (List (Option (PbRow X I))) :=
  if 1 ≤ N then
    (List.range R).foldlM (fun s i => (W.rollout k (x0 i) N).bind fun r => pbRows N i r s) (List.replicate (R * N) none)
  else none

/-- pybullet_data_generation.py 348-362 `data_to_rollouts`. -/
def PbWorld.toRollouts (W : PbWorld X P I) (k N : ℕ) (xs : List X) : Option (List (List X) × List (List I)) :=
  (xs.mapM fun x => W.rollout k x N).map fun l => (l.map Prod.fst, l.map Prod.snd)

/-- pybullet_data_generation.py 331-337: one coordinate of the initial state; `g` is the normal and `u` the uniform draw. -/
def drawX0 [Field K] [LinearOrder K] (normal : Option (K × K)) (lo up g u : K) : K :=
  match normal with
  | some (mean, std) => max (min (g * std + mean) up) lo
  | none => u * (up - lo) + lo

/-- pybullet_data_generation.py 242-276: one pixel, as `generate_sample` stores it; `c` are the colours, 0 to 255. -/
def storedPixel [Field K] [LinearOrder K] (grayscale : Bool) (c : K × K × K) : List K :=
  if grayscale then [max 0 (min 1 ((2989 / 10000 * c.1 + 587 / 1000 * c.2.1 + 114 / 1000 * c.2.2) / 255))]
  else [max 0 (min 1 (c.1 / 255)), max 0 (min 1 (c.2.1 / 255)), max 0 (min 1 (c.2.2 / 255))]

/-- What `getJointStates` returns for a joint: position, velocity, the six reaction forces (a tuple) and the torque. -/
structure JointState (K : Type) where
  pos : K
  vel : K
  forces : List K
  torque : K

/-- The entries of that tuple. -/
def JointState.entries (j : JointState K) : List (K ⊕ List K) := [.inl j.pos, .inl j.vel, .inr j.forces, .inl j.torque]

/-- `torch.tensor` of a tuple whose first entry is a number or that is empty: it raises if some entry is a tuple. A tuple that begins with a tuple also
counts as raising here; see `readJoints`, where the following `torch.cat` would raise. -/
def tensorOf (l : List (K ⊕ List K)) : Option (List K) := l.mapM fun e => match e with | .inl a => some a | .inr _ => none

/-- pybullet_data_generation.py 227-232: the state of the robot in joint space. -/
def readJoints (js : List (JointState K)) : Option (List K) := do
  let s ← js[0]?
  let q ← tensorOf (s.entries.take js.length)
  let v ← tensorOf ((s.entries.drop js.length).take js.length)
  some (q ++ v)

/-- pybullet_data_generation.py 249: numpy assigns an array of shape `src` to one of shape `dst` if every length agrees or is 1. -/
def assignable (dst src : List ℕ) : Bool := dst.length == src.length && (List.zipWith (fun d s => s == 1 || s == d) dst src).all id

/-- pybullet_data_generation.py 198-199, 249: the shapes of `X_next` and of the transposed camera image. -/
def imageFits (width height : ℕ) : Bool := assignable [3, width, height] [3, height, width]

end NNL.Model
