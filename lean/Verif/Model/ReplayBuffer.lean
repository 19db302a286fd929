import Mathlib.Data.List.Basic

/-!
# `ReplayBuffer` (examples/rl/td3.py)

The rounding to `float32` is not modelled.
-/

namespace NNL.Model

/-- The arguments of `store`. -/
structure Transition (O A R : Type*) where
  obs : O
  act : A
  rew : R
  nextObs : O
  done : R

/-- td3.py 85-98: the fields of a `ReplayBuffer`. -/
structure ReplayBuffer (O A R : Type*) where
  obsBuf : List O
  obs2Buf : List O
  actBuf : List A
  rewBuf : List R
  doneBuf : List R
  ptr : ℕ
  size : ℕ
  maxSize : ℕ

variable {O A R : Type*}

/-- td3.py 89-98 `ReplayBuffer.__init__`; `o0`, `a0`, `r0` are zeros. -/
def ReplayBuffer.init (o0 : O) (a0 : A) (r0 : R) (size : ℕ) : ReplayBuffer O A R where
  obsBuf := List.replicate size o0
  obs2Buf := List.replicate size o0
  actBuf := List.replicate size a0
  rewBuf := List.replicate size r0
  doneBuf := List.replicate size r0
  ptr := 0
  size := 0
  maxSize := size

/-- td3.py 100-107 `store`. -/
def ReplayBuffer.store (b : ReplayBuffer O A R) (t : Transition O A R) : ReplayBuffer O A R where
  obsBuf := b.obsBuf.set b.ptr t.obs
  obs2Buf := b.obs2Buf.set b.ptr t.nextObs
  actBuf := b.actBuf.set b.ptr t.act
  rewBuf := b.rewBuf.set b.ptr t.rew
  doneBuf := b.doneBuf.set b.ptr t.done
  ptr := (b.ptr + 1) % b.maxSize
  size := min (b.size + 1) b.maxSize
  maxSize := b.maxSize

/-- A batch of transitions, field by field. -/
structure Batch (O A R : Type*) where
  obs : List O
  obs2 : List O
  act : List A
  rew : List R
  done : List R

/-- td3.py 109-117 `sample_batch`: `idxs` are the draws of `np.random.randint(0, self.size)`, which raises if the buffer is empty. -/
def ReplayBuffer.sampleBatch (b : ReplayBuffer O A R) (idxs : List ℕ) : Option (Batch O A R) :=
  if b.size = 0 then none
  else
    (idxs.mapM (b.obsBuf[·]?)).bind fun obs =>
    (idxs.mapM (b.obs2Buf[·]?)).bind fun obs2 =>
    (idxs.mapM (b.actBuf[·]?)).bind fun act =>
    (idxs.mapM (b.rewBuf[·]?)).bind fun rew =>
    (idxs.mapM (b.doneBuf[·]?)).bind fun done =>
    some ⟨obs, obs2, act, rew, done⟩

end NNL.Model
