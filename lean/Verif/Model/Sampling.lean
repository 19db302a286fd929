import Mathlib.Algebra.Order.Floor.Semiring
import Mathlib.Algebra.Order.Field.Basic

/-!
# Samples in a box, `utils.py`

The numbers that `torch.rand` draws are arguments; they lie in `[0, 1)`.
-/

namespace NNL.Model

variable {K : Type} [Field K] [LinearOrder K]

/-- utils.py 1325-1336 `uniform_sample_in_box` for one row `r` of draws. -/
def sampleInBoxRow (lo hi r : List K) : List K := List.zipWith (fun l p => p + l) lo (List.zipWith (fun r d => r * d) r (List.zipWith (· - ·) hi lo))

/-- utils.py 1325-1336 `uniform_sample_in_box`; `draws` has one row for each sample. -/
def sampleInBox (lo hi : List K) (draws : List (List K)) : Option (List (List K)) :=
  if hi.length = lo.length then some (draws.map (sampleInBoxRow lo hi)) else none

/-- utils.py 1347-1352: the loop body of `uniform_sample_on_box_boundary` for one sample and the draw of its face; an index out of
range is an error. -/
def moveToFace [FloorSemiring K] (lo hi sample : List K) (draw : K) : Option (List K) :=
  let rand := draw * 2 - 1
  let index := ⌊|rand| * (lo.length : K)⌋₊
  if index < sample.length then
    (if rand < 0 then lo[index]? else hi[index]?).map fun v => sample.set index v
  else none

/-- utils.py 1339-1353 `uniform_sample_on_box_boundary`; `faces` has one draw for each sample. -/
def sampleOnBoundary [FloorSemiring K] (lo hi : List K) (draws : List (List K)) (faces : List K) : Option (List (List K)) := do
  let samples ← sampleInBox lo hi draws
  (samples.zip faces).mapM fun e => moveToFace lo hi e.1 e.2

end NNL.Model
