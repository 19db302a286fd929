import Verif.Basic.Vec

/-!
# Specification: the error of a model on a sample
-/

namespace NNL.Spec

open NNL

/-- The squared error of the model on one sample. -/
def sampleError {K P : Type*} [Field K] (model : P → Vec K → Vec K) (p : P) (d : Vec K × Vec K) : K :=
  ((vsub (model p d.1) d.2).map fun e => e * e).sum

end NNL.Spec
