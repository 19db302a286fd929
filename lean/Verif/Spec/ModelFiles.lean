import Verif.Model.Params

/-!
# The function of a `torch.nn.Sequential`
-/

set_option linter.unusedSectionVars false

namespace NNL.Spec

open NNL NNL.Model

variable {K : Type*} [Field K] [LinearOrder K]

/-- `torch.nn.Sequential(*layers)(x)`. -/
def seqEval : List (Layer K) → Vec K → Vec K
  | [], x => x
  | .lin l :: ls, x => seqEval ls (l.eval x)
  | .act a :: ls, x => seqEval ls (x.map a.f)

end NNL.Spec
