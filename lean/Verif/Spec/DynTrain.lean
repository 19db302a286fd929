import Verif.Model.DynTrain

/-!
Specification for C111: what a history of training says.
-/

namespace NNL.Spec

open NNL.Model

variable {W B K : Type}

/-- The batches whose losses were descended, with the step number under which they were logged. -/
def stepsOf (t : List (DynEv W B K)) : List (B × ℕ) :=
  t.filterMap fun | .step n b => some (b, n) | _ => none

/-- The step numbers under which the losses of the programs were logged. -/
def programsOf (t : List (DynEv W B K)) : List ℕ :=
  t.filterMap fun | .program n _ => some n | _ => none

/-- The saved models. -/
def savesOf (t : List (DynEv W B K)) : List W :=
  t.filterMap fun | .saved w => some w | _ => none

/-- `n` is a step at which the programs are due. -/
def Due (freq n : ℕ) : Prop := 0 < freq ∧ freq ∣ n

instance (freq n : ℕ) : Decidable (Due freq n) := inferInstanceAs (Decidable (_ ∧ _))

/-- From state `s` to state `r`, out of the batches `all` the first `m` have been finished; a further one may have been begun:
the batches descended are `all` up to `k`, and the programs have been solved at exactly the steps that are due up to `j`. -/
structure Did (freq : ℕ) (all : List B) (s r : DynSt W B K) (m j k : ℕ) : Prop where
  iter : r.nIter = s.nIter + m
  steps : stepsOf r.trace = stepsOf s.trace ++ (all.take k).zipIdx s.nIter
  programs : programsOf r.trace = programsOf s.trace ++ (List.range' s.nIter j).filter (Due freq ·)

end NNL.Spec
