import Verif.Model.Trainer

/-!
# Descent on samples: the states that are visited
-/

namespace NNL.Spec

open NNL NNL.Model

variable {K : Type} [Field K] [LinearOrder K]

/-- The tensors after `k` of `N` epochs (the epoch function is given the number of epochs left). -/
def visited (epoch : ℕ → Tensors K → Tensors K) (N : ℕ) (t : Tensors K) : ℕ → Tensors K
  | 0 => t
  | k + 1 => epoch (N - 1 - k) (visited epoch N t k)

/-- The sum of the two losses. -/
def total (l : K × K) : K := l.1 + l.2

/-- The parameters are different tensors that exist. -/
structure Separate (t : Tensors K) : Prop where
  nodup : (t.net ++ t.ctrl ++ t.rvar.toList).Nodup
  lt : ∀ i ∈ t.net ++ t.ctrl ++ t.rvar.toList, i < t.cells.length

/-- The modules and options hold the same tensors. -/
def SameRefs (t t' : Tensors K) : Prop := t'.net = t.net ∧ t'.ctrl = t.ctrl ∧ t'.rvar = t.rvar

/-- An optimiser on the tensors `T` changes the values of these tensors only. -/
structure Trains (T : List ℕ) (epoch : ℕ → Tensors K → Tensors K) : Prop where
  refs : ∀ n t, SameRefs t (epoch n t)
  len : ∀ n t, (epoch n t).cells.length = t.cells.length
  other : ∀ n t i, i ∉ T → (epoch n t).cells.getD i [] = t.cells.getD i []

end NNL.Spec
