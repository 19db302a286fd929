import Mathlib.Algebra.Field.Defs
import Mathlib.Tactic.Ring

/-!
# `utils.compute_numerical_gradient`
-/

namespace NNL.Model

variable {K : Type} [Field K]

/-- utils.py 628, 636, 638: assigns the entry `i` of the argument `k`. -/
def setArgEntry (args : List (List K)) (k i : ℕ) (v : K) : List (List K) := args.modify k fun a => a.set i v

/-- utils.py 627-647: one round of the inner loop, with the state of `perturbed_args`; returns the state and the column `i` of the
gradient. `fun` returns an array (for a float, an array of one entry). -/
def numGradEntry (f : List (List K) → List K) (dx : K) (k : ℕ) (args : List (List K)) (i : ℕ) :
    Option (List (List K) × List K) := do
  let arg ← args[k]?
  let val ← arg[i]?
  let args1 := setArgEntry args k i (val + dx)
  let plus := f args1
  let args2 := setArgEntry args1 k i (val + dx - 2 * dx)
  let minus := f args2
  some (setArgEntry args2 k i val, List.zipWith (fun p m => (p - m) / (2 * dx)) plus minus)

/-- utils.py 627-647: the inner loop over the entries of the argument `k`; returns the columns of its gradient. -/
def numGradArg (f : List (List K) → List K) (dx : K) (k : ℕ) : List ℕ → List (List K) → Option (List (List K) × List (List K))
  | [], args => some (args, [])
  | i :: is, args => do
    let r ← numGradEntry f dx k args i
    let rs ← numGradArg f dx k is r.1
    some (rs.1, r.2 :: rs.2)

/-- utils.py 624-647: the outer loop over the arguments. -/
def numGradLoop (f : List (List K) → List K) (dx : K) : List ℕ → List (List K) → Option (List (List K) × List (List (List K)))
  | [], args => some (args, [])
  | k :: ks, args => do
    let arg ← args[k]?
    let r ← numGradArg f dx k (List.range arg.length) args
    let rs ← numGradLoop f dx ks r.1
    some (rs.1, r.2 :: rs.2)

/-- utils.py 604-651 `compute_numerical_gradient`: for each argument the columns of the gradient (the case of a single argument, which
is returned without the list, is not distinguished). -/
def numericalGradient (f : List (List K) → List K) (dx : K) (args : List (List K)) : Option (List (List (List K))) :=
  (numGradLoop f dx (List.range args.length) args).map (·.2)

end NNL.Model
