import Verif.Model.Hybrid

/-!
# Simulated cost-to-go (hybrid_linear_system.py 659-710, 781-836)
-/

set_option linter.unusedSectionVars false

namespace NNL.Model

open NNL NNL.Spec

variable {K : Type*} [Field K] [LinearOrder K]

/-- hybrid_linear_system.py 692: `x_goal is not None and norm(x - x_goal) < 1e-3`, with the squared norm. -/
def nearGoal (goal : Option (Vec K)) (x : Vec K) : Bool :=
  match goal with
  | none => false
  | some g => decide (((vsub x g).map fun a => a * a).sum < 1 / 1000000)

/-- hybrid_linear_system.py 695-700: the successor by the first mode that contains `x`; `none` is the failed
assertion. -/
def firstSucc (S : AutoHybrid K) (x : Vec K) : Option (Vec K) :=
  match firstIdx (fun md => polyHas md.P md.q x) S.modes 0 with
  | none => none
  | some j => (S.modes[j]?).map fun (md : AMode K) => vadd (matVec md.A x) md.g

/-- The local variables of hybrid_linear_system.py 683-704; the lists hold the entries filled so far. -/
structure Roll (K : Type*) where
  xs : List (Vec K)
  fromStart : List K
  steps : List K
  total : K

/-- hybrid_linear_system.py 691-704: the loop, `k` iterations left. -/
def rollLoop (S : AutoHybrid K) (goal : Option (Vec K)) (cost : Vec K → K) : ℕ → Roll K → Option (Roll K)
  | 0, r => some r
  | k + 1, r =>
    let x := r.xs.getLastD []
    if nearGoal goal x then some r
    else
      match firstSucc S x with
      | none => none
      | some y =>
        rollLoop S goal cost k
          { xs := r.xs ++ [y]
            steps := r.steps ++ [cost y]
            total := r.total + cost y
            fromStart := r.fromStart ++ [r.fromStart.getLastD 0 + cost y] }

/-- hybrid_linear_system.py 659-710 `compute_discrete_time_system_cost_to_go`: total cost, states, costs.
`total_cost` is updated in place in the source; a cost function that returns a view of its argument or of its
own state would see this. It is assumed to return a new tensor. -/
def costToGo (S : AutoHybrid K) (x0 : Vec K) (N : ℕ) (cost : Vec K → K) (goal : Option (Vec K)) :
    Option (K × List (Vec K) × List K) :=
  if x0.length = S.xdim ∧ (∀ g ∈ goal, g.length = S.xdim) then
    match rollLoop S goal cost N ⟨[x0], [cost x0], [cost x0], cost x0⟩ with
    | none => none
    | some r => some (r.total, r.xs,
        (List.range r.xs.length).map fun i => r.total - r.fromStart.getD i 0 + r.steps.getD i 0)
  else none

/-- The exceptions of the two simulations. -/
inductive SimExc where
  | assertion
  | stepForward

/-- hybrid_linear_system.py 830-833: a state is kept unless the pruner says so. -/
def keepPair (pruner : Option (Vec K → Bool)) (p : Vec K × K) : Bool :=
  match pruner with
  | none => true
  | some f => !f p.1

/-- hybrid_linear_system.py 820-835: `sim` is the simulation from one sample (states and their costs). Only
`StepForwardException` is caught. -/
def sampleLoop (sim : Vec K → Except SimExc (List (Vec K × K))) (pruner : Option (Vec K → Bool)) :
    List (Vec K) → Except SimExc (List (Vec K × K))
  | [] => .ok []
  | x0 :: l =>
    match sim x0 with
    | .ok ps =>
      match sampleLoop sim pruner l with
      | .ok r => .ok (ps.filter (keepPair pruner) ++ r)
      | .error e => .error e
    | .error .stepForward => sampleLoop sim pruner l
    | .error .assertion => .error .assertion

/-- hybrid_linear_system.py 822-825: the discrete-time simulation from one sample. -/
def discreteSim (S : AutoHybrid K) (N : ℕ) (cost : Vec K → K) (goal : Option (Vec K)) (x0 : Vec K) :
    Except SimExc (List (Vec K × K)) :=
  match costToGo S x0 N cost goal with
  | some r => .ok (r.2.1.zip r.2.2)
  | none => .error .assertion

/-- hybrid_linear_system.py 781-836 `generate_cost_to_go_samples` with `discrete_time_flag=True`. -/
def discreteSamples (S : AutoHybrid K) (x0s : List (Vec K)) (N : ℕ) (cost : Vec K → K) (goal : Option (Vec K))
    (pruner : Option (Vec K → Bool)) : Except SimExc (List (Vec K × K)) :=
  sampleLoop (discreteSim S N cost goal) pruner x0s

end NNL.Model
