import Verif.Model.TrainBarrier

/-!
# What the solver is assumed to return
-/

namespace NNL.Spec

open NNL NNL.Model

variable {K : Type} [Field K] [LinearOrder K]

/-- Every solution of the pool is a point of the program `m`: `x` are the state variables, `g` the binaries of the
dynamics, and `PoolObjVal` is its objective. -/
def PoolOf (m : Mip K) (x g : List ℕ) (s : Solve K) : Prop :=
  ∀ p ∈ s.pool, ∃ v, m.Feas v ∧ p.x = x.map v ∧ p.gamma = g.map v ∧ p.obj = m.objVal v

/-- `a` is the optimum of the maximisation program `m`. -/
def IsMaxOf (m : Mip K) (a : K) : Prop := (∃ v, m.Feas v ∧ m.objVal v = a) ∧ ∀ v, m.Feas v → m.objVal v ≤ a

/-- `a` is the optimum of the minimisation program `m`. -/
def IsMinOf (m : Mip K) (a : K) : Prop := (∃ v, m.Feas v ∧ m.objVal v = a) ∧ ∀ v, m.Feas v → a ≤ m.objVal v

/-- `a` is the largest value of `f` on `S`. -/
def MaxOn (S : Vec K → Prop) (f : Vec K → K) (a : K) : Prop := (∃ x, S x ∧ f x = a) ∧ ∀ x, S x → f x ≤ a

/-- `a` is the smallest value of `f` on `S`. -/
def MinOn (S : Vec K → Prop) (f : Vec K → K) (a : K) : Prop := (∃ x, S x ∧ f x = a) ∧ ∀ x, S x → a ≤ f x

end NNL.Spec
