import Verif.Model.RrtStar

/-!
# What a tree of `RrtStar` stands for
-/

namespace NNL.Spec

open NNL.Model

variable {K : Type} [Field K] [LinearOrder K]

/-- `l` are the nodes on the way from `i` to the goal, node 0, from parent to parent. -/
inductive Route (t : RrtStar K) : ℕ → List ℕ → Prop
  | goal : t.parent[0]? = some none → Route t 0 [0]
  | step {i p : ℕ} {l : List ℕ} : t.parent[i]? = some (some p) → Route t p l → Route t i (i :: l)

/-- The data of the tree are consistent: the goal is the only node without parent, from each node the parents lead to the goal,
the sets of children are those of the nodes with this parent, costs are not negative, the cost of a node to the root is the sum
of the costs on its way, and the stored path of a node leads from its state to the state of its parent. -/
structure GoodTree (t : RrtStar K) : Prop where
  pos : 0 < t.state.length
  len_parent : t.parent.length = t.state.length
  len_children : t.children.length = t.state.length
  len_costRoot : t.costRoot.length = t.state.length
  len_costParent : t.costParent.length = t.state.length
  len_toParent : t.toParent.length = t.state.length
  route : ∀ i < t.state.length, ∃ l, Route t i l ∧ t.costRoot[i]? = some (l.map fun j => t.costParent.getD j 0).sum
  goal_cost : t.costParent[0]? = some 0
  children : ∀ (i : ℕ) (s : Finset ℕ), t.children[i]? = some s → ∀ j, j ∈ s ↔ t.parent[j]? = some (some i)
  nonneg : ∀ c ∈ t.costParent, 0 ≤ c
  path : ∀ i p : ℕ, t.parent[i]? = some (some p) → ∃ xs us dts, t.toParent[i]? = some (some (xs, us, dts)) ∧
    xs.head? = t.state[i]? ∧ xs.getLast? = t.state[p]?

/-- `find_path` returns paths between the given states, of nonnegative cost. -/
def PathsOk (findPath : (Fin 3 → K) → (Fin 3 → K) → Option (Path K)) : Prop :=
  ∀ x1 x2 q, findPath x1 x2 = some q → 0 ≤ q.cost ∧ q.x.head? = some x1 ∧ q.x.getLast? = some x2

/-- The order of iteration of a set visits each element once. -/
def IterOk (ord : Finset ℕ → List ℕ) : Prop := ∀ s, (ord s).Nodup ∧ ∀ j, j ∈ ord s ↔ j ∈ s

end NNL.Spec
