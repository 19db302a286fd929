import Mathlib.Algebra.Order.Field.Basic
import Mathlib.Algebra.Order.Monoid.WithTop
import Mathlib.Data.Finset.Basic

/-!
# `examples/car/rrt_star.py`

The tree of `RrtStar`. The solver behind `find_path`, the simulations of `extend_node`, the random samples and the iteration
order of the sets of children are parameters. An index out of range, `None` as an index and a `KeyError` are `none`.
-/

namespace NNL.Model

/-- rrt_star.py 117-138: what `find_path` returns on success: `x`, `u` as lists of columns, and `dt`. On failure it returns
the cost `np.inf` alone: `none`. -/
structure Path (K : Type) where
  cost : K
  x : List (Fin 3 → K)
  u : List (Fin 2 → K)
  dt : List K

/-- rrt_star.py 12-35: the fields of `RrtStar`. The lists `node_to_parent_x`, `node_to_parent_u` and `node_to_parent_dt` are one
list of triples. -/
structure RrtStar (K : Type) where
  state : List (Fin 3 → K)
  parent : List (Option ℕ)
  children : List (Finset ℕ)
  costRoot : List K
  costParent : List K
  toParent : List (Option (List (Fin 3 → K) × List (Fin 2 → K) × List K))

namespace RrtStar

variable {K : Type} [Field K] [LinearOrder K]

/-- rrt_star.py 12-35, 66-78 `RrtStar.__init__` with `_add_goal`. -/
def init (goal : Fin 3 → K) : RrtStar K := ⟨[goal], [none], [∅], [0], [0], [none]⟩

/-- rrt_star.py 41-64 `RrtStar._add_node_with_path`; returns the tree and the index of the node. -/
def addNode (t : RrtStar K) (x : Fin 3 → K) (p : ℕ) (c : K) (path : List (Fin 3 → K) × List (Fin 2 → K) × List K) :
    Option (RrtStar K × ℕ) := do
  let ch ← t.children[p]?
  let r ← t.costRoot[p]?
  some ({
    state := t.state ++ [x]
    parent := t.parent ++ [some p]
    children := t.children.set p (insert t.state.length ch) ++ [∅]
    costRoot := t.costRoot ++ [c + r]
    costParent := t.costParent ++ [c]
    toParent := t.toParent ++ [some path] }, t.state.length)

/-- rrt_star.py 80-84 `RrtStar.state_distance` of two states. -/
def stateDistance (x1 x2 : Fin 3 → K) : K :=
  1 * (x1 0 - x2 0) * (x1 0 - x2 0) + 1 * (x1 1 - x2 1) * (x1 1 - x2 1) + 1 / 2 * (x1 2 - x2 2) * (x1 2 - x2 2)

/-- `np.argmin` of a list: the first index of a smallest entry; an empty list is an error. -/
def argmin {α : Type} [LinearOrder α] : List α → Option ℕ
  | [] => none
  | a :: as =>
    match argmin as with
    | none => some 0
    | some i => if as.all (a ≤ ·) then some 0 else some (i + 1)

/-- rrt_star.py 86-94 `RrtStar.nearest_node`. -/
def nearestNode (t : RrtStar K) (x : Fin 3 → K) : Option ℕ := argmin (t.state.map fun s => stateDistance s x)

/-- rrt_star.py 140-147 `RrtStar.neighbours`. -/
def neighbours (t : RrtStar K) (x : Fin 3 → K) (radius : K) : List ℕ :=
  ((List.range t.state.length).zip t.state).filterMap fun e => if stateDistance e.2 x ≤ radius then some e.1 else none

/-- rrt_star.py 168-171: the inner loop over the children of one set. -/
def visit (t : RrtStar K) (q : List (Finset ℕ)) : List ℕ → Option (RrtStar K × List (Finset ℕ))
  | [] => some (t, q)
  | c :: cs => do
    let p ← t.parent[c]?
    let p ← p
    let r ← t.costRoot[p]?
    let k ← t.costParent[c]?
    let ch ← t.children[c]?
    visit { t with costRoot := t.costRoot.set c (r + k) } (q ++ [ch]) cs

/-- rrt_star.py 166-172: the loop over the queue, `none` if it has not ended after the given number of rounds. `ord` is the
order in which a set is iterated over. -/
def descend (ord : Finset ℕ → List ℕ) : ℕ → List (Finset ℕ) → RrtStar K → Option (RrtStar K)
  | _, [], t => some t
  | 0, _ :: _, _ => none
  | n + 1, s :: q, t => do
    let r ← t.visit q (ord s)
    descend ord n r.2 r.1

/-- rrt_star.py 149-172 `RrtStar.update_parent`. The loop over the queue is given as many rounds as the tree has nodes (C92
proves that it needs no more). -/
def updateParent (ord : Finset ℕ → List ℕ) (t : RrtStar K) (i p : ℕ) (c : K)
    (path : List (Fin 3 → K) × List (Fin 2 → K) × List K) : Option (RrtStar K) := do
  let old ← t.parent[i]?
  let old ← old
  let cho ← t.children[old]?
  if i ∉ cho then none
  else
    let children1 := t.children.set old (cho.erase i)
    let chp ← children1[p]?
    let rp ← t.costRoot[p]?
    let t1 : RrtStar K := { t with
      parent := t.parent.set i (some p)
      children := children1.set p (insert i chp)
      costParent := t.costParent.set i c
      costRoot := t.costRoot.set i (rp + c)
      toParent := t.toParent.set i (some path) }
    let ch ← t1.children[i]?
    descend ord t.state.length [ch] t1

/-- rrt_star.py 200-209: one round of the rewiring loop; `n` is the new node and `newCost` its cost to the root. -/
def rewire (ord : Finset ℕ → List ℕ) (n : ℕ) (newCost : K) (t : RrtStar K) (e : ℕ × Option (Path K)) : Option (RrtStar K) := do
  let r ← t.costRoot[e.1]?
  match e.2 with
  | none => some t
  | some path =>
    if path.cost + newCost < r then
      t.updateParent ord e.1 n path.cost (path.x.reverse, path.u.reverse, path.dt.reverse)
    else some t

/-- The cost of a result of `find_path`. -/
def pathCost (p : Option (Path K)) : WithTop K := p.elim ⊤ fun q => (q.cost : WithTop K)

/-- rrt_star.py 174-212 `RrtStar.connect_state_extend`; returns the tree and the index of the new node. -/
def connect (ord : Finset ℕ → List ℕ) (findPath : (Fin 3 → K) → (Fin 3 → K) → Option (Path K)) (t : RrtStar K)
    (x : Fin 3 → K) (nb : List ℕ) : Option (RrtStar K × Option ℕ) := do
  let paths ← nb.mapM fun i => (t.state[i]?).map fun s => findPath x s
  if paths.any (·.isSome) then
    let roots ← nb.mapM fun i => t.costRoot[i]?
    let b ← argmin (List.zipWith (fun p (r : K) => pathCost p + (r : WithTop K)) paths roots)
    let p ← nb[b]?
    let path ← paths[b]?
    let path ← path
    let r ← t.costRoot[p]?
    let tn ← t.addNode x p path.cost (path.x, path.u, path.dt)
    let t' ← (nb.zip paths).foldlM (rewire ord tn.2 (path.cost + r)) tn.1
    some (t', some tn.2)
  else some (t, none)

/-- One round of `grow_tree`: the sample, and where the simulations of `extend_node` lead from a state. -/
structure Round (K : Type) where
  sample : Fin 3 → K
  extend : (Fin 3 → K) → Fin 3 → K

/-- rrt_star.py 225-234: the body of the loop of `RrtStar.grow_tree`. -/
def growStep (ord : Finset ℕ → List ℕ) (findPath : (Fin 3 → K) → (Fin 3 → K) → Option (Path K)) (t : RrtStar K)
    (e : Round K) : Option (RrtStar K) := do
  let n ← t.nearestNode e.sample
  let s ← t.state[n]?
  let x := e.extend s
  let nb := t.neighbours x (1 / 5)
  if 0 < nb.length then do
    let r ← t.connect ord findPath x nb
    some r.1
  else some t

/-- rrt_star.py 223-234 `RrtStar.grow_tree`, for the rounds that the random samples give (the tree after as many rounds). -/
def growTree (ord : Finset ℕ → List ℕ) (findPath : (Fin 3 → K) → (Fin 3 → K) → Option (Path K)) (maxNodes : ℕ) :
    List (Round K) → RrtStar K → Option (RrtStar K)
  | [], t => some t
  | e :: es, t => if t.state.length < maxNodes then do
      let t' ← t.growStep ord findPath e
      growTree ord findPath maxNodes es t'
    else some t

end RrtStar

end NNL.Model
