import Verif.Model.RrtStar
import Verif.Model.Sampling
import Mathlib.Analysis.Real.Pi.Bounds

/-!
# `examples/car/rrt_star.py`: samples, simulations and files

`next x u dt` is the last state of `solve_ivp` from `x` with the control `u`. The draws of the random numbers, from `[0, 1)`, are arguments.
-/

namespace NNL.Model

namespace RrtStar

open Real

/-- rrt_star.py 96-115 `RrtStar.extend_node`; `np.vstack` and `np.argmin` raise if there is no sample. -/
noncomputable def extendNode (next : (Fin 3 → ℝ) → (Fin 2 → ℝ) → ℝ → Fin 3 → ℝ) (uLo uUp : Fin 2 → ℝ) (t : RrtStar ℝ) (n : ℕ)
    (draws : List (List ℝ)) (dt : ℝ) (x : Fin 3 → ℝ) : Option (Fin 3 → ℝ) := do
  let us ← sampleInBox (List.ofFn uLo) (List.ofFn uUp) draws
  let s ← t.state[n]?
  let sims := us.map fun u => next s (fun i => u.getD i 0) dt
  let k ← argmin (sims.map fun z => stateDistance z x)
  sims[k]?

/-- rrt_star.py 214-221 `RrtStar.sample_state`. -/
noncomputable def sampleState (r : Fin 3 → ℝ) : Fin 3 → ℝ :=
  ![-5 + (5 - -5) * r 0, -5 + (5 - -5) * r 1, -1.2 * π + (1.2 * π - -1.2 * π) * r 2]

/-- The draws of one round: those of the sampled state and those of the sampled controls. -/
structure RoundDraws where
  state : Fin 3 → ℝ
  controls : List (List ℝ)

/-- rrt_star.py 225-234: the body of the loop of `RrtStar.grow_tree` with its samples and simulations. -/
noncomputable def growStepSim (next : (Fin 3 → ℝ) → (Fin 2 → ℝ) → ℝ → Fin 3 → ℝ) (uLo uUp : Fin 2 → ℝ) (ord : Finset ℕ → List ℕ)
    (findPath : (Fin 3 → ℝ) → (Fin 3 → ℝ) → Option (Path ℝ)) (t : RrtStar ℝ) (d : RoundDraws) : Option (RrtStar ℝ) := do
  let x := sampleState d.state
  let n ← t.nearestNode x
  let xe ← t.extendNode next uLo uUp n d.controls (1 / 20) x
  let nb := t.neighbours xe (1 / 5)
  if 0 < nb.length then do
    let r ← t.connect ord findPath xe nb
    some r.1
  else some t

/-- rrt_star.py 223-234 `RrtStar.grow_tree` for as many rounds as there are draws. -/
noncomputable def growTreeSim (next : (Fin 3 → ℝ) → (Fin 2 → ℝ) → ℝ → Fin 3 → ℝ) (uLo uUp : Fin 2 → ℝ) (ord : Finset ℕ → List ℕ)
    (findPath : (Fin 3 → ℝ) → (Fin 3 → ℝ) → Option (Path ℝ)) (maxNodes : ℕ) : List RoundDraws → RrtStar ℝ → Option (RrtStar ℝ)
  | [], t => some t
  | d :: ds, t => if t.state.length < maxNodes then do
      let t' ← t.growStepSim next uLo uUp ord findPath d
      growTreeSim next uLo uUp ord findPath maxNodes ds t'
    else some t

/-- What the entries of the file are. -/
inductive FileEntry (K : Type)
  | states (l : List (Fin 3 → K))
  | parents (l : List (Option ℕ))
  | children (l : List (Finset ℕ))
  | numbers (l : List K)
  | pathsX (l : List (Option (List (Fin 3 → K))))
  | pathsU (l : List (Option (List (Fin 2 → K))))
  | pathsDt (l : List (Option (List K)))

/-- rrt_star.py 236-250 `RrtStar.save_tree`: what is in the file. -/
def saveTree {K : Type} (t : RrtStar K) : List (String × FileEntry K) :=
  [("node_state", .states t.state), ("node_parent", .parents t.parent), ("node_children", .children t.children),
    ("node_cost_to_root", .numbers t.costRoot), ("node_cost_to_parent", .numbers t.costParent),
    ("node_to_parent_x", .pathsX (t.toParent.map fun o => o.map fun p => p.1)),
    ("node_to_parent_u", .pathsU (t.toParent.map fun o => o.map fun p => p.2.1)),
    ("node_to_parent_dt", .pathsDt (t.toParent.map fun o => o.map fun p => p.2.2))]

/-- The three lists of paths as one. -/
def joinPaths {K : Type} (xs : List (Option (List (Fin 3 → K)))) (us : List (Option (List (Fin 2 → K)))) (dts : List (Option (List K))) :
    List (Option (List (Fin 3 → K) × List (Fin 2 → K) × List K)) :=
  List.zipWith (fun x ud => x.bind fun a => ud.1.bind fun b => ud.2.map fun c => (a, b, c)) xs (us.zip dts)

/-- rrt_star.py 252-261 `RrtStar.load_tree`: all fields of the tree are replaced; a missing entry is a `KeyError`, and a file whose
entries have other types than those of `save_tree` is not considered. -/
def loadTree {K : Type} (file : List (String × FileEntry K)) (_ : RrtStar K) : Option (RrtStar K) := do
  let s ← file.lookup "node_state"
  let p ← file.lookup "node_parent"
  let ch ← file.lookup "node_children"
  let cr ← file.lookup "node_cost_to_root"
  let cp ← file.lookup "node_cost_to_parent"
  let px ← file.lookup "node_to_parent_x"
  let pu ← file.lookup "node_to_parent_u"
  let pd ← file.lookup "node_to_parent_dt"
  match s, p, ch, cr, cp, px, pu, pd with
  | .states s, .parents p, .children ch, .numbers cr, .numbers cp, .pathsX px, .pathsU pu, .pathsDt pd =>
    some ⟨s, p, ch, cr, cp, joinPaths px pu pd⟩
  | _, _, _, _, _, _, _, _ => none

end RrtStar

end NNL.Model
