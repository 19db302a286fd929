import Verif.Model.NetEnc
import Verif.Model.Mip
import Verif.Model.Lyapunov
import Verif.Spec.Hybrid
import Mathlib.Order.WithBot

/-!
# Hybrid linear systems (hybrid_linear_system.py)

`AutonomousHybridLinearSystem` has no input; its modes are modes with a matrix `B` without columns.  The
constraints of the two classes are then the same row by row, and are built by the same function here
(hybrid_linear_system.py 205-271 and 507-560).
-/

set_option linter.unusedSectionVars false

namespace NNL.Model

open NNL NNL.Spec

variable {K : Type*} [Field K] [LinearOrder K]

/-- The finite value, if finite. -/
def _root_.NNL.Spec.Ext.toFin : Ext K → Option K
  | some (some a) => some a
  | _ => none

/-- All entries, if all are finite. -/
def finVec : List (Ext K) → Option (Vec K)
  | [] => some []
  | a :: l => do
    let a ← Ext.toFin a
    let l ← finVec l
    some (a :: l)

/-! ### The constraints -/

/-- hybrid_linear_system.py 222-224, 521-523 `s_index`, `t_index`; `j` counts the entries of `[x; u]`. -/
def slackIdx (n m k i j : ℕ) : ℕ := if j < n then i * n + j else k * n + i * m + (j - n)

/-- hybrid_linear_system.py 230-246, 525-535: the four rows of `s_i[j] = alpha_i * x[j]` (or
`t_i[j] = alpha_i * u[j]`). -/
def prodRows (n m k : ℕ) (lo up : Vec K) (i j : ℕ) : Option (List (LRow K)) :=
  (replaceBinaryContinuousProduct (lo.getD j 0) (up.getD j 0)).map fun R =>
    (List.range 4).map fun l =>
      { x := (zeros (n + m)).set j (R.Ax.getD l 0)
        s := (zeros ((n + m) * k)).set (slackIdx n m k i j) (R.As.getD l 0)
        z := (zeros k).set i (R.Aa.getD l 0)
        rhs := R.rhs.getD l 0 }

/-- The loop over modes and entries. -/
def prodLoop (n m k : ℕ) (lo up : Vec K) : List (ℕ × ℕ) → Option (List (LRow K))
  | [] => some []
  | p :: ps => do
    let r ← prodRows n m k lo up p.1 p.2
    let rs ← prodLoop n m k lo up ps
    some (r ++ rs)

/-- hybrid_linear_system.py 250-260, 539-545: the rows `P_i s_i <= q_i alpha_i` of mode `i`. -/
def polyRows (n m k : ℕ) (i : ℕ) (md : HMode K) : List (LRow K) :=
  (List.range md.P.length).map fun r =>
    { x := zeros (n + m)
      s := setSlice (setSlice (zeros ((n + m) * k)) (i * n) ((md.P.getD r []).take n)) (k * n + i * m)
        ((md.P.getD r []).drop n)
      z := (zeros k).set i (-(md.q.getD r 0))
      rhs := 0 }

/-- hybrid_linear_system.py 205-271 (with inputs), 507-560 (without): the constraints for the bounds `lo`,
`up` of `[x; u]`. `torch.cat` of no matrix raises. `rhs_eq` has shape (1, 1) in the code; it is reshaped to
a vector where it is used (gurobi_torch_mip.py 816-820). Rows are appended instead of written into a zero
matrix. -/
def hybridMIC (n m : ℕ) (modes : List (HMode K)) (lo up : Vec K) : Option (MIC K) :=
  let k := modes.length
  if modes = [] then none
  else do
    let prod ← prodLoop n m k lo up
      ((List.range k).flatMap fun i => (List.range (n + m)).map fun j => (i, j))
    let poly := (modes.zipIdx.map fun t => polyRows n m k t.2 t.1).flatten
    let ineq := prod ++ poly
    some
      { Aout_slack := some ⟨(n + m) * k, (List.range n).map fun r =>
          (modes.map fun md => md.A.getD r []).flatten ++ (modes.map fun md => md.B.getD r []).flatten⟩
        Aout_binary := some ⟨k, (List.range n).map fun r => modes.map fun md => md.c.getD r 0⟩
        Ain_input := rowsTensor (n + m) LRow.x ineq
        Ain_slack := rowsTensor ((n + m) * k) LRow.s ineq
        Ain_binary := rowsTensor k LRow.z ineq
        rhs_in := some (ineq.map LRow.rhs)
        Aeq_binary := some ⟨k, [List.replicate k 1]⟩
        rhs_eq := some [1] }

/-! ### Systems -/

/-- What Gurobi reports for a linear program. -/
inductive LpAnswer (K : Type*) where
  | optimal (v : K)
  | unbounded
  | infeasible
  | other

/-- A solver for `max / min  c x  s.t.  P x <= q` over `x` with `n` entries; the last argument is true for
`max`. -/
abbrev LpSolver (K : Type*) := ℕ → Mat K → Vec K → Vec K → Bool → LpAnswer K

/-- utils.py 818-828 (and the value of the cvxpy problem, hybrid_linear_system.py 637-640): the value of a
maximisation; `none` is an exception. -/
def lpUpper (a : LpAnswer K) : Option (Ext K) :=
  match a with
  | .optimal v => some (Ext.fin v)
  | .unbounded => some ⊤
  | .infeasible => some ⊥
  | .other => none

/-- utils.py 829-839 (and hybrid_linear_system.py 641-644): the value of a minimisation. -/
def lpLower (a : LpAnswer K) : Option (Ext K) :=
  match a with
  | .optimal v => some (Ext.fin v)
  | .unbounded => some ⊥
  | .infeasible => some ⊤
  | .other => none

/-- Lower and upper bound of `c x` on `P x <= q`. -/
def lpBounds (lp : LpSolver K) (n : ℕ) (P : Mat K) (q c : Vec K) : Option (Ext K × Ext K) := do
  let up ← lpUpper (lp n P q c true)
  let lo ← lpLower (lp n P q c false)
  some (lo, up)

/-- utils.py 780-839 `compute_bounds_from_polytope(P, q, i)`; `n` is `P.shape[1]`. -/
def boundsFromPolytope (lp : LpSolver K) (n : ℕ) (P : Mat K) (q : Vec K) (i : ℕ) : Option (Ext K × Ext K) :=
  lpBounds lp n P q (eyeRow n i)

/-- The bounds of each `c x` for the rows `cs` (the loops hybrid_linear_system.py 126-130, 443-444 over the
rows of the identity, see `boundsFromPolytope`, and 632-644 over the rows of `A`). -/
def boundsOf (lp : LpSolver K) (n : ℕ) (P : Mat K) (q : Vec K) :
    List (Vec K) → Option (List (Ext K) × List (Ext K))
  | [] => some ([], [])
  | c :: cs => do
    let b ← lpBounds lp n P q c
    let r ← boundsOf lp n P q cs
    some (b.1 :: r.1, b.2 :: r.2)

/-- `HybridLinearSystem`. The bounds over all modes do not exist before the first `add_mode`; here they are
then empty minima and maxima, and no function uses them. -/
structure Hybrid (K : Type*) where
  xdim : ℕ
  udim : ℕ
  modes : List (HMode K) := []
  /-- bounds of `[x; u]` in each mode (`x_lo`, `u_lo` and `x_up`, `u_up`) -/
  los : List (List (Ext K)) := []
  ups : List (List (Ext K)) := []
  /-- bounds over all modes (`x_lo_all`, `u_lo_all`) -/
  loAll : List (Ext K) := List.replicate (xdim + udim) ⊤
  upAll : List (Ext K) := List.replicate (xdim + udim) ⊥

instance (md : HMode K) (n m : ℕ) : Decidable (md.Ok n m) :=
  decidable_of_iff (md.A.length = n ∧ (∀ r ∈ md.A, r.length = n) ∧ md.B.length = n ∧
    (∀ r ∈ md.B, r.length = m) ∧ md.c.length = n ∧ (∀ r ∈ md.P, r.length = n + m) ∧
    md.q.length = md.P.length)
    ⟨fun ⟨a, b, c, d, e, f, g⟩ => ⟨a, b, c, d, e, f, g⟩, fun ⟨a, b, c, d, e, f, g⟩ => ⟨a, b, c, d, e, f, g⟩⟩

/-- hybrid_linear_system.py 94-139 `add_mode`. `np.amin` over all modes is updated mode by mode.
`check_polyhedron_bounded` is not modelled, nor is the state left behind by an exception. -/
def Hybrid.addMode (lp : LpSolver K) (S : Hybrid K) (md : HMode K) : Option (Hybrid K) :=
  if md.Ok S.xdim S.udim then do
    let b ← boundsOf lp (S.xdim + S.udim) md.P md.q (eye (S.xdim + S.udim))
    some { S with
      modes := S.modes ++ [md]
      los := S.los ++ [b.1]
      ups := S.ups ++ [b.2]
      loAll := List.zipWith min S.loAll b.1
      upAll := List.zipWith max S.upAll b.2 }
  else none

/-- hybrid_linear_system.py 187-202, 487-506: bounds given by the caller tighten the bounds of the modes. -/
def tighten (f : Ext K → Ext K → Ext K) (l : List (Ext K)) (x : Option (Vec K)) : Option (List (Ext K)) :=
  match x with
  | none => some l
  | some x => if x.length = l.length then some (List.zipWith f l (x.map Ext.fin)) else none

/-- hybrid_linear_system.py 141-271 `mixed_integer_constraints(x_lo, x_up, u_lo, u_up)`. The assertion
`lo <= up` is checked again (and decided) by `replace_binary_continuous_product`. Infinite bounds lead to
infinite or NaN coefficients, which Gurobi refuses. -/
def Hybrid.mic (S : Hybrid K) (xlo xup ulo uup : Option (Vec K)) : Option (MIC K) := do
  let a ← tighten max (S.loAll.take S.xdim) xlo
  let b ← tighten min (S.upAll.take S.xdim) xup
  let c ← tighten max (S.loAll.drop S.xdim) ulo
  let d ← tighten min (S.upAll.drop S.xdim) uup
  let lo ← finVec (a ++ c)
  let up ← finVec (b ++ d)
  hybridMIC S.xdim S.udim S.modes lo up

/-- hybrid_linear_system.py 273-295 `add_dynamics_constraint`: the program, slacks, binaries. -/
def Hybrid.addDynamics (S : Hybrid K) (m : Mip K) (x xn u : List ℕ) (bt : VType) :
    Option (Mip K × List ℕ × List ℕ) := do
  let c ← S.mic none none none none
  m.addMIC c (x ++ u) (some xn) .fresh bt

/-- `torch.all(P @ w <= q)`. -/
def polyHas (P : Mat K) (q w : Vec K) : Bool :=
  (List.range q.length).all fun i => decide (dot (P.getD i []) w ≤ q.getD i 0)

/-- The first index with the property. -/
def firstIdx {α : Type*} (p : α → Bool) : List α → ℕ → Option ℕ
  | [], _ => none
  | a :: l, i => if p a then some i else firstIdx p l (i + 1)

/-- hybrid_linear_system.py 297-316 `mode`. The outer `none` is a failed assertion. -/
def Hybrid.mode (S : Hybrid K) (x u : Vec K) : Option (Option ℕ) :=
  if x.length = S.xdim ∧ u.length = S.udim then
    some (firstIdx (fun md => polyHas md.P md.q (x ++ u)) S.modes 0)
  else none

/-- hybrid_linear_system.py 318-337 `step_forward` for one state: `(None, None)` is `some none`. -/
def Hybrid.stepForward (S : Hybrid K) (x u : Vec K) : Option (Option (Vec K × ℕ)) :=
  match S.mode x u with
  | none => none
  | some none => some none
  | some (some j) => (S.modes[j]?).map fun (md : HMode K) => some (md.next x u, j)

/-- hybrid_linear_system.py 338-346: a batch; `torch.stack` of a list with `None` raises. -/
def Hybrid.stepBatch (S : Hybrid K) : List (Vec K × Vec K) → Option (List (Vec K × ℕ))
  | [] => some []
  | p :: ps => do
    let r ← S.stepForward p.1 p.2
    let r ← r
    let rs ← S.stepBatch ps
    some (r :: rs)

/-- hybrid_linear_system.py 348-369 `possible_dx`. -/
def Hybrid.possibleDx (S : Hybrid K) (x u : Vec K) : Option (List (Vec K)) :=
  if x.length = S.xdim ∧ u.length = S.udim then
    some ((S.modes.filter fun md => polyHas md.P md.q (x ++ u)).map fun md => md.next x u)
  else none

/-! ### Autonomous systems -/

/-- A mode `x⁺ = A x + g` if `P x ≤ q`. -/
structure AMode (K : Type*) where
  A : Mat K
  g : Vec K
  P : Mat K
  q : Vec K

/-- As a mode without input. -/
def AMode.toH (md : AMode K) : HMode K := ⟨md.A, List.replicate md.A.length [], md.g, md.P, md.q⟩

/-- `AutonomousHybridLinearSystem` (hybrid_linear_system.py 372-415). -/
structure AutoHybrid (K : Type*) where
  xdim : ℕ
  modes : List (AMode K) := []
  los : List (List (Ext K)) := []
  ups : List (List (Ext K)) := []
  loAll : List (Ext K) := List.replicate xdim ⊤
  upAll : List (Ext K) := List.replicate xdim ⊥
  /-- bounds of `A_i x` in each mode -/
  axLo : List (List (Ext K)) := []
  axUp : List (List (Ext K)) := []
  dxLo : List (Ext K) := List.replicate xdim ⊤
  dxUp : List (Ext K) := List.replicate xdim ⊥

/-- `a + g` for a possibly infinite `a`. -/
def _root_.NNL.Spec.Ext.addFin (a : Ext K) (g : K) : Ext K := WithBot.map (WithTop.map (· + g)) a

/-- hybrid_linear_system.py 417-460 `add_mode`. -/
def AutoHybrid.addMode (lp : LpSolver K) (S : AutoHybrid K) (md : AMode K) :
    Option (AutoHybrid K) :=
  if md.toH.Ok S.xdim 0 then do
    let b ← boundsOf lp S.xdim md.P md.q (eye S.xdim)
    let d ← boundsOf lp S.xdim md.P md.q md.A
    some { S with
      modes := S.modes ++ [md]
      los := S.los ++ [b.1]
      ups := S.ups ++ [b.2]
      loAll := List.zipWith min S.loAll b.1
      upAll := List.zipWith max S.upAll b.2
      axLo := S.axLo ++ [d.1]
      axUp := S.axUp ++ [d.2]
      dxLo := List.zipWith min S.dxLo (List.zipWith Ext.addFin d.1 md.g)
      dxUp := List.zipWith max S.dxUp (List.zipWith Ext.addFin d.2 md.g) }
  else none

/-- hybrid_linear_system.py 497-498: `x_lo <= x_up` is asserted when both are given. -/
def boundsOrdered (xlo xup : Option (Vec K)) : Prop :=
  match xlo, xup with
  | some l, some u => ∀ i, i < l.length → l.getD i 0 ≤ u.getD i 0
  | _, _ => True

instance (xlo xup : Option (Vec K)) : Decidable (boundsOrdered xlo xup) := by
  unfold boundsOrdered
  split <;> infer_instance

/-- hybrid_linear_system.py 462-560 `mixed_integer_constraints(x_lo, x_up)`. -/
def AutoHybrid.mic (S : AutoHybrid K) (xlo xup : Option (Vec K)) : Option (MIC K) :=
  if boundsOrdered xlo xup then do
    let a ← tighten max S.loAll xlo
    let b ← tighten min S.upAll xup
    let lo ← finVec a
    let up ← finVec b
    hybridMIC S.xdim 0 (S.modes.map AMode.toH) lo up
  else none

/-- hybrid_linear_system.py 562-569 `add_dynamics_constraint`. -/
def AutoHybrid.addDynamics (S : AutoHybrid K) (bt : VType := .binary) : SysConstr K := fun m x xn => do
  let c ← S.mic none none
  m.addMIC c x (some xn) .fresh bt

/-- hybrid_linear_system.py 571-583 `mode`. -/
def AutoHybrid.mode (S : AutoHybrid K) (x : Vec K) : Option (Option ℕ) :=
  if x.length = S.xdim then some (firstIdx (fun md => polyHas md.P md.q x) S.modes 0) else none

/-- hybrid_linear_system.py 588-609 `step_forward` for one state; `none` is an exception
(`StepForwardException` when there is no mode). A given mode is not checked. -/
def AutoHybrid.stepForward (S : AutoHybrid K) (x : Vec K) (modeX : Option ℕ := none) : Option (Vec K) :=
  if x.length = S.xdim then
    match (match modeX with | some j => some j | none => (S.mode x).join) with
    | none => none
    | some j => (S.modes[j]?).map fun (md : AMode K) => vadd (matVec md.A x) md.g
  else none

/-- hybrid_linear_system.py 606-609: a batch of states. -/
def AutoHybrid.stepBatch (S : AutoHybrid K) : List (Vec K) → Option (List (Vec K))
  | [] => some []
  | x :: xs => do
    let r ← S.stepForward x
    let rs ← S.stepBatch xs
    some (r :: rs)

/-- hybrid_linear_system.py 611-627 `possible_dx`. -/
def AutoHybrid.possibleDx (S : AutoHybrid K) (x : Vec K) : Option (List (Vec K)) :=
  if x.length = S.xdim then
    some ((S.modes.filter fun md => polyHas md.P md.q x).map fun md => vadd (matVec md.A x) md.g)
  else none

end NNL.Model
