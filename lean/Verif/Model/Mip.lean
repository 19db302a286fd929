import Verif.Model.Mic

/-!
# `GurobiTorchMIP`, `GurobiTorchMILP` (gurobi_torch_mip.py 352-1139)

A program has two halves: the Gurobi model (variables with bounds and types, constraints) and the data
kept for differentiation (`r`, `zeta`, sparse triples, right-hand sides).  A `gurobipy.Var` is modelled by
its column number.  An exception is `none`.  Names are dropped.
-/

set_option linter.unusedSectionVars false

namespace NNL.Model

open NNL

/-- `GRB.LESS_EQUAL`, `GRB.GREATER_EQUAL`, `GRB.EQUAL`. -/
inductive Sense where
  | le | ge | eq
deriving DecidableEq

/-- The variable types a caller may pass: `GRB.CONTINUOUS`, `GRB.BINARY`, `BINARYRELAX`
(gurobi_torch_mip.py 352-359), or anything else (for example `GRB.INTEGER`). -/
inductive VType where
  | continuous | binary | relax | other
deriving DecidableEq

/-- A Gurobi variable: bounds (`none` is ∓infinity) and whether its `vtype` is `GRB.BINARY`. -/
structure GVar (K : Type*) where
  lb : Option K
  ub : Option K
  isBin : Bool

/-- A Gurobi linear constraint `Σ coeffs[k] * vars[k]  sense  rhs`. -/
structure GCon (K : Type*) where
  coeffs : Vec K
  vars : List ℕ
  sense : Sense
  rhs : K

/-- An entry `(row, col, val)` of one of the sparse matrices; the code keeps three parallel lists. -/
structure Trip (K : Type*) where
  row : ℕ
  col : ℕ
  val : K

/-- The objective of a `GurobiTorchMILP` (gurobi_torch_mip.py 1055-1061). -/
structure MilpObj (K : Type*) where
  c_r : Vec K
  c_zeta : Vec K
  const : K
  maximize : Bool

/-- gurobi_torch_mip.py 376-400: the fields of `GurobiTorchMIP` (and the objective of the MILP). -/
structure Mip (K : Type*) where
  vars : List (GVar K) := []
  cons : List (GCon K) := []
  r : List ℕ := []
  zeta : List ℕ := []
  rIdx : List (ℕ × ℕ) := []
  zIdx : List (ℕ × ℕ) := []
  ainR : List (Trip K) := []
  ainZ : List (Trip K) := []
  rhsIn : Vec K := []
  aeqR : List (Trip K) := []
  aeqZ : List (Trip K) := []
  rhsEq : Vec K := []
  obj : Option (MilpObj K) := none

/-- gurobi_torch_mip.py 376-400 `__init__`. -/
def Mip.empty {K : Type*} : Mip K := {}

variable {K : Type*} [Field K] [LinearOrder K]

/-! ### Meaning of a Gurobi model (Gurobi's documentation) -/

/-- A value is allowed for a variable: within the bounds, and 0 or 1 if the variable is binary. -/
def GVar.Ok (g : GVar K) (x : K) : Prop :=
  (∀ l, g.lb = some l → l ≤ x) ∧ (∀ u, g.ub = some u → x ≤ u) ∧ (g.isBin = true → x = 0 ∨ x = 1)

/-- `a sense b`. -/
def Sense.Rel (s : Sense) (a b : K) : Prop :=
  match s with
  | .le => a ≤ b
  | .ge => b ≤ a
  | .eq => a = b

/-- An assignment satisfies a linear constraint. -/
def GCon.Ok (c : GCon K) (v : ℕ → K) : Prop := c.sense.Rel (dot c.coeffs (c.vars.map v)) c.rhs

/-- Feasible assignments of the Gurobi model. -/
def Mip.Feas (m : Mip K) (v : ℕ → K) : Prop :=
  (∀ (i : ℕ) (g : GVar K), m.vars[i]? = some g → g.Ok (v i)) ∧ ∀ c ∈ m.cons, c.Ok v

/-- Number of variables of the Gurobi model. -/
def Mip.n (m : Mip K) : ℕ := m.vars.length

/-! ### Meaning of the torch data (class docstring, gurobi_torch_mip.py 363-375) -/

/-- Entry-wise product of a sparse matrix row with a vector, as `to_dense()` sums repeated entries. -/
def tripRow (ts : List (Trip K)) (i : ℕ) (x : Vec K) : K :=
  ((ts.filter fun t => t.row = i).map fun t => t.val * x.getD t.col 0).sum

/-- `Ain_r[i] * r + Ain_zeta[i] * zeta`. -/
def Mip.ineqLhs (m : Mip K) (i : ℕ) (v : ℕ → K) : K :=
  tripRow m.ainR i (m.r.map v) + tripRow m.ainZ i (m.zeta.map v)
/-- `Aeq_r[i] * r + Aeq_zeta[i] * zeta`. -/
def Mip.eqLhs (m : Mip K) (i : ℕ) (v : ℕ → K) : K :=
  tripRow m.aeqR i (m.r.map v) + tripRow m.aeqZ i (m.zeta.map v)

/-- The rows recorded in the torch data hold. -/
def Mip.TorchRows (m : Mip K) (v : ℕ → K) : Prop :=
  (∀ i, i < m.rhsIn.length → m.ineqLhs i v ≤ m.rhsIn.getD i 0) ∧
    ∀ i, i < m.rhsEq.length → m.eqLhs i v = m.rhsEq.getD i 0

/-- Allowed values of the entries of `zeta`: 0/1, or the unit interval while relaxed. -/
def Mip.ZetaOk (m : Mip K) (v : ℕ → K) : Prop :=
  ∀ i ∈ m.zeta, ∀ g, m.vars[i]? = some g → if g.isBin then v i = 0 ∨ v i = 1 else 0 ≤ v i ∧ v i ≤ 1

/-! ### addVars -/

/-- gurobi_torch_mip.py 419-440: the Gurobi variable created for one entry. A binary whose bounds are all
0 and 1 is created with Gurobi's default bounds of binaries, which are 0 and 1, so this case needs no
branch. -/
def newGVar (vt : VType) (lb ub : Option K) : GVar K :=
  match vt with
  | .relax => { lb := maxLo (some 0) lb, ub := minUp (some 1) ub, isBin := false }
  | .binary => { lb := lb, ub := ub, isBin := true }
  | _ => { lb := lb, ub := ub, isBin := false }

/-- `lb < ub` as extended reals (`none` is -inf resp. +inf). -/
def ltB (lb ub : Option K) : Bool :=
  match lb, ub with
  | some l, some u => decide (l < u)
  | _, _ => true

/-- gurobi_torch_mip.py 449-468: one of the three loops over the new continuous variables. `sel` gives the
coefficient and the right-hand side of the row for a variable with bounds `lb`, `ub`, if there is one; `k`
is the index in `r` of the first variable. -/
def boundRows (sel : Option K → Option K → Option (K × K)) (k : ℕ) :
    List (Option K × Option K) → Vec K → List (Trip K) × Vec K
  | [], rhs => ([], rhs)
  | (lb, ub) :: bs, rhs =>
    match sel lb ub with
    | some (c, b) =>
      let t := boundRows sel (k + 1) bs (rhs ++ [b])
      (⟨rhs.length, k, c⟩ :: t.1, t.2)
    | none => boundRows sel (k + 1) bs rhs

/-- gurobi_torch_mip.py 449-455: row `-x <= -lb` for a finite lower bound below the upper bound. -/
def selLb (lb ub : Option K) : Option (K × K) :=
  match lb with
  | some l => if ltB lb ub then some (-1, -l) else none
  | none => none
/-- gurobi_torch_mip.py 456-462: row `x <= ub` for a finite upper bound above the lower bound. -/
def selUb (lb ub : Option K) : Option (K × K) :=
  match ub with
  | some u => if ltB lb ub then some (1, u) else none
  | none => none
/-- gurobi_torch_mip.py 463-468: row `x = lb` when the bounds coincide. -/
def selFix (lb ub : Option K) : Option (K × K) :=
  match lb, ub with
  | some l, some u => if l = u then some (1, l) else none
  | _, _ => none

/-- gurobi_torch_mip.py 402-479 `addVars(num_vars, lb, ub, vtype)`. A scalar bound is expanded by the caller of the
model. Returns the new program and the list of new variables. -/
def Mip.addVars (m : Mip K) (num : ℕ) (lb ub : List (Option K)) (vt : VType) :
    Option (Mip K × List ℕ) :=
  if lb.length = num ∧ ub.length = num then
    let ids := List.range' m.vars.length num
    let vars := m.vars ++ List.zipWith (newGVar vt) lb ub
    match vt with
    | .continuous =>
      let k := m.rIdx.length
      let a := boundRows selLb k (lb.zip ub) m.rhsIn
      let b := boundRows selUb k (lb.zip ub) a.2
      let e := boundRows selFix k (lb.zip ub) m.rhsEq
      some ({ m with
        vars := vars, r := m.r ++ ids, rIdx := m.rIdx ++ ids.zipIdx k
        ainR := m.ainR ++ a.1 ++ b.1, rhsIn := b.2
        aeqR := m.aeqR ++ e.1, rhsEq := e.2 }, ids)
    | .binary | .relax =>
      some ({ m with
        vars := vars, zeta := m.zeta ++ ids, zIdx := m.zIdx ++ ids.zipIdx m.zIdx.length }, ids)
    | .other => none
  else none

/-- `lb=-inf` (or `ub=inf`) for `n` variables. -/
def noBound (n : ℕ) : List (Option K) := List.replicate n none
/-- The scalar bound `c` for `n` variables. -/
def scalarBound (n : ℕ) (c : K) : List (Option K) := List.replicate n (some c)

/-! ### addLConstr, addMConstr -/

/-- gurobi_torch_mip.py 535-571: the loop over coefficients and variables. `ur`, `uz` are the indices
already used; the result lists `(index, coefficient)` for `r` and for `zeta`. -/
def lconstrLoop (rIdx zIdx : List (ℕ × ℕ)) : List (K × ℕ) → List ℕ → List ℕ →
    Option (List (ℕ × K) × List (ℕ × K))
  | [], _, _ => some ([], [])
  | (c, v) :: rest, ur, uz =>
    match rIdx.lookup v with
    | some j =>
      if j ∈ ur then none
      else (lconstrLoop rIdx zIdx rest (j :: ur) uz).map fun t => ((j, c) :: t.1, t.2)
    | none =>
      match zIdx.lookup v with
      | some j =>
        if j ∈ uz then none
        else (lconstrLoop rIdx zIdx rest ur (j :: uz)).map fun t => (t.1, (j, c) :: t.2)
      | none => none

/-- The triples of one new row. -/
def toTrips (row : ℕ) (f : K → K) (l : List (ℕ × K)) : List (Trip K) :=
  l.map fun t => ⟨row, t.1, f t.2⟩

/-- gurobi_torch_mip.py 481-594 `addLConstr(coeffs, variables, sense, rhs)`. `LinExpr` needs as many
coefficients as variables, and Gurobi rejects variables of another model. -/
def Mip.addLConstr (m : Mip K) (coeffs : List (Vec K)) (xs : List (List ℕ)) (sense : Sense)
    (rhs : K) : Option (Mip K) :=
  if coeffs.length = xs.length ∧
      coeffs.map List.length = xs.map List.length then
    let con : GCon K := ⟨coeffs.flatten, xs.flatten, sense, rhs⟩
    match lconstrLoop m.rIdx m.zIdx (coeffs.flatten.zip xs.flatten) [] [] with
    | none => none
    | some (lr, lz) =>
      match sense with
      | .eq => some { m with
          cons := m.cons ++ [con]
          aeqR := m.aeqR ++ toTrips m.rhsEq.length id lr
          aeqZ := m.aeqZ ++ toTrips m.rhsEq.length id lz
          rhsEq := m.rhsEq ++ [rhs] }
      | .le => some { m with
          cons := m.cons ++ [con]
          ainR := m.ainR ++ toTrips m.rhsIn.length id lr
          ainZ := m.ainZ ++ toTrips m.rhsIn.length id lz
          rhsIn := m.rhsIn ++ [rhs] }
      | .ge => some { m with
          cons := m.cons ++ [con]
          ainR := m.ainR ++ toTrips m.rhsIn.length (fun c => -c) lr
          ainZ := m.ainZ ++ toTrips m.rhsIn.length (fun c => -c) lz
          rhsIn := m.rhsIn ++ [-rhs] }
  else none

/-- Row `i` of `torch.cat(A, dim=1)`. -/
def catRow (A : List (Tensor2 K)) (i : ℕ) : Vec K := (A.map fun Ai => Ai.rows.getD i []).flatten

/-- gurobi_torch_mip.py 614-657: the entries of row `row` for the variables found in `idx`. The code
builds the same entries for all rows at once with `np.repeat` and a boolean column mask. -/
def maskTrips (idx : List (ℕ × ℕ)) (row : ℕ) (f : K → K) (xs : List ℕ) (cs : Vec K) : List (Trip K) :=
  (xs.zip cs).filterMap fun t => (idx.lookup t.1).map fun j => ⟨row, j, f t.2⟩

/-- gurobi_torch_mip.py 596-679 `addMConstr(A, x, sense, b)`. `torch.cat` raises on an empty list or
different numbers of rows, Gurobi on mismatched dimensions or foreign variables. -/
def Mip.addMConstr (m : Mip K) (A : List (Tensor2 K)) (x : List (List ℕ)) (sense : Sense) (b : Vec K) :
    Option (Mip K) :=
  if A.length = x.length ∧ A ≠ [] ∧ (∀ Ai ∈ A, Ai.rows.length = b.length) ∧
      (A.map Tensor2.cols).sum = x.flatten.length ∧ (∀ i ∈ x.flatten, i < m.vars.length) then
    let xs := x.flatten
    let cons := (List.range b.length).map fun i => ⟨catRow A i, xs, sense, b.getD i 0⟩
    let trips := fun (idx : List (ℕ × ℕ)) (start : ℕ) (f : K → K) =>
      (List.range b.length).flatMap fun i => maskTrips idx (start + i) f xs (catRow A i)
    match sense with
    | .eq => some { m with
        cons := m.cons ++ cons
        aeqR := m.aeqR ++ trips m.rIdx m.rhsEq.length id
        aeqZ := m.aeqZ ++ trips m.zIdx m.rhsEq.length id
        rhsEq := m.rhsEq ++ b }
    | .le => some { m with
        cons := m.cons ++ cons
        ainR := m.ainR ++ trips m.rIdx m.rhsIn.length id
        ainZ := m.ainZ ++ trips m.zIdx m.rhsIn.length id
        rhsIn := m.rhsIn ++ b }
    | .ge => some { m with
        cons := m.cons ++ cons
        ainR := m.ainR ++ trips m.rIdx m.rhsIn.length (fun c => -c)
        ainZ := m.ainZ ++ trips m.zIdx m.rhsIn.length (fun c => -c)
        rhsIn := m.rhsIn ++ vneg b }
  else none

/-! ### add_mixed_integer_linear_constraints -/

/-- gurobi_torch_mip.py 714-719: raise the lower bounds. -/
def raiseLb (vars : List (GVar K)) : List ℕ → List (Option K) → List (GVar K)
  | i :: is, l :: ls => raiseLb (vars.modify i fun g => { g with lb := maxLo g.lb l }) is ls
  | _, _ => vars
/-- gurobi_torch_mip.py 720-725: reduce the upper bounds. -/
def reduceUb (vars : List (GVar K)) : List ℕ → List (Option K) → List (GVar K)
  | i :: is, u :: us => reduceUb (vars.modify i fun g => { g with ub := minUp g.ub u }) is us
  | _, _ => vars

/-- gurobi_torch_mip.py 713-727 `set_var_bound`. Only the Gurobi variables change. -/
def Mip.setVarBound (m : Mip K) (ids : List ℕ) (lo up : Option (List (Option K))) : Option (Mip K) :=
  if (∀ l ∈ lo, l.length = ids.length) ∧ (∀ u ∈ up, u.length = ids.length) then
    some { m with vars := reduceUb (raiseLb m.vars ids (lo.getD [])) ids (up.getD []) }
  else none

/-- gurobi_torch_mip.py 734-742 and 754-762: the size of the slack (binary) variable. Note that
`Aout_slack` (`Aout_binary`) is not looked at. -/
def varSize (Ain Aeq : Option (Tensor2 K)) (lo up : Option (List (Option K))) : ℕ :=
  match Ain, Aeq, lo, up with
  | some A, _, _, _ => A.cols
  | none, some A, _, _ => A.cols
  | none, none, some l, _ => l.length
  | none, none, none, some u => u.length
  | none, none, none, none => 0

/-- Number of slack variables that are created. -/
def MIC.slackSize (c : MIC K) : ℕ := varSize c.Ain_slack c.Aeq_slack c.slack_lo c.slack_up
/-- Number of binary variables that are created. -/
def MIC.binSize (c : MIC K) : ℕ := varSize c.Ain_binary c.Aeq_binary c.binary_lo c.binary_up

/-- `binary_var_name`: a string, or a list of existing variables. -/
inductive BinName where
  | fresh
  | given (ids : List ℕ)

/-- gurobi_torch_mip.py 772-776: `v.vtype == binary_var_type`. Gurobi's types are `'B'` and `'C'`;
`BINARYRELAX` equals neither. -/
def vtypeIs (vars : List (GVar K)) (bt : VType) (i : ℕ) : Bool :=
  match vars[i]?, bt with
  | some g, .binary => g.isBin
  | some g, .continuous => !g.isBin
  | _, _ => false

/-- gurobi_torch_mip.py 780-785 `add_var_if_not_none`. -/
def addIfSome (A : Option (Tensor2 K)) (ids : List ℕ) (l : List (Tensor2 K) × List (List ℕ)) :
    List (Tensor2 K) × List (List ℕ) :=
  match A with
  | none => l
  | some A => (l.1 ++ [A], l.2 ++ [ids])

/-- The coefficient matrices that are present, with their variables (gurobi_torch_mip.py 791-798). -/
def gather (Ax As Az : Option (Tensor2 K)) (x s z : List ℕ) : List (Tensor2 K) × List (List ℕ) :=
  addIfSome Az z (addIfSome As s (addIfSome Ax x ([], [])))

/-- gurobi_torch_mip.py 787-820: add one block of rows, if there are any. -/
def Mip.addBlock (m : Mip K) (Ax As Az : Option (Tensor2 K)) (rhs : Option (Vec K)) (sense : Sense)
    (x s z : List ℕ) : Option (Mip K) :=
  match rhs with
  | none => some m
  | some b =>
    if b.length > 0 then
      let g := gather Ax As Az x s z
      m.addMConstr g.1 g.2 sense b
    else some m

/-- gurobi_torch_mip.py 837-839: `-Cout`, or zeros. -/
def outRhs (c : MIC K) (n : ℕ) : Vec K :=
  match c.Cout with
  | some v => vneg v
  | none => zeros n

/-- gurobi_torch_mip.py 821-844: add `out = Aout_input * input + ... + Cout`. -/
def Mip.addOut (m : Mip K) (c : MIC K) (out : Option (List ℕ)) (x s z : List ℕ) : Option (Mip K) :=
  match out with
  | none => some m
  | some o =>
    let g := gather c.Aout_input c.Aout_slack c.Aout_binary x s z
    m.addMConstr (⟨o.length, (List.range o.length).map fun i => vneg (eyeRow o.length i)⟩ :: g.1)
      (o :: g.2) .eq (outRhs c o.length)

/-- gurobi_torch_mip.py 733-752: create the slack variables. -/
def Mip.addSlack (m : Mip K) (c : MIC K) : Option (Mip K × List ℕ) :=
  if c.slackSize ≠ 0 then do
    let t ← m.addVars c.slackSize (noBound c.slackSize) (noBound c.slackSize) .continuous
    let m ← t.1.setVarBound t.2 c.slack_lo c.slack_up
    some (m, t.2)
  else some (m, [])

/-- gurobi_torch_mip.py 753-778: create the binary variables, or take the given ones (whose bounds are
then left alone). -/
def Mip.addBin (m : Mip K) (c : MIC K) (name : BinName) (bt : VType) : Option (Mip K × List ℕ) :=
  if c.binSize ≠ 0 then
    match name with
    | .fresh => do
      let t ← m.addVars c.binSize (scalarBound c.binSize 0) (scalarBound c.binSize 1) bt
      let m ← t.1.setVarBound t.2 c.binary_lo c.binary_up
      some (m, t.2)
    | .given ids =>
      if ids.length = c.binSize ∧ (ids.all fun i => vtypeIs m.vars bt i) then some (m, ids) else none
  else some (m, [])

/-- gurobi_torch_mip.py 681-845 `add_mixed_integer_linear_constraints`; the result is the new program and
`(slack, binary)`. -/
def Mip.addMIC (m : Mip K) (c : MIC K) (input : List ℕ) (out : Option (List ℕ)) (name : BinName)
    (bt : VType) : Option (Mip K × List ℕ × List ℕ) := do
  let m ← m.setVarBound input c.input_lo c.input_up
  let ts ← m.addSlack c
  let tz ← ts.1.addBin c name bt
  let m ← tz.1.addBlock c.Ain_input c.Ain_slack c.Ain_binary c.rhs_in .le input ts.2 tz.2
  let m ← m.addBlock c.Aeq_input c.Aeq_slack c.Aeq_binary c.rhs_eq .eq input ts.2 tz.2
  let m ← m.addOut c out input ts.2 tz.2
  some (m, ts.2, tz.2)

/-! ### Objective, relaxation -/

/-- gurobi_torch_mip.py 1084-1100: the loop of `setObjective`. Unknown variables are skipped. -/
def objLoop (rIdx zIdx : List (ℕ × ℕ)) : List (K × ℕ) → List ℕ → List ℕ → Vec K → Vec K →
    Option (Vec K × Vec K)
  | [], _, _, cr, cz => some (cr, cz)
  | (c, v) :: rest, ur, uz, cr, cz =>
    match rIdx.lookup v with
    | some j =>
      if j ∈ ur then none else objLoop rIdx zIdx rest (j :: ur) uz (cr.set j c) cz
    | none =>
      match zIdx.lookup v with
      | some j =>
        if j ∈ uz then none else objLoop rIdx zIdx rest ur (j :: uz) cr (cz.set j c)
      | none => objLoop rIdx zIdx rest ur uz cr cz

/-- gurobi_torch_mip.py 1063-1112 `GurobiTorchMILP.setObjective`. `coeff[i]` raises when there are fewer
coefficients than variables; extra coefficients are ignored. -/
def Mip.setObjective (m : Mip K) (coeffs : List (Vec K)) (xs : List (List ℕ)) (const : K)
    (maximize : Bool) : Option (Mip K) :=
  if coeffs.length = xs.length ∧
      (∀ t ∈ coeffs.zip xs, t.2.length ≤ t.1.length) then
    let flat := (List.zipWith (fun c v => c.zip v) coeffs xs).flatten
    (objLoop m.rIdx m.zIdx flat [] [] (zeros m.r.length) (zeros m.zeta.length)).map fun t =>
      { m with obj := some ⟨t.1, t.2, const, maximize⟩ }
  else none

/-- The objective handed to Gurobi: `LinExpr(c_r, r) + LinExpr(c_zeta, zeta) + c_constant`
(gurobi_torch_mip.py 1109-1112). -/
def Mip.objVal (m : Mip K) (v : ℕ → K) : K :=
  match m.obj with
  | none => 0
  | some o => dot o.c_r (m.r.map v) + dot o.c_zeta (m.zeta.map v) + o.const

/-- gurobi_torch_mip.py 1035-1044 `remove_binary_relaxation`. -/
def Mip.removeRelaxation (m : Mip K) : Mip K :=
  { m with vars := m.vars.zipIdx.map fun t => if t.2 ∈ m.zeta then { t.1 with isBin := true } else t.1 }

/-! ### Recomputing the objective -/

/-- gurobi_torch_mip.py 862-879 and 905-922: row `i` of a sparse matrix with `n` columns, `to_dense()`. -/
def denseRow (ts : List (Trip K)) (i n : ℕ) : Vec K :=
  (List.range n).map fun j => ((ts.filter fun t => t.row = i ∧ t.col = j).map Trip.val).sum

/-- gurobi_torch_mip.py 847-899 `get_active_constraints(active_ineq_row_indices, zeta_sol)`. A set is
modelled by the list of its elements. -/
def Mip.activeConstraints (m : Mip K) (active : List ℕ) (zeta : Vec K) : Mat K × Vec K :=
  (((List.range m.rhsEq.length).map fun i => denseRow m.aeqR i m.r.length) ++
      active.map fun i => denseRow m.ainR i m.r.length,
   ((List.range m.rhsEq.length).map fun i =>
      m.rhsEq.getD i 0 - dot (denseRow m.aeqZ i m.zeta.length) zeta) ++
      active.map fun i => m.rhsIn.getD i 0 - dot (denseRow m.ainZ i m.zeta.length) zeta)

/-- The inequality rows whose violation or slack is below the tolerance
(gurobi_torch_mip.py 1017-1020). -/
def Mip.activeSet (m : Mip K) (r zeta : Vec K) (tol : K) : List ℕ :=
  (List.range m.rhsIn.length).filter fun i =>
    |dot (denseRow m.ainR i m.r.length) r + dot (denseRow m.ainZ i m.zeta.length) zeta
      - m.rhsIn.getD i 0| < tol

/-- gurobi_torch_mip.py 1008-1033: the retry loop. `fuel` is `max_num_trials - num_trials`. -/
def retryLoop (f : List ℕ → K) (active : K → List ℕ) (pool objTol : K) : ℕ → K → Option K
  | 0, _ => none
  | fuel + 1, tol =>
    let o := f (active tol)
    if |o - pool| > objTol then retryLoop f active pool objTol fuel (tol + tol) else some o

/-- Transpose of a matrix with `n` columns. -/
def transp (n : ℕ) (A : Mat K) : Mat K := (List.range n).map fun j => A.map fun r => r.getD j 0

/-- gurobi_torch_mip.py 1114-1139 `GurobiTorchMILP.compute_objective_from_mip_data`; `inv` stands for
`torch.inverse(A_act.T @ A_act + penalty * I)`. -/
def Mip.objFromData (m : Mip K) (o : MilpObj K) (inv : Mat K → Mat K) (active : List ℕ) (zeta : Vec K) :
    K :=
  let t := m.activeConstraints active zeta
  dot o.c_r (matVec (inv t.1) (matVec (transp m.r.length t.1) t.2)) + dot o.c_zeta zeta + o.const

/-- gurobi_torch_mip.py 958-1033 `compute_objective_from_mip_data_and_solution`: `r`, `zeta` the solution
values (`zeta` rounded), `pool` Gurobi's `PoolObjVal`; `tol` and `objTol` are
`active_constraint_tolerance` and `objective_tol`; `max_num_trials` is 10. -/
def Mip.objAndSolution (m : Mip K) (o : MilpObj K) (inv : Mat K → Mat K) (r zeta : Vec K)
    (pool tol objTol : K) : Option K :=
  retryLoop (fun a => m.objFromData o inv a zeta) (m.activeSet r zeta) pool objTol 10 tol

end NNL.Model
