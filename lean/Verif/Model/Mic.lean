import Verif.Basic.Vec

/-!
# `MixedIntegerConstraintsReturn` (gurobi_torch_mip.py 10-122)

`None` is `none`.  A two-dimensional tensor keeps its number of columns, so that a tensor with zero
rows still knows its width (`shape[1]`).
-/

namespace NNL.Model

open NNL

/-- A two-dimensional tensor: `cols` is `shape[1]`, `rows.length` is `shape[0]`. -/
structure Tensor2 (K : Type*) where
  /-- `shape[1]` -/
  cols : ℕ
  /-- the rows -/
  rows : Mat K

variable {K : Type*} [Field K] [LinearOrder K]

/-- Every row has `cols` entries (true of every torch tensor). -/
def Tensor2.Ok (A : Tensor2 K) : Prop := ∀ r ∈ A.rows, r.length = A.cols

/-- gurobi_torch_mip.py 27-48: the fields of `MixedIntegerConstraintsReturn`. Variable bounds may be
infinite, so their entries are optional (`none` = no bound). -/
structure MIC (K : Type*) where
  Aout_input : Option (Tensor2 K) := none
  Aout_slack : Option (Tensor2 K) := none
  Aout_binary : Option (Tensor2 K) := none
  Cout : Option (Vec K) := none
  Ain_input : Option (Tensor2 K) := none
  Ain_slack : Option (Tensor2 K) := none
  Ain_binary : Option (Tensor2 K) := none
  rhs_in : Option (Vec K) := none
  Aeq_input : Option (Tensor2 K) := none
  Aeq_slack : Option (Tensor2 K) := none
  Aeq_binary : Option (Tensor2 K) := none
  rhs_eq : Option (Vec K) := none
  input_lo : Option (List (Option K)) := none
  input_up : Option (List (Option K)) := none
  slack_lo : Option (List (Option K)) := none
  slack_up : Option (List (Option K)) := none
  binary_lo : Option (List (Option K)) := none
  binary_up : Option (List (Option K)) := none

/-- Row `i` of an optional matrix; a missing matrix contributes nothing. -/
def mrow (A : Option (Tensor2 K)) (i : ℕ) : Vec K :=
  match A with
  | none => []
  | some A => A.rows.getD i []

/-- One linear row `x·input + s·slack + z·binary (<=|=) rhs`. -/
structure LRow (K : Type*) where
  /-- coefficients of the input -/
  x : Vec K
  /-- coefficients of the slack -/
  s : Vec K
  /-- coefficients of the binaries -/
  z : Vec K
  /-- right-hand side -/
  rhs : K

/-- Value of the left-hand side. -/
def LRow.val (r : LRow K) (x s z : Vec K) : K := dot r.x x + dot r.s s + dot r.z z

/-- The rows of a block `(A_input, A_slack, A_binary, rhs)` as documented in
gurobi_torch_mip.py 11-25. -/
def blockRows (Ax As Az : Option (Tensor2 K)) (rhs : Option (Vec K)) : List (LRow K) :=
  (List.range (rhs.getD []).length).map fun i =>
    { x := mrow Ax i, s := mrow As i, z := mrow Az i, rhs := (rhs.getD []).getD i 0 }

/-- The inequality rows. -/
def MIC.ineqRows (c : MIC K) : List (LRow K) :=
  blockRows c.Ain_input c.Ain_slack c.Ain_binary c.rhs_in

/-- The equality rows. -/
def MIC.eqRows (c : MIC K) : List (LRow K) :=
  blockRows c.Aeq_input c.Aeq_slack c.Aeq_binary c.rhs_eq

/-- gurobi_torch_mip.py 11-25: the (in)equalities documented for the class. -/
def MIC.Holds (c : MIC K) (x s z : Vec K) : Prop :=
  (∀ r ∈ c.ineqRows, r.val x s z ≤ r.rhs) ∧ (∀ r ∈ c.eqRows, r.val x s z = r.rhs)

/-- gurobi_torch_mip.py 91-101 `_num_var` (without the shape assertions, see `MIC.Shaped`). -/
def numVar (Aout Ain Aeq : Option (Tensor2 K)) : ℕ :=
  match Aout, Ain, Aeq with
  | some A, _, _ => A.cols
  | none, some A, _ => A.cols
  | none, none, some A => A.cols
  | none, none, none => 0

/-- gurobi_torch_mip.py 103-104. -/
def MIC.numInput (c : MIC K) : ℕ := numVar c.Aout_input c.Ain_input c.Aeq_input
/-- gurobi_torch_mip.py 106-107. -/
def MIC.numSlack (c : MIC K) : ℕ := numVar c.Aout_slack c.Ain_slack c.Aeq_slack
/-- gurobi_torch_mip.py 109-111. -/
def MIC.numBinary (c : MIC K) : ℕ := numVar c.Aout_binary c.Ain_binary c.Aeq_binary
/-- gurobi_torch_mip.py 63-75 `num_ineq` (assertions: `MIC.Shaped`). -/
def MIC.numIneq (c : MIC K) : ℕ := (c.rhs_in.getD []).length
/-- gurobi_torch_mip.py 77-89 `num_eq` (assertions: `MIC.Shaped`). -/
def MIC.numEq (c : MIC K) : ℕ := (c.rhs_eq.getD []).length
/-- gurobi_torch_mip.py 50-61 `num_out`: the first of the four fields that is present gives the number
of outputs. -/
def MIC.numOut (c : MIC K) : ℕ :=
  match c.Aout_input, c.Aout_slack, c.Aout_binary, c.Cout with
  | some A, _, _, _ => A.rows.length
  | none, some A, _, _ => A.rows.length
  | none, none, some A, _ => A.rows.length
  | none, none, none, some v => v.length
  | none, none, none, none => 0

/-- gurobi_torch_mip.py 11-25: the output
`Aout_input * x + Aout_slack * slack + Aout_binary * binary + Cout`. -/
def MIC.out (c : MIC K) (x s z : Vec K) : Vec K :=
  (List.range c.numOut).map fun i =>
    dot (mrow c.Aout_input i) x + dot (mrow c.Aout_slack i) s + dot (mrow c.Aout_binary i) z
      + (c.Cout.getD []).getD i 0

/-- An optional matrix, if present, has the given shape. -/
def ShapeIs (A : Option (Tensor2 K)) (r c : ℕ) : Prop :=
  ∀ M, A = some M → M.rows.length = r ∧ M.cols = c ∧ M.Ok

/-- The shape assertions of `num_out`, `num_ineq`, `num_eq`, `_num_var`
(gurobi_torch_mip.py 51-101): all blocks agree with the numbers of inputs, slacks and binaries, and a
missing right-hand side means the whole block is missing. -/
structure MIC.Shaped (c : MIC K) : Prop where
  aout_x : ShapeIs c.Aout_input c.numOut c.numInput
  aout_s : ShapeIs c.Aout_slack c.numOut c.numSlack
  aout_z : ShapeIs c.Aout_binary c.numOut c.numBinary
  cout : ∀ v, c.Cout = some v → v.length = c.numOut
  ain_x : ShapeIs c.Ain_input c.numIneq c.numInput
  ain_s : ShapeIs c.Ain_slack c.numIneq c.numSlack
  ain_z : ShapeIs c.Ain_binary c.numIneq c.numBinary
  ain_rhs : c.rhs_in = none → c.Ain_input = none ∧ c.Ain_slack = none ∧ c.Ain_binary = none
  aeq_x : ShapeIs c.Aeq_input c.numEq c.numInput
  aeq_s : ShapeIs c.Aeq_slack c.numEq c.numSlack
  aeq_z : ShapeIs c.Aeq_binary c.numEq c.numBinary
  aeq_rhs : c.rhs_eq = none → c.Aeq_input = none ∧ c.Aeq_slack = none ∧ c.Aeq_binary = none

/-- `v` is at least every finite entry of the optional lower bound. -/
def LoOk (b : Option (List (Option K))) (v : Vec K) : Prop :=
  ∀ l, b = some l → ∀ i, i < v.length → ∀ c, l.getD i none = some c → c ≤ v.getD i 0
/-- `v` is at most every finite entry of the optional upper bound. -/
def UpOk (b : Option (List (Option K))) (v : Vec K) : Prop :=
  ∀ l, b = some l → ∀ i, i < v.length → ∀ c, l.getD i none = some c → v.getD i 0 ≤ c

/-- The variable bounds carried next to the rows (gurobi_torch_mip.py 40-48). -/
def MIC.BoundsHold (c : MIC K) (x s z : Vec K) : Prop :=
  LoOk c.input_lo x ∧ UpOk c.input_up x ∧ LoOk c.slack_lo s ∧ UpOk c.slack_up s ∧
    LoOk c.binary_lo z ∧ UpOk c.binary_up z

/-- A feasible point of the constraint set at input `x`: slacks and binaries of the right number, the
binaries being 0/1, satisfying all rows and bounds. -/
structure MIC.Feas (c : MIC K) (x s z : Vec K) : Prop where
  len_s : s.length = c.numSlack
  len_z : z.length = c.numBinary
  bin : IsBin z
  rows : c.Holds x s z
  bounds : c.BoundsHold x s z

/-- `M @ A` and `M @ b` are defined (torch raises otherwise). -/
def MulOk (M A : Tensor2 K) (b : Vec K) : Prop := M.cols = A.rows.length ∧ M.cols = b.length

instance (M A : Tensor2 K) (b : Vec K) : Decidable (MulOk M A b) := by
  unfold MulOk; infer_instance

/-- gurobi_torch_mip.py 139-141 (inequalities) and 142-144 (equalities): substitute `A x + b` in a block
of rows. `rhs -= ...` on a missing `rhs` raises. -/
def transformRows (A : Tensor2 K) (b : Vec K) (M : Option (Tensor2 K)) (rhs : Option (Vec K)) :
    Option (Option (Tensor2 K) × Option (Vec K)) :=
  match M, rhs with
  | none, rhs => some (none, rhs)
  | some _, none => none
  | some M, some rhs =>
    if MulOk M A b then
      some (some ⟨A.cols, matMul A.cols M.rows A.rows⟩, some (vsub rhs (matVec M.rows b)))
    else none

/-- gurobi_torch_mip.py 145-150: substitute in the output. -/
def transformOut (A : Tensor2 K) (b : Vec K) (M : Option (Tensor2 K)) (C : Option (Vec K)) :
    Option (Option (Tensor2 K) × Option (Vec K)) :=
  match M, C with
  | none, C => some (none, C)
  | some M, some v =>
    if MulOk M A b then
      some (some ⟨A.cols, matMul A.cols M.rows A.rows⟩, some (vadd v (matVec M.rows b)))
    else none
  | some M, none =>
    if MulOk M A b then
      some (some ⟨A.cols, matMul A.cols M.rows A.rows⟩, some (matVec M.rows b))
    else none

/-- gurobi_torch_mip.py 124-153 `transform_input`.  The final `assert("...")` never fires (a non-empty
string is true), so bounds are left alone. The in-place update is modelled by returning the new value. -/
def MIC.transformInput (c : MIC K) (A : Tensor2 K) (b : Vec K) : Option (MIC K) :=
  match transformRows A b c.Ain_input c.rhs_in, transformRows A b c.Aeq_input c.rhs_eq,
    transformOut A b c.Aout_input c.Cout with
  | some i, some e, some o => some
      { c with Ain_input := i.1, rhs_in := i.2, Aeq_input := e.1, rhs_eq := e.2,
               Aout_input := o.1, Cout := o.2 }
  | _, _, _ => none

/-! ### Concatenation, gurobi_torch_mip.py 156-349 -/

/-- gurobi_torch_mip.py 175-182 `stack_rhs`. -/
def stackRhs (a b : Option (Vec K)) : Option (Vec K) :=
  match a, b with
  | none, none => none
  | none, some b => some b
  | some a, none => some a
  | some a, some b => some (a ++ b)

/-- gurobi_torch_mip.py 184-194 `stack_matrix` (`r1`, `r2`: rows, `n1`, `n2`: columns of the zero
blocks used for a missing matrix).  `torch.cat` along dim 0 needs equal widths. -/
def stackMatrix (A B : Option (Tensor2 K)) (r1 n1 r2 n2 : ℕ) : Option (Option (Tensor2 K)) :=
  match A, B with
  | none, none => some none
  | some A, none => if A.cols = n2 then some (some ⟨A.cols, A.rows ++ zerosM r2 n2⟩) else none
  | none, some B => if n1 = B.cols then some (some ⟨B.cols, zerosM r1 n1 ++ B.rows⟩) else none
  | some A, some B => if A.cols = B.cols then some (some ⟨A.cols, A.rows ++ B.rows⟩) else none

/-- `torch.block_diag(A, B)`. -/
def blockDiag (A B : Tensor2 K) : Tensor2 K :=
  ⟨A.cols + B.cols, A.rows.map (· ++ zeros B.cols) ++ B.rows.map (zeros A.cols ++ ·)⟩

/-- gurobi_torch_mip.py 196-210 `blk_diagonize_matrix`, with its shape assertions. -/
def blkDiagonize (A B : Option (Tensor2 K)) (r1 r2 n1 n2 : ℕ) : Option (Option (Tensor2 K)) :=
  match A, B with
  | none, none => some none
  | some A, none =>
    if A.rows.length = r1 ∧ A.cols = n1 then some (some (blockDiag A ⟨n2, zerosM r2 n2⟩)) else none
  | none, some B =>
    if B.rows.length = r2 ∧ B.cols = n2 then some (some (blockDiag ⟨n1, zerosM r1 n1⟩ B)) else none
  | some A, some B =>
    if (A.rows.length = r1 ∧ A.cols = n1) ∧ (B.rows.length = r2 ∧ B.cols = n2) then
      some (some (blockDiag A B)) else none

/-- Stack or block-diagonalise, according to the `same_*` flag (lines 233-266 and 273-290). -/
def stackBlock (same : Bool) (A B : Option (Tensor2 K)) (r1 r2 n1 n2 : ℕ) :
    Option (Option (Tensor2 K)) :=
  if same then stackMatrix A B r1 n1 r2 n2 else blkDiagonize A B r1 r2 n1 n2

/-- `stack_matrix` applied to the one-dimensional `Cout` (lines 271-272). -/
def stackVec (a b : Option (Vec K)) (r1 r2 : ℕ) : Option (Vec K) :=
  match a, b with
  | none, none => none
  | some a, none => some (a ++ zeros r2)
  | none, some b => some (zeros r1 ++ b)
  | some a, some b => some (a ++ b)

/-- The larger of two lower bounds (`none` is `-inf`). -/
def maxLo (a b : Option K) : Option K :=
  match a, b with
  | none, b => b
  | a, none => a
  | some a, some b => some (max a b)
/-- The smaller of two upper bounds (`none` is `+inf`). -/
def minUp (a b : Option K) : Option K :=
  match a, b with
  | none, b => b
  | a, none => a
  | some a, some b => some (min a b)

/-- gurobi_torch_mip.py 292-299 `take_maximum` (and 301-308 `take_minimum` with `f = minUp`);
`torch.maximum` needs equal lengths. -/
def takeBound (f : Option K → Option K → Option K) (a b : Option (List (Option K))) :
    Option (Option (List (Option K))) :=
  match a, b with
  | none, none => some none
  | some a, none => some (some a)
  | none, some b => some (some b)
  | some a, some b => if a.length = b.length then some (some (List.zipWith f a b)) else none

/-- gurobi_torch_mip.py 310-325 `stack_bounds`; the default value ±inf is `none`. -/
def stackBounds (a b : Option (List (Option K))) (n1 n2 : ℕ) :
    Option (Option (List (Option K))) :=
  match a, b with
  | none, none => some none
  | some a, none => if a.length = n1 then some (some (a ++ List.replicate n2 none)) else none
  | none, some b => if b.length = n2 then some (some (List.replicate n1 none ++ b)) else none
  | some a, some b => some (some (a ++ b))

/-- Combine bounds according to a `same_*` flag (lines 329-348). -/
def combineBounds (same : Bool) (f : Option K → Option K → Option K)
    (a b : Option (List (Option K))) (n1 n2 : ℕ) : Option (Option (List (Option K))) :=
  if same then takeBound f a b else stackBounds a b n1 n2

/-- Output blocks are left empty unless `stack_output` (lines 267-290). -/
def outBlock (stackOutput : Bool) (b : Option (Option (Tensor2 K))) : Option (Option (Tensor2 K)) :=
  if stackOutput then b else some none

/-- gurobi_torch_mip.py 156-349 `concatenate_mixed_integer_constraints`. Note line 344: the number of
binaries of the second set used for stacking the binary bounds is the one of the *first* set. -/
def concatenate (c1 c2 : MIC K) (sameSlack sameBinary stackOutput : Bool) : Option (MIC K) :=
  if c1.numInput = c2.numInput ∧ (sameSlack = true → c1.numSlack = c2.numSlack) ∧
      (sameBinary = true → c1.numBinary = c2.numBinary) then do
    let Ain_input ← stackMatrix c1.Ain_input c2.Ain_input
      c1.numIneq c1.numInput c2.numIneq c1.numInput
    let Aeq_input ← stackMatrix c1.Aeq_input c2.Aeq_input c1.numEq c1.numInput c2.numEq c1.numInput
    let Ain_slack ← stackBlock sameSlack c1.Ain_slack c2.Ain_slack
      c1.numIneq c2.numIneq c1.numSlack c2.numSlack
    let Aeq_slack ← stackBlock sameSlack c1.Aeq_slack c2.Aeq_slack
      c1.numEq c2.numEq c1.numSlack c2.numSlack
    let Ain_binary ← stackBlock sameBinary c1.Ain_binary c2.Ain_binary
      c1.numIneq c2.numIneq c1.numBinary c2.numBinary
    let Aeq_binary ← stackBlock sameBinary c1.Aeq_binary c2.Aeq_binary
      c1.numEq c2.numEq c1.numBinary c2.numBinary
    let Aout_input ← outBlock stackOutput (stackMatrix c1.Aout_input c2.Aout_input
      c1.numOut c1.numInput c2.numOut c1.numInput)
    let Aout_slack ← outBlock stackOutput (stackBlock sameSlack c1.Aout_slack c2.Aout_slack
      c1.numOut c2.numOut c1.numSlack c2.numSlack)
    let Aout_binary ← outBlock stackOutput (stackBlock sameBinary c1.Aout_binary c2.Aout_binary
      c1.numOut c2.numOut c1.numBinary c2.numBinary)
    let input_lo ← takeBound maxLo c1.input_lo c2.input_lo
    let input_up ← takeBound minUp c1.input_up c2.input_up
    let slack_lo ← combineBounds sameSlack maxLo c1.slack_lo c2.slack_lo c1.numSlack c2.numSlack
    let slack_up ← combineBounds sameSlack minUp c1.slack_up c2.slack_up c1.numSlack c2.numSlack
    let binary_lo ← combineBounds sameBinary maxLo c1.binary_lo c2.binary_lo
      c1.numBinary c1.numBinary
    let binary_up ← combineBounds sameBinary minUp c1.binary_up c2.binary_up
      c1.numBinary c1.numBinary
    some {
      Aout_input := Aout_input, Aout_slack := Aout_slack, Aout_binary := Aout_binary,
      Cout := if stackOutput then stackVec c1.Cout c2.Cout c1.numOut c2.numOut else none,
      Ain_input := Ain_input, Ain_slack := Ain_slack, Ain_binary := Ain_binary,
      rhs_in := stackRhs c1.rhs_in c2.rhs_in,
      Aeq_input := Aeq_input, Aeq_slack := Aeq_slack, Aeq_binary := Aeq_binary,
      rhs_eq := stackRhs c1.rhs_eq c2.rhs_eq,
      input_lo := input_lo, input_up := input_up, slack_lo := slack_lo, slack_up := slack_up,
      binary_lo := binary_lo, binary_up := binary_up }
  else none

end NNL.Model
