import Verif.Model.NetEnc

/-!
Model of `neural_network_lyapunov/model_bounds.py` (`ModelBounds.epsilon_opt`). The trajectory optimisation
program `vf.traj_opt_constraint()` is a parameter: the module that should define it
(`value_to_optimization`) is not part of the repository at this commit.
-/

namespace NNL.Model

open NNL.Spec

variable {K : Type*} [Field K] [LinearOrder K]

/-- model_bounds.py 59-60: the tuple `traj_opt`, with the matrices of the rows
`Ain1 x + Ain2 s + Ain3 α <= rhs_in`, `Aeq1 x + Aeq2 s + Aeq3 α = rhs_eq` and of the cost
`.5 xᵀQ1x + .5 sᵀQ2s + .5 αᵀQ3α + q1ᵀx + q2ᵀs + q3ᵀα + c`. -/
structure TrajProg (K : Type*) where
  Ain1 : Tensor2 K
  Ain2 : Tensor2 K
  Ain3 : Tensor2 K
  rhsIn : Vec K
  Aeq1 : Tensor2 K
  Aeq2 : Tensor2 K
  Aeq3 : Tensor2 K
  rhsEq : Vec K
  Q1 : Mat K
  Q2 : Mat K
  Q3 : Mat K
  q1 : Vec K
  q2 : Vec K
  q3 : Vec K
  c : K

/-- model_bounds.py 148: the tuple returned by `epsilon_opt`. -/
structure EpsProg (K : Type*) where
  Q0 : Mat K
  Q1 : Mat K
  Q2 : Mat K
  q0 : Vec K
  q1 : Vec K
  q2 : Vec K
  k : K
  G0 : Tensor2 K
  G1 : Tensor2 K
  G2 : Tensor2 K
  h : Vec K
  A0 : Tensor2 K
  A1 : Tensor2 K
  A2 : Tensor2 K
  b : Vec K

/-- The shape torch requires for writing `A` into a block of `r` rows and `c` columns. Simplification: torch
also broadcasts a single row or column, which is rejected here. -/
def BlockOk (A : Tensor2 K) (r c : ℕ) : Prop := A.rows.length = r ∧ A.cols = c

instance (A : Tensor2 K) (r c : ℕ) : Decidable (BlockOk A r c) := by unfold BlockOk; infer_instance

/-- `torch.Tensor.squeeze` of a vector as an argument of `torch.cat`: a vector with one entry becomes a
zero-dimensional tensor, which `torch.cat` rejects (model_bounds.py 110-111, 127). -/
def catSqueeze (v : Vec K) : Option (Vec K) := if v.length = 1 then none else some v

/-- model_bounds.py 131-132 (and 134-135): a zero matrix of size `n + m` whose upper left block is `Q`. -/
def padQuad (n m : ℕ) (Q : Mat K) : Mat K := Q.map (· ++ zeros m) ++ zerosM m (n + m)

/-- model_bounds.py 26-148 `ModelBounds.epsilon_opt`. `T` is `self.traj_opt`, `net` the network given to the
constructor (the argument `model` of the method is not used). -/
def epsilonOpt (net : Net K) (T : TrajProg K) (xlo xup : Vec K) : Option (EpsProg K) := do
  let r ← outputConstraint net xlo.length xlo xup .ia
  let Pin1 ← r.mic.Ain_input
  let Pin2 ← r.mic.Ain_slack
  let Pin3 ← r.mic.Ain_binary
  let Prhs ← r.mic.rhs_in
  let Peq1 ← r.mic.Aeq_input
  let Peq2 ← r.mic.Aeq_slack
  let Peq3 ← r.mic.Aeq_binary
  let PrhsEq ← r.mic.rhs_eq
  let Aout ← r.mic.Aout_slack
  let Cout ← r.mic.Cout
  -- 63: x size equal in both programs
  if Pin1.cols ≠ T.Ain1.cols then none else
  let nx := T.Ain1.cols
  let ns := T.Ain2.cols
  let na := T.Ain3.cols
  let nz := Pin2.cols
  let nb := Pin3.cols
  let nin := T.rhsIn.length
  let neq := T.rhsEq.length
  -- 92-127: the blocks written must fit
  if ¬ (BlockOk T.Ain1 nin nx ∧ BlockOk T.Ain2 nin ns ∧ BlockOk T.Ain3 nin na ∧ BlockOk T.Aeq1 neq nx ∧
      BlockOk T.Aeq2 neq ns ∧ BlockOk T.Aeq3 neq na) then none else
  -- 129-146
  if ¬ (T.Q2.length = ns ∧ T.Q3.length = na ∧ T.q2.length = ns ∧ T.q3.length = na ∧
      (∀ r ∈ T.Q2, r.length = ns) ∧ ∀ r ∈ T.Q3, r.length = na) then none else
  -- 139, 144: `Aout_slack.squeeze()` fits only for a single output
  match Aout.rows, Cout with
  | [w], [c0] => do
    let h1 ← catSqueeze Prhs
    let b1 ← catSqueeze PrhsEq
    some
      { Q0 := T.Q1
        Q1 := padQuad ns nz T.Q2
        Q2 := padQuad na nb T.Q3
        q0 := T.q1
        q1 := T.q2 ++ vneg w
        q2 := T.q3 ++ zeros nb
        k := T.c - c0
        G0 := ⟨nx, T.Ain1.rows ++ Pin1.rows ++ eye nx ++ (eye nx).map vneg⟩
        G1 := ⟨ns + nz, T.Ain2.rows.map (· ++ zeros nz) ++ Pin2.rows.map (zeros ns ++ ·) ++
          zerosM (2 * nx) (ns + nz)⟩
        G2 := ⟨na + nb, T.Ain3.rows.map (· ++ zeros nb) ++ Pin3.rows.map (zeros na ++ ·) ++
          zerosM (2 * nx) (na + nb)⟩
        h := T.rhsIn ++ h1 ++ xup ++ vneg xlo
        A0 := ⟨nx, T.Aeq1.rows ++ Peq1.rows⟩
        A1 := ⟨ns + nz, T.Aeq2.rows.map (· ++ zeros nz) ++ Peq2.rows.map (zeros ns ++ ·)⟩
        A2 := ⟨na + nb, T.Aeq3.rows.map (· ++ zeros nb) ++ Peq3.rows.map (zeros na ++ ·)⟩
        b := T.rhsEq ++ b1 }
  | _, _ => none

end NNL.Model
