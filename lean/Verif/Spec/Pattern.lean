import Verif.Spec.Network

/-!
# Activation patterns and the affine pieces of a network
-/

set_option linter.unusedSectionVars false

namespace NNL.Spec

open NNL

variable {K : Type*} [Field K] [LinearOrder K]

/-- Slope of the activation for negative inputs. -/
def Act.slope : Act K → K
  | .relu => 0
  | .leaky a => a

/-- Slope of the activation on the side chosen by `b`. -/
def Act.gain (a : Act K) (b : Bool) : K := if b then 1 else a.slope

/-- The pre-activation `y` may be seen as active (`b = true`) or inactive (`b = false`). -/
def SignOk (b : Bool) (y : K) : Prop := (b = true → 0 ≤ y) ∧ (b = false → y ≤ 0)

/-- `x` realises the activation pattern: every unit's pre-activation has the sign of its flag. -/
def Realises (hs : List (Lin K × Act K)) (x : Vec K) (pat : List (List Bool)) : Prop :=
  List.Forall₂ (List.Forall₂ SignOk) pat (preacts hs x)

/-- The network with every activation replaced by the linear function chosen by the pattern. -/
def pieceHid : List (Lin K × Act K) → List (List Bool) → Vec K → Vec K
  | (l, a) :: hs, p :: ps, x => pieceHid hs ps (List.zipWith (fun b y => a.gain b * y) p (l.eval x))
  | _, _, x => x

/-- The affine piece selected by the pattern. -/
def Net.piece (net : Net K) (pat : List (List Bool)) (x : Vec K) : Vec K :=
  net.last.eval (pieceHid net.hidden pat x)

/-- Directional derivative of the hidden layers of a piece. -/
def dirHid : List (Lin K × Act K) → List (List Bool) → Vec K → Vec K
  | (l, a) :: hs, p :: ps, v => dirHid hs ps (List.zipWith (fun b y => a.gain b * y) p (matVec l.W v))
  | _, _, v => v

/-- Directional derivative of the affine piece selected by the pattern, in direction `v`. -/
def Net.dir (net : Net K) (pat : List (List Bool)) (v : Vec K) : Vec K :=
  matVec net.last.W (dirHid net.hidden pat v)

/-- One flag per unit. -/
def PatFits (hs : List (Lin K × Act K)) (pat : List (List Bool)) : Prop :=
  List.Forall₂ (fun (p : List Bool) (q : Lin K × Act K) => p.length = q.1.W.length) pat hs

/-- `D` is the Jacobian of the piece: the matrix of the linear map `Net.dir`. -/
def Net.IsJac (net : Net K) (n : ℕ) (pat : List (List Bool)) (D : Mat K) : Prop :=
  HasCols D n ∧ D.length = net.last.W.length ∧
    ∀ v : Vec K, v.length = n → matVec D v = net.dir pat v

/-- The rows `P x <= q`. -/
def RowsLe (P : Mat K) (q : Vec K) (x : Vec K) : Prop :=
  P.length = q.length ∧ ∀ t ∈ P.zip q, dot t.1 x ≤ t.2

/-- The flag is compatible with the pre-activation up to a tolerance. -/
def TolOk (tol : K) (b : Bool) (y : K) : Prop := (y > tol → b = true) ∧ (y < -tol → b = false)

/-- Number of units at the kink. -/
def numKinks (ys : List (Vec K)) : ℕ := (ys.flatten.filter fun y => decide (y = 0)).length

/-- Row-major flattening of a pattern into zeros and ones. -/
def patVec (pat : List (List Bool)) : Vec K := pat.flatten.map fun u => if u then 1 else 0

/-- The path picks an existing unit in each layer. -/
def PathOk (ws path : List ℕ) : Prop := path.length = ws.length ∧ ∀ k, k < ws.length → path.getD k 0 < ws.getD k 0

/-- 1 if unit `j` is active, 0 otherwise. -/
def ind (p : List Bool) (j : ℕ) : K := if p.getD j false then 1 else 0

/-- 1 if all units along the path are active, 0 otherwise. -/
def pathProd : List (List Bool) → List ℕ → K
  | p :: ps, i :: is => ind p i * pathProd ps is
  | _, _ => 1

end NNL.Spec
