import Verif.Model.Params
import Verif.Model.ROptions
import Verif.Model.Lyapunov

/-!
# Model files: `save_*_model` (utils.py 1109-1160) and the code of the demos that loads them
-/

set_option linter.unusedSectionVars false

namespace NNL.Model

open NNL NNL.Spec

variable {K : Type*} [Field K] [LinearOrder K]

/-- A value of a `state_dict`: a weight with its number of columns, or a bias. -/
inductive SdVal (K : Type*) where
  | mat (c : ℕ) (W : Mat K)
  | vec (b : Vec K)

/-- `Sequential.state_dict()` (torch): the key `(i, false)` is `"i.weight"`, `(i, true)` is `"i.bias"`, where `i` is
the position of the layer. Activations have no entries. -/
def stateDict : ℕ → List (Layer K) → List ((ℕ × Bool) × SdVal K)
  | _, [] => []
  | i, .act _ :: ls => stateDict (i + 1) ls
  | i, .lin l :: ls =>
    ((i, false), .mat l.inF l.W) ::
      ((match l.bias with | none => [] | some b => [((i, true), .vec b)]) ++ stateDict (i + 1) ls)

/-- `load_state_dict` (torch): the weight of a layer; a missing key or another shape raises. -/
def loadWeight (sd : List ((ℕ × Bool) × SdVal K)) (i : ℕ) (l : Lin K) : Option (Mat K) :=
  match sd.lookup (i, false) with
  | some (.mat c W) => if c = l.inF ∧ W.length = l.W.length then some W else none
  | _ => none

/-- `load_state_dict` (torch): the bias of a layer. -/
def loadBias (sd : List ((ℕ × Bool) × SdVal K)) (i : ℕ) (l : Lin K) : Option (Option (Vec K)) :=
  match l.bias with
  | none => some none
  | some b0 =>
    match sd.lookup (i, true) with
    | some (.vec b) => if b.length = b0.length then some (some b) else none
    | _ => none

/-- `load_state_dict` (torch): the layers from position `i` on. -/
def loadFrom (sd : List ((ℕ × Bool) × SdVal K)) : ℕ → List (Layer K) → Option (List (Layer K))
  | _, [] => some []
  | i, .act a :: ls => (loadFrom sd (i + 1) ls).map (.act a :: ·)
  | i, .lin l :: ls =>
    (loadWeight sd i l).bind fun W => (loadBias sd i l).bind fun b =>
      (loadFrom sd (i + 1) ls).map (.lin ⟨l.inF, W, b⟩ :: ·)

/-- `network.load_state_dict(sd)` with `strict=True`: a key the network does not have raises, too. -/
def loadStateDict (sd : List ((ℕ × Bool) × SdVal K)) (ls : List (Layer K)) : Option (List (Layer K)) :=
  if ∀ e ∈ sd, e.1 ∈ (stateDict 0 ls).map Prod.fst then loadFrom sd 0 ls else none

/-- The entries about a network in a model file. -/
structure NetFile (K : Type*) where
  widths : List ℕ
  sd : List ((ℕ × Bool) × SdVal K)
  slope : Option K
  bias : Option Bool

/-- utils.py 1111-1122, 1128-1141, 1148-1160: what all three functions store about the network. -/
def saveNet (ls : List (Layer K)) : Option (NetFile K) :=
  (extractStructure ls).map fun s => ⟨s.widths, stateDict 0 ls, s.slope, s.bias⟩

/-- examples/car/train_unicycle_demo.py 230-237 (and 249-256, 271-278, and the other demos): `setup_relu` with the
stored structure and `params=None`, then `load_state_dict`. `init` are the random parameters of the new network.
`LeakyReLU(None)` can be built but not evaluated: modelled as an error. -/
def loadNet (init : Vec K) (f : NetFile K) : Option (List (Layer K)) :=
  f.bias.bind fun β =>
    (match f.slope with
      | some a => setupRelu a β f.widths init
      | none => if f.widths.length ≤ 2 then setupRelu 0 β f.widths init else none).bind (loadStateDict f.sd)

/-- The options for `R`; `SearchRfreeOptions` (r_options.py 222-258) stores the matrix itself. -/
inductive ROpt (K : Type*) where
  | fixed (R : Mat K)
  | spd (S : SpdR K)
  | svd (S : SvdR K)
  | free (m n : ℕ) (R : Mat K)

/-- `R_options.R()`: r_options.py 130-131, 81-98, 184-200, 244-245. -/
def ROpt.R : ROpt K → Mat K
  | .fixed R => R
  | .spd S => S.R
  | .svd S => S.R
  | .free _ _ R => R

/-- `R_options.fixed_R`. -/
def ROpt.fixedR : ROpt K → Bool
  | .fixed _ => true
  | _ => false

/-- The entries of the dictionary of `extract_params`. -/
structure RParams (K : Type*) where
  size : Option (ℕ × ℕ) := none
  U : Option (Mat K) := none
  V : Option (Mat K) := none
  a : Option (Vec K) := none

/-- r_options.py 26-27, 111-116, 213-219, 257-258 `extract_params`. `SearchRwithSPDOptions` reads the attributes
`R_epsilon` and `R_variables`, which no code sets: `AttributeError`. -/
def ROpt.extractParams : ROpt K → Option (RParams K)
  | .fixed _ => some {}
  | .spd _ => none
  | .svd S => some { size := some (S.m, S.n), U := some S.U, V := some S.V, a := some S.a }
  | .free m n _ => some { size := some (m, n) }

/-- The file of `save_lyapunov_model`. -/
structure LyapFile (K : Type*) where
  net : NetFile K
  lam : K
  posEps : K
  derEps : K
  epsType : EpsType
  R : Mat K
  fixedR : Bool
  params : RParams K

/-- utils.py 1125-1144 `save_lyapunov_model`. -/
def saveLyapunov (ls : List (Layer K)) (lam posEps derEps : K) (epsType : EpsType) (R : ROpt K) : Option (LyapFile K) :=
  (saveNet ls).bind fun f => R.extractParams.map fun p => ⟨f, lam, posEps, derEps, epsType, R.R, R.fixedR, p⟩

/-- examples/car/train_unicycle_demo.py 270-280: the network, `V_lambda` and `R` of the file. -/
def loadLyapunov (init : Vec K) (f : LyapFile K) : Option (List (Layer K) × K × Mat K) :=
  (loadNet init f.net).map fun ls => (ls, f.lam, f.R)

/-- The file of `save_controller_model`. -/
structure CtrlFile (K : Type*) where
  net : NetFile K
  xLo : Vec K
  xUp : Vec K
  uLo : Vec K
  uUp : Vec K

/-- utils.py 1147-1160 `save_controller_model`. -/
def saveController (ls : List (Layer K)) (xLo xUp uLo uUp : Vec K) : Option (CtrlFile K) :=
  (saveNet ls).map fun f => ⟨f, xLo, xUp, uLo, uUp⟩

/-- The file of `save_second_order_forward_model`. -/
structure ForwardFile (K : Type*) where
  net : NetFile K
  qEq : Vec K
  uEq : Vec K
  dt : K

/-- utils.py 1109-1122 `save_second_order_forward_model`. -/
def saveForward (ls : List (Layer K)) (qEq uEq : Vec K) (dt : K) : Option (ForwardFile K) :=
  (saveNet ls).map fun f => ⟨f, qEq, uEq, dt⟩

end NNL.Model
