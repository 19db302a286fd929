import Verif.Model.ExampleSystems
import Verif.Model.ControlAffine

/-!
# Fitting networks to data: `utils.train_approximator` and the fits of the examples
-/

set_option linter.unusedSectionVars false

namespace NNL.Model

open NNL NNL.Spec

/-! ### train_approximator -/

section Train

variable {D P : Type*}

/-- utils.py 1285: `int(len(dataset) * 0.8)`. -/
def trainSize (n : ℕ) : ℕ := n * 8 / 10

/-- `torch.utils.data.DataLoader(..., batch_size)`: consecutive batches, the last one may be smaller. -/
def batchesOf (b : ℕ) : ℕ → List D → List (List D)
  | 0, _ => []
  | _ + 1, [] => []
  | fuel + 1, d :: ds => (d :: ds).take b :: batchesOf b fuel ((d :: ds).drop b)

/-- utils.py 1301-1311: the batches of one epoch; `step` is `zero_grad`, `backward` and the step of Adam, whose state is part of `P`. -/
def approxEpoch (step : P → List D → P) (b : ℕ) (p : P) (shuffled : List D) : P :=
  (batchesOf b shuffled.length shuffled).foldl step p

/-- utils.py 1269-1322 `train_approximator`. `perm` is the permutation drawn by `random_split`, `shuffle i` the order in which the loader visits the
training data in epoch `i`. Returned are the final parameters and those after every epoch (`model_params`). `none`: `DataLoader(shuffle=True)` raises
for an empty training set and for a batch size that is not positive. The losses that are printed are not modelled. -/
def trainApproximator (step : P → List D → P) (perm : List D → List D) (shuffle : ℕ → List D → List D) (b epochs : ℕ) (p : P)
    (dataset : List D) : Option (P × List P) :=
  let train := (perm dataset).take (trainSize dataset.length)
  if train = [] ∨ b = 0 then none
  else some ((List.range epochs).foldl (fun s i =>
    let q := approxEpoch step b s.1 (shuffle i train)
    (q, s.2 ++ [q])) (p, []))

end Train

variable {K : Type*} [Field K] [LinearOrder K]

/-! ### What the examples fit -/

/-- The functions passed to `train_approximator` for one sample: the network input from `(x, u)`, the prediction from the network and its input,
and the target from `(x, u)` and the next state (or the derivative). -/
structure Fit (K : Type*) where
  input : Vec K → Vec K
  output : (Vec K → Vec K) → Vec K → Vec K
  target : Vec K → Vec K → Vec K

/-- Prediction minus target, for one sample. -/
def Fit.residual (F : Fit K) (phi : Vec K → Vec K) (d : Vec K × Vec K) : Vec K :=
  vsub (F.output phi (F.input d.1)) (F.target d.1 d.2)

/-- utils.py 1296, 1307 `torch.nn.MSELoss()` of a batch. -/
def Fit.loss (F : Fit K) (phi : Vec K → Vec K) (batch : List (Vec K × Vec K)) : K :=
  (((batch.map fun d => F.residual phi d).flatten.map fun e => e * e).sum) / ((batch.map fun d => F.residual phi d).flatten.length : K)

/-- Columns of a row. -/
def cols (x : Vec K) (idx : List ℕ) : Vec K := idx.map fun i => x.getD i 0

/-- train_quadrotor_2d_demo.py 67-82, train_rocket_demo.py 49-68. -/
def planarFit (uEq : Vec K) : Fit K where
  input xu := cols xu [2, 5, 6, 7]
  output phi z := vsub (phi z) (phi ([0, 0] ++ uEq))
  target xu xn := vsub (xn.drop 3) (seg xu 3 6)

/-- train_pendulum_demo.py 92-104; `qe` is `np.pi`. -/
def pendFit (qe : K) : Fit K where
  input xu := xu
  output phi z := vsub (phi z) (phi ([qe, 0] ++ [0]))
  target _ xn := [xn.getD 1 0]

/-- train_quadrotor_demo.py 60-78; `hover` is `plant.hover_thrust`. -/
def quadFit (hover : K) : Fit K where
  input xu := seg xu 3 6 ++ seg xu 9 12 ++ xu.drop (xu.length - 4)
  output phi z := vsub (phi z) (phi (zeros 6 ++ vsmul hover (List.replicate 4 1)))
  target xu xn := seg xn 3 6 ++ vsub (seg xn 6 9) (seg xu 6 9) ++ seg xn 9 12

/-- train_quadrotor_px4_demo.py 16-27, 63-64. The recorded data set already consists of network inputs and targets; here they are computed from the
states as the comment in lines 18-21 says. -/
def pixFit (hover : K) : Fit K where
  input xu := seg xu 3 6 ++ xu.drop 9
  output phi z := vsub (phi z) (phi [0, 0, 0, 0, 0, 0, hover])
  target xu xn := vsub (seg xn 6 9) (seg xu 6 9) ++ vsub (seg xn 3 6) (seg xu 3 6)

/-- learn_relu_dynamics.py 45-56; the network input is formed inside `compute_v_next`. -/
def poleFit (uz : K) : Fit K where
  input xu := xu
  output phi z := vadd (vsub (phi (seg z 0 2 ++ z.drop 5)) (phi (zeros 6 ++ [uz]))) (seg z 2 7)
  target _ xn := xn.drop 2

/-- train_unicycle_demo.py 75-101; `flag` is `thetadot_as_input`. -/
def uniFit (flag : Bool) : Fit K where
  input xu := xu
  output phi z := if flag then vsub (phi (cols z [2, 3, 4])) (phi [z.getD 2 0, 0, z.getD 4 0])
    else vsub (phi (cols z [2, 3])) (phi [z.getD 2 0, 0])
  target xu xn := vsub (xn.take 2) (xu.take 2)

/-- train_acceleration_car_demo.py 52-65. -/
def carFit : Fit K where
  input xu := cols xu [2, 3, 4, 5]
  output phi z := vsub (phi z) (phi (zeros 4))
  target xu xn := vsub (xn.take 2) (xu.take 2)

/-- train_continuous_pendulum_demo.py 33-40; `qe` is `np.pi`. -/
def pendContFit (qe : K) : Fit K where
  input xu := xu
  output phi z := vsub (phi z) (phi [qe, 0, 0])
  target _ xd := [xd.getD 1 0]

/-- train_continuous_quadrotor_2d_demo.py 36-44. -/
def planarContFit (uEq : Vec K) : Fit K where
  input xu := seg xu 2 3 ++ xu.drop 6
  output phi z := vsub (phi z) (phi ([0] ++ uEq))
  target _ xd := xd.drop 3

/-- control_affine_system.py 314-321: `compute_x_dot` for one sample; `forward_model_G(x).view((x_dim, u_dim))` is `reshapeRows`. -/
def affineFitDot (f G : Vec K → Vec K) (xe ue : Vec K) (xu : Vec K) : Vec K :=
  let x := xu.take xe.length
  let u := xu.drop xe.length
  vsub (vsub (vadd (f x) (matVec (reshapeRows xe.length ue.length (G x)) u)) (f xe))
    (matVec (reshapeRows xe.length ue.length (G xe)) ue)

/-- `compute_u` of train_pendulum_demo.py 187-188, train_quadrotor_2d_demo.py 129-130, train_rocket_demo.py 109-110, train_quadrotor_demo.py
126-127. -/
def ctrlFit (xe ue : Vec K) (phi : Vec K → Vec K) (x : Vec K) : Vec K := vadd (vsub (phi x) (phi xe)) ue

/-- train_unicycle_demo.py 118-122 `compute_u`. -/
def uniCtrlFit (lam : K) (Ru : Mat K) (phi : Vec K → Vec K) (x : Vec K) : Vec K :=
  vadd (vadd (vsub (phi x) (phi (zeros 3))) (zeros 2)) (vsmul lam [((matVec Ru (x.take 2)).map fun a => |a|).sum, 0])

/-- train_quadrotor_2d_demo.py 105-108, train_quadrotor_demo.py 102-104 `compute_v`. -/
def valueFit (R : Mat K) (lam : K) (xe : Vec K) (phi : Vec K → Vec K) (x : Vec K) : Vec K :=
  vadd (vsub (phi x) (phi xe)) [lam * ((matVec R (vsub x xe)).map fun a => |a|).sum]

/-- train_pendulum_demo.py 206-208 `compute_cost`. -/
def pendCostFit (lam : K) (xe : Vec K) (phi : Vec K → Vec K) (x : Vec K) : Vec K :=
  vadd (vsub (phi x) (phi xe)) [lam * ((vsub x xe).map fun a => |a|).sum]

end NNL.Model
