import Verif.Model.TrainUtil
import Verif.Model.Mip

/-!
# The training loops (train_lyapunov_barrier.py)

The state of the process (networks, `R`, optimiser, random numbers, Gurobi) is a value of an arbitrary type `W`; the
calls of the solver, of the losses and of the optimiser are functions on it, collected in `Env`. They may raise
(`none`). Printing, `wandb` and saving the network to a file are dropped.
-/

set_option linter.unusedSectionVars false

namespace NNL.Model

open NNL

variable {K : Type} [Field K] [LinearOrder K] {W : Type}

/-- What is read of one solution of the pool: `v.xn` of the state variables, of `gamma` (derivative program only), and
`PoolObjVal`. -/
structure PoolSol (K : Type) where
  x : Vec K
  gamma : Vec K
  obj : K

/-- What is read of a solved program: `ObjVal` and the pool (`solCount` solutions). -/
structure Solve (K : Type) where
  objVal : K
  pool : List (PoolSol K)

/-- train_lyapunov_barrier.py 359-361, 430-432, 580-582: the test for adding a solution. -/
def keepSol (only : Bool) (s : PoolSol K) : Bool := !only || (only && decide (s.obj > 0))

/-- train_lyapunov_barrier.py 354-363: the kept ones among the first `min(pool_solutions, solCount)` solutions. -/
def keptSols (n : ℕ) (only : Bool) (s : Solve K) : List (PoolSol K) := (s.pool.take n).filter (keepSol only)

/-- train_lyapunov_barrier.py 352-371 (end of `solve_positivity_mip`): the adversarial states. -/
def posAdversarial (n : ℕ) (only : Bool) (s : Solve K) : Mat K := (keptSols n only s).map PoolSol.x

/-- train_lyapunov_barrier.py 439-443: `np.argwhere(gamma > 0.99)[0][0]`; raises when there is none. -/
def activeMode (gamma : Vec K) : Option ℕ := gamma.findIdx? fun g => decide (g > 99 / 100)

/-- The system as the trainer uses it: `step_forward(x)`, `step_forward(x, mode)` if it is an
`AutonomousHybridLinearSystem`, and whether it is a `FeedbackSystem`. -/
structure TrainSys (W K : Type) where
  step : W → Vec K → Option (Vec K)
  stepMode : Option (W → Vec K → ℕ → Option (Vec K))
  feedback : Bool

/-- `step_forward` of a batch (`train_lyapunov_barrier.py` 899-904 stacks the results of single states). -/
def TrainSys.stepAll (sys : TrainSys W K) (w : W) (xs : Mat K) : Option (Mat K) := xs.mapM (sys.step w)

/-- train_lyapunov_barrier.py 436-460: the successor of each kept solution. -/
def derNext (sys : TrainSys W K) (w : W) (ss : List (PoolSol K)) : Option (Mat K) :=
  match sys.stepMode with
  | some f => ss.mapM fun s => (activeMode s.gamma).bind (f w s.x)
  | none => sys.stepAll w (ss.map PoolSol.x)

/-- train_lyapunov_barrier.py 420-468 (end of `solve_lyap_derivative_mip`): states and successors. -/
def derAdversarial (sys : TrainSys W K) (w : W) (n : ℕ) (only : Bool) (s : Solve K) : Option (Mat K × Mat K) :=
  (derNext sys w (keptSols n only s)).map fun next => ((keptSols n only s).map PoolSol.x, next)

/-- The calls that the trainer makes. `solvePos`, `solveDer`: 326-347, 374-411, build and solve the program.
`posMipObj`, `derMipObj`: `compute_objective_from_mip_data_and_solution` of the solved program. `gap`:
`solve_boundary_gap_mip()[0]`. `posLoss`, `derLoss`: 250-256, 261-269 without the weights. `update`:
`loss.backward(); optimizer.step()`. -/
structure Env (W K : Type) where
  sys : TrainSys W K
  solvePos : W → Option (Solve K × W)
  solveDer : W → Option (Solve K × W)
  posMipObj : W → Option K
  derMipObj : W → Option K
  gap : W → Option K
  posLoss : W → Mat K → K
  derLoss : W → Mat K → Mat K → K
  update : W → K → W

/-- train_lyapunov_barrier.py 24-162: the settings that are used. -/
structure TrainCfg (K : Type) where
  posPool : ℕ
  derPool : ℕ
  only : Bool
  maxIter : ℕ
  posTol : K
  derTol : K
  addPos : Bool
  addDer : Bool
  maxPool : ℕ
  posW : K
  derW : K
  posMipW : Option K
  derMipW : Option K
  gapW : K
  optKnown : Bool

/-- `l[-n:]`: for `n = 0` this is `l[0:]`. -/
def pySuffix {α : Type*} (n : ℕ) (l : List α) : List α := if n = 0 then l else l.drop (l.length - n)

/-- train_lyapunov_barrier.py 812-818, 1317-1320: the suffix, if the list is too long. -/
def inPool {α : Type*} (n : ℕ) (l : List α) : List α := if l.length > n then pySuffix n l else l

/-- train_lyapunov_barrier.py 226-273 `lyapunov_sample_loss`. -/
def Env.sampleLoss (env : Env W K) (w : W) (posW derW : K) (pos der next : Mat K) : K × K :=
  (if posW ≠ 0 ∧ pos.length > 0 then posW * env.posLoss w pos else 0,
    if derW ≠ 0 ∧ der.length > 0 then derW * env.derLoss w der next else 0)

/-- train_lyapunov_barrier.py 746-752, 753-762: a program is solved only if its weight is not `None`. -/
def optSolve (wt : Option K) (f : W → Option (Solve K × W)) (w : W) : Option (Option (Solve K) × W) :=
  match wt with
  | none => some (none, w)
  | some _ => (f w).map fun r => (some r.1, r.2)

/-- train_lyapunov_barrier.py 766-781: the weighted loss of a program. -/
def mipLoss (wt : Option K) (f : W → Option K) (w : W) : Option K :=
  match wt with
  | none => some 0
  | some c => if c ≠ 0 then (f w).map fun o => c * o else some 0

/-- The fields of `TotalLossReturn` and `LyapLoss`. -/
structure LossRet (K : Type) where
  loss : K
  posObj : Option K
  derObj : Option K
  posSample : K
  derSample : K
  posMip : K
  derMip : K
  gapLoss : K
  pos : Mat K
  der : Mat K
  next : Mat K

/-- train_lyapunov_barrier.py 798-801: the enlarged set of the positivity condition. -/
def enlargePos (add : Bool) (s : Option (Solve K)) (n : ℕ) (only : Bool) (pos : Mat K) : Mat K :=
  match s with
  | some s => if add then pos ++ posAdversarial n only s else pos
  | none => pos

/-- train_lyapunov_barrier.py 420-468 and 802-810: the enlarged sets of the derivative condition. The adversarial
states are computed, and may raise, also when they are not added. -/
def enlargeDer (sys : TrainSys W K) (w : W) (add : Bool) (s : Option (Solve K)) (n : ℕ) (only : Bool) (der next : Mat K) :
    Option (Mat K × Mat K) :=
  match s with
  | some s => (derAdversarial sys w n only s).map fun a => if add then (der ++ a.1, next ++ a.2) else (der, next)
  | none => some (der, next)

/-- train_lyapunov_barrier.py 783-788: the gap of the values on the boundary. -/
def gapLoss (env : Env W K) (gapW : K) (w : W) : Option K :=
  if gapW ≠ 0 then (env.gap w).map fun g => gapW * g else some 0

/-- train_lyapunov_barrier.py 819-830: the successors in the pool, cut when the states are. -/
def nextInPool (n : ℕ) (der next : Mat K) : Mat K := if der.length > n then pySuffix n next else next

/-- train_lyapunov_barrier.py 706-844 `total_loss`, with the settings of `self` as arguments. -/
def Env.totalLoss (env : Env W K) (cfg : TrainCfg K) (w : W) (pos der next : Mat K) : Option (LossRet K × W) := do
  let sp ← optSolve cfg.posMipW env.solvePos w
  let sd ← optSolve cfg.derMipW env.solveDer sp.2
  let w := sd.2
  let lp ← mipLoss cfg.posMipW env.posMipObj w
  let ld ← mipLoss cfg.derMipW env.derMipObj w
  let lg ← gapLoss env cfg.gapW w
  let pos' := enlargePos cfg.addPos sp.1 cfg.posPool cfg.only pos
  let dn ← enlargeDer env.sys w cfg.addDer sd.1 cfg.derPool cfg.only der next
  let ls := env.sampleLoss w cfg.posW cfg.derW (inPool cfg.maxPool pos') (inPool cfg.maxPool dn.1)
    (nextInPool cfg.maxPool dn.1 dn.2)
  some ({ loss := ls.1 + ls.2 + lp + ld + lg, posObj := sp.1.map Solve.objVal, derObj := sd.1.map Solve.objVal,
          posSample := ls.1, derSample := ls.2, posMip := lp, derMip := ld, gapLoss := lg,
          pos := pos', der := dn.1, next := dn.2 }, w)

/-- `a <= t` for `a` that may be `None` (raises). -/
def leNone (a : Option K) (t : K) : Option Bool := a.map fun a => decide (a ≤ t)

/-- train_lyapunov_barrier.py 969-972: `a <= s and b <= t`. -/
def bothWithin (a b : Option K) (s t : K) : Option Bool := do
  if ← leNone a s then leNone b t else some false

/-- train_lyapunov_barrier.py 925-936: the successors of the samples, again for a feedback system. -/
def refreshNext (env : Env W K) (w : W) (der next : Mat K) : Option (Mat K) :=
  if env.sys.feedback then env.sys.stepAll w der else some next

/-- What `train` returns (973-975, 988-990). -/
structure TrainRet (K : Type) where
  converged : Bool
  loss : K
  posObj : Option K
  derObj : Option K

/-- train_lyapunov_barrier.py 922-990: the loop, `n` iterations left; `last` is `total_loss_return`, if bound. The best
parameters (976-984) are never used and are dropped. -/
def Env.trainLoop (env : Env W K) (cfg : TrainCfg K) : ℕ → W → Mat K → Mat K → Mat K → Option (LossRet K) →
    Option (TrainRet K × W)
  | 0, w, _, _, _, last => last.map fun r => (⟨false, r.loss, r.posObj, r.derObj⟩, w)
  | n + 1, w, pos, der, next, _ => do
    let next ← refreshNext env w der next
    let t ← env.totalLoss cfg w pos der next
    if ← bothWithin t.1.posObj t.1.derObj cfg.posTol cfg.derTol then
      some (⟨true, t.1.loss, t.1.posObj, t.1.derObj⟩, t.2)
    else env.trainLoop cfg n (env.update t.2 t.1.loss) t.1.pos t.1.der t.1.next (some t.1)

/-- train_lyapunov_barrier.py 889-990 `train`. -/
def Env.train (env : Env W K) (cfg : TrainCfg K) (w : W) (samples : Mat K) : Option (TrainRet K × W) := do
  let next ← env.sys.stepAll w samples
  if cfg.optKnown then env.trainLoop cfg cfg.maxIter w samples samples next none else none

/-! ### train_adversarial -/

/-- train_lyapunov_barrier.py 1082-1099 `AdversarialTrainingOptions` (the ones used by `train_adversarial`): `radius` is
`none` for `np.inf`; `noise` is the perturbation of 1287-1296 (`none`: `perturb_derivative_sample_count == 0`). -/
structure AdvCfg (W K : Type) where
  posLimit : ℕ
  derLimit : ℕ
  radius : Option K
  noise : Option (W → Mat K → Mat K × W)

/-- train_lyapunov_barrier.py 1269-1279: one state of each cluster. -/
def clustered (radius : Option K) (adv : Mat K) : Mat K :=
  match radius with
  | none => adv
  | some r => (clusterStates adv r).1

/-- train_lyapunov_barrier.py 1287-1296: the adversarial states and their perturbations. -/
def perturbed (noise : Option (W → Mat K → Mat K × W)) (w : W) (adv : Mat K) : Mat K × W :=
  match noise with
  | none => (adv, w)
  | some f => (adv ++ (f w adv).1, (f w adv).2)

/-- What `train_adversarial` returns: the flag, the sets and, if not converged, the repetition counts. -/
structure AdvRet (K : Type) where
  converged : Bool
  pos : Mat K
  der : Mat K
  reps : Option (Vec K × Vec K)

/-- `torch.ones((n,))`. -/
def onesVec (n : ℕ) : Vec K := List.replicate n 1

/-- train_lyapunov_barrier.py 1262-1362: the loop. `descend` is `_batch_descent_on_samples` with a new optimiser
(1346-1358). -/
def Env.advLoop (env : Env W K) (cfg : TrainCfg K) (o : AdvCfg W K) (descend : W → Mat K → Mat K → Option W) :
    ℕ → W → Mat K → Mat K → Vec K → Vec K → Option (AdvRet K × W)
  | 0, w, pos, der, rp, rd => some (⟨false, pos, der, some (rp, rd)⟩, w)
  | n + 1, w, pos, der, _, _ => do
    let sp ← env.solvePos w
    let sd ← env.solveDer sp.2
    let da ← derAdversarial env.sys sd.2 cfg.derPool cfg.only sd.1
    let pa := clustered o.radius (posAdversarial cfg.posPool cfg.only sp.1)
    let pd := perturbed o.noise sd.2 (clustered o.radius da.1)
    let w := pd.2
    let rp := inPool o.posLimit (onesVec (pos ++ pa).length : Vec K)
    let rd := inPool o.derLimit (onesVec (der ++ pd.1).length : Vec K)
    let pos := inPool o.posLimit (pos ++ pa)
    let der := inPool o.derLimit (der ++ pd.1)
    if sp.1.objVal < cfg.posTol ∧ sd.1.objVal < cfg.derTol then some (⟨true, pos, der, none⟩, w)
    else if cfg.optKnown then do
      let w ← descend w pos der
      env.advLoop cfg o descend n w pos der rp rd
    else none

/-- train_lyapunov_barrier.py 1232-1362 `train_adversarial`. -/
def Env.trainAdversarial (env : Env W K) (cfg : TrainCfg K) (o : AdvCfg W K)
    (descend : W → Mat K → Mat K → Option W) (w : W) (pos der : Mat K) : Option (AdvRet K × W) :=
  if cfg.addDer ∧ cfg.addPos then env.advLoop cfg o descend cfg.maxIter w pos der (onesVec pos.length) (onesVec der.length)
  else none

/-! ### _batch_descent_on_samples -/

/-- The tensors that are trained: `cells` are the values, the other fields are the references held by the Lyapunov
network, by the controller network (`[]` if there is none) and by `R_options._variables` (`none`: fixed `R`). -/
structure Tensors (K : Type) where
  cells : List (Vec K)
  net : List ℕ
  ctrl : List ℕ
  rvar : Option ℕ

/-- The values of the parameters. -/
structure ParamVals (K : Type) where
  net : List (Vec K)
  ctrl : List (Vec K)
  rvar : Option (Vec K)

/-- train_lyapunov_barrier.py 870-887 `_training_params`: the references given to the optimiser. -/
def Tensors.trained (t : Tensors K) (searchCtrl : Bool) : List ℕ :=
  t.net ++ (if searchCtrl then t.ctrl else []) ++ t.rvar.toList

/-- train_lyapunov_barrier.py 1107-1121 `_get_current_training_params`. -/
def Tensors.get (t : Tensors K) : ParamVals K :=
  ⟨t.net.map fun i => t.cells.getD i [], t.ctrl.map fun i => t.cells.getD i [], t.rvar.map fun i => t.cells.getD i []⟩

/-- `load_state_dict`: the values are copied into the tensors. -/
def loadCells : List (Vec K) → List ℕ → List (Vec K) → List (Vec K)
  | cells, i :: is, v :: vs => loadCells (cells.set i v) is vs
  | cells, _, _ => cells

/-- train_lyapunov_barrier.py 1129-1130: `R_options._variables` is bound to a new tensor. -/
def Tensors.setR (t : Tensors K) (v : Option (Vec K)) : Tensors K :=
  match t.rvar, v with
  | some _, some v => { t with cells := t.cells ++ [v], rvar := some t.cells.length }
  | _, _ => t

/-- train_lyapunov_barrier.py 1123-1134 `_set_training_params`. -/
def Tensors.put (t : Tensors K) (p : ParamVals K) : Tensors K :=
  let t1 : Tensors K := { t with cells := loadCells t.cells t.net p.net }
  let t2 := t1.setR p.rvar
  { t2 with cells := loadCells t2.cells t2.ctrl p.ctrl }

/-- train_lyapunov_barrier.py 1180-1229: the loop over the epochs. `epoch` is the inner loop over the batches
(1181-1202); `loss` gives the two sample losses (1204-1213). -/
def batchLoop (epoch : ℕ → Tensors K → Tensors K) (loss : ParamVals K → K × K) :
    ℕ → Tensors K → ParamVals K → K → Tensors K
  | 0, t, best, _ => t.put best
  | n + 1, t, best, bestLoss =>
    let t := epoch n t
    let l := loss t.get
    if l.1 = 0 ∧ l.2 = 0 then t
    else if l.1 + l.2 < bestLoss then batchLoop epoch loss n t t.get (l.1 + l.2)
    else batchLoop epoch loss n t best bestLoss

/-- train_lyapunov_barrier.py 1136-1230 `_batch_descent_on_samples`. -/
def batchDescent (epoch : ℕ → Tensors K → Tensors K) (loss : ParamVals K → K × K) (epochs : ℕ) (t : Tensors K) : Tensors K :=
  batchLoop epoch loss epochs t t.get ((loss t.get).1 + (loss t.get).2)

/-! ### Training on samples -/

/-- train_lyapunov_barrier.py 1021-1080: the loop of `train_lyapunov_on_samples`; `best` is the best test loss and the
networks at that time, if any (`best_loss = inf`). `R_options` is not part of what is restored. -/
def onSamplesLoop (epoch : ℕ → Tensors K → Tensors K) (testLoss : ParamVals K → K) :
    ℕ → Tensors K → Option (K × List (Vec K) × List (Vec K)) → Option (Tensors K)
  | 0, t, best => best.map fun b =>
    let c := loadCells t.cells t.net b.2.1
    { t with cells := loadCells c t.ctrl b.2.2 }
  | n + 1, t, best =>
    let t := epoch n t
    let l := testLoss t.get
    if ∀ b ∈ best, l < b.1 then onSamplesLoop epoch testLoss n t (some (l, t.get.net, t.get.ctrl))
    else onSamplesLoop epoch testLoss n t best

/-- train_lyapunov_barrier.py 992-1080 `train_lyapunov_on_samples`. -/
def trainOnSamples (epoch : ℕ → Tensors K → Tensors K) (testLoss : ParamVals K → K) (epochs : ℕ) (t : Tensors K) :
    Option (Tensors K) := onSamplesLoop epoch testLoss epochs t none

/-! ### TrainValueApproximator -/

/-- train_lyapunov_barrier.py 1391-1403: the loop; `last` is the value of `loss`, if bound. -/
def valueLoop (loss : W → K) (update : W → W) (tol : K) : ℕ → W → Option K → Option (Bool × K × W)
  | 0, w, last => last.map fun l => (false, l, w)
  | n + 1, w, _ => if loss w ≤ tol then some (true, loss w, w) else valueLoop loss update tol n (update w) (some (loss w))

/-- train_lyapunov_barrier.py 1377-1403 `train_with_cost_to_go`. -/
def trainValue (loss : W → K) (update : W → W) (tol : K) (epochs : ℕ) (w : W) : Option (Bool × K × W) :=
  valueLoop loss update tol epochs w none

/-! ### Barrier programs -/

/-- train_lyapunov_barrier.py 572-588 (end of `solve_barrier_derivative_mip`): `torch.stack` of an empty list raises. -/
def barrierDerAdversarial (n : ℕ) (only : Bool) (s : Solve K) : Option (Mat K) :=
  if posAdversarial n only s = [] then none else some (posAdversarial n only s)

/-- train_lyapunov_barrier.py 546-556 (`solve_barrier_value_mip`, one region): all solutions are taken. -/
def barrierValAdversarial (n : ℕ) (s : Solve K) : Mat K := (s.pool.take n).map PoolSol.x

end NNL.Model
