import Verif.Model.Trainer
import Verif.Model.Barrier

/-!
# Boundary gap and barrier losses (train_lyapunov_barrier.py 275-322, 470-588, 626-704)
-/

set_option linter.unusedSectionVars false

namespace NNL.Model

open NNL NNL.Spec

variable {K : Type} [Field K] [LinearOrder K] {W : Type}

/-- train_lyapunov_barrier.py 470-525 `solve_boundary_gap_mip`: the program with the objective of the first solve
(maximise), the one with the objective of the second (minimise), and `x`. -/
def Lyap.boundaryGap (L : Lyap K) (xe : Vec K) (lam : K) (R : Option (Tensor2 K)) :
    Option (Mip K × Mip K × List ℕ) := do
  let tx ← (Mip.empty : Mip K).addVars L.dim (noBound L.dim) (noBound L.dim) .continuous
  let c ← boxBoundary L.xLo L.xUp
  let g ← tx.1.addMIC c tx.2 none .fresh .binary
  let v ← L.valueMilp g.1 tx.2 xe lam R
  let mmax ← v.1.setObjective v.2.1 v.2.2.1 v.2.2.2.1 true
  let mmin ← mmax.setObjective v.2.1 v.2.2.1 v.2.2.2.1 false
  some (mmax, mmin, tx.2)

/-- train_lyapunov_barrier.py 290-297, 298-306: the loss of the states of one region, `safe` or not; `l` is the result
(a relation because of the 4-norm). -/
def Lyap.ValueLoss (L : Lyap K) (xs : Vec K) (c weight : K) (red : Reduction) (safe : Bool) (states : Mat K) (l : K) : Prop :=
  if weight ≠ 0 ∧ states.length > 0 then
    ∃ vals r, states.mapM (fun x => L.barrier x xs c) = some vals ∧
      Reduces red none (vals.map fun h => max (if safe then -h else h) 0) r ∧ l = weight * r
  else l = 0

/-- train_lyapunov_barrier.py 307-321: the loss of the derivative condition; `margin` is 0
(`derivative_loss_at_samples_and_next_states` is called with its default). -/
def Lyap.DerLoss (L : Lyap K) (step : Vec K → Option (Vec K)) (xs : Vec K) (c eps weight : K) (red : Reduction)
    (states : Mat K) (l : K) : Prop :=
  if weight ≠ 0 ∧ states.length > 0 then
    ∃ next r, states.mapM step = some next ∧ L.BarrierLoss states next xs c eps 0 red r ∧ l = weight * r
  else l = 0

/-- What `compute_barrier_loss` calls. `solveVal safe i`: builds and solves the program of region `i`
(`solve_barrier_value_mip`, 525-546); `solveDer`: 558-573; `valMipObj`, `derMipObj`:
`compute_objective_from_mip_data_and_solution`; `safeLoss`, `unsafeLoss`, `derLoss`: the three parts of
`barrier_sample_loss`, with the weights. -/
structure BarrierEnv (W K : Type) where
  nSafe : ℕ
  nUnsafe : ℕ
  solveVal : Bool → ℕ → W → Option (Solve K × W)
  solveDer : W → Option (Solve K × W)
  valMipObj : Bool → ℕ → W → Option K
  derMipObj : W → Option K
  safeLoss : W → Mat K → Option K
  unsafeLoss : W → Mat K → Option K
  derLoss : W → Mat K → Option K

/-- train_lyapunov_barrier.py 84-85, 145-151 and the arguments of `compute_barrier_loss`. -/
structure BarrierCfg (K : Type) where
  valPool : ℕ
  derPool : ℕ
  only : Bool
  maxPool : ℕ
  safeMipW : Option K
  unsafeMipW : Option K
  derMipW : Option K

/-- train_lyapunov_barrier.py 527-557 `solve_barrier_value_mip`: the solves of the regions `is`, one after the other. -/
def BarrierEnv.solveVals (env : BarrierEnv W K) (safe : Bool) : List ℕ → W → Option (List (Solve K) × W)
  | [], w => some ([], w)
  | i :: is, w => do
    let s ← env.solveVal safe i w
    let t ← env.solveVals safe is s.2
    some (s.1 :: t.1, t.2)

/-- train_lyapunov_barrier.py 637-642, 651-656: the weighted losses of the programs of the regions. -/
def BarrierEnv.valLosses (env : BarrierEnv W K) (safe : Bool) (n : ℕ) (c : K) (w : W) : Option (Option (Vec K)) :=
  if c ≠ 0 then ((List.range n).mapM fun i => (env.valMipObj safe i w).map fun o => c * o).map some else some none

/-- train_lyapunov_barrier.py 666-670. -/
def BarrierEnv.derMipLoss (env : BarrierEnv W K) (c : K) (w : W) : Option (Option K) :=
  if c ≠ 0 then (env.derMipObj w).map fun o => some (c * o) else some none

/-- train_lyapunov_barrier.py 634-646, 648-660: the objectives, the losses and the adversarial states of all regions. -/
def BarrierEnv.valuePart (env : BarrierEnv W K) (pool : ℕ) (safe : Bool) (n : ℕ) (wt : Option K) (w : W) :
    Option ((Option (Vec K) × Option (Vec K) × Option (List (Mat K))) × W) :=
  match wt with
  | none => some ((none, none, none), w)
  | some c => do
    let s ← env.solveVals safe (List.range n) w
    let l ← env.valLosses safe n c s.2
    some ((some (s.1.map Solve.objVal), l, some (s.1.map (barrierValAdversarial pool))), s.2)

/-- train_lyapunov_barrier.py 662-674. -/
def BarrierEnv.derPart (env : BarrierEnv W K) (cfg : BarrierCfg K) (w : W) :
    Option ((Option K × Option K × Option (Mat K)) × W) :=
  match cfg.derMipW with
  | none => some ((none, none, none), w)
  | some c => do
    let s ← env.solveDer w
    let a ← barrierDerAdversarial cfg.derPool cfg.only s.1
    let l ← env.derMipLoss c s.2
    some ((some s.1.objVal, l, some a), s.2)

/-- train_lyapunov_barrier.py 679-691: `torch.cat` of the samples and the states of all regions. -/
def withRegions (samples : Mat K) (adv : Option (List (Mat K))) : Mat K :=
  match adv with
  | none => samples
  | some a => samples ++ a.flatten

/-- train_lyapunov_barrier.py 692-695. -/
def withStates (samples : Mat K) (adv : Option (Mat K)) : Mat K :=
  match adv with
  | none => samples
  | some a => samples ++ a

/-- train_lyapunov_barrier.py 603-616 `BarrierLoss`. -/
structure BarrierLossRet (K : Type) where
  safeObj : Option (Vec K)
  unsafeObj : Option (Vec K)
  derObj : Option K
  safeSample : K
  unsafeSample : K
  derSample : K
  safeMip : Option (Vec K)
  unsafeMip : Option (Vec K)
  derMip : Option K
  safe : Mat K
  unsafe_ : Mat K
  der : Mat K

/-- train_lyapunov_barrier.py 626-704 `compute_barrier_loss`. -/
def BarrierEnv.barrierLoss (env : BarrierEnv W K) (cfg : BarrierCfg K) (w : W) (safe unsafe_ der : Mat K) :
    Option (BarrierLossRet K × W) := do
  let s ← env.valuePart cfg.valPool true env.nSafe cfg.safeMipW w
  let u ← env.valuePart cfg.valPool false env.nUnsafe cfg.unsafeMipW s.2
  let d ← env.derPart cfg u.2
  let safe' := withRegions safe s.1.2.2
  let unsafe' := withRegions unsafe_ u.1.2.2
  let der' := withStates der d.1.2.2
  let l1 ← env.safeLoss d.2 (pySuffix cfg.maxPool safe')
  let l2 ← env.unsafeLoss d.2 (pySuffix cfg.maxPool unsafe')
  let l3 ← env.derLoss d.2 (pySuffix cfg.maxPool der')
  some ({ safeObj := s.1.1, unsafeObj := u.1.1, derObj := d.1.1, safeSample := l1, unsafeSample := l2, derSample := l3,
          safeMip := s.1.2.1, unsafeMip := u.1.2.1, derMip := d.1.2.1, safe := safe', unsafe_ := unsafe', der := der' }, d.2)

end NNL.Model
