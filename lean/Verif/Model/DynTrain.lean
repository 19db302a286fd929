import Verif.Model.DynamicsLearning

/-!
# `DynamicsLearning.train` (dynamics_learning.py 394-511)

The networks, the optimizer and the random generator are an abstract state `W`. A `KeyboardInterrupt` may arrive before any
of the actions marked `atomic`; one that arrives in the middle of an action is not modelled, nor one during the last save.
Devices are not modelled.
-/

namespace NNL.Model

variable {W B K : Type}

/-- The operations of the learner that `train` calls; `none` is an exception. -/
structure DynEnv (W B K : Type) where
  /-- dynamics_learning.py 422-433: clear the gradients, add the losses of the batch, differentiate, step. -/
  sampleStep : B → W → Option W
  /-- dynamics_learning.py 327-365 (a variational encoder draws random numbers, so the state changes). -/
  sampleLosses : B → W → Option ((K × K × K) × W)
  /-- dynamics_learning.py 452-464: clear the gradients, `lyapunov_loss` with the thresholds, differentiate, step. -/
  programStep : K × K × K → W → Option W
  /-- dynamics_learning.py 570-577, 784-812 `dynamics_loss`. -/
  dynLoss : B → W → Option (K × W)
  /-- `x.shape[0]` -/
  size : B → ℕ

/-- Options and arguments of `train`: `lyap_loss_freq` and `save_rate` (0 stands for all values `<= 0`), whether `save_path`
is given, `validate`, and the batches: those of the training loader in each epoch, those of the validation loader. -/
structure DynTrainCfg (B : Type) where
  lyapLossFreq : ℕ
  saveRate : ℕ
  savePath : Bool
  validate : Bool
  trainBatches : ℕ → List B
  validationBatches : List B

/-- What can be observed of a run: entries of the log with their step `n_iter`, and saved models. -/
inductive DynEv (W B K : Type) where
  | step (n : ℕ) (b : B)
  | program (n : ℕ) (thresholds : K × K × K)
  | validated (n : ℕ) (losses : K × K × K × K)
  | saved (w : W)

structure DynSt (W B K : Type) where
  w : W
  nIter : ℕ
  trace : List (DynEv W B K)
  /-- how many actions are carried out before the `KeyboardInterrupt`; `none` if there is none -/
  budget : Option ℕ

/-- The outcome of a piece of the program: finished, interrupted, or another exception. -/
inductive DynOut (S : Type) where
  | ok (s : S)
  | interrupted (s : S)
  | error (s : S)

def DynOut.bind {S : Type} (o : DynOut S) (f : S → DynOut S) : DynOut S :=
  match o with
  | .ok s => f s
  | .interrupted s => .interrupted s
  | .error s => .error s

def DynOut.foldl {S A : Type} (f : A → S → DynOut S) : List A → S → DynOut S
  | [], s => .ok s
  | a :: as, s => (f a s).bind (DynOut.foldl f as)

/-- Carry out one action, unless the interrupt arrives first. -/
def atomic (f : DynSt W B K → Option (DynSt W B K)) (s : DynSt W B K) : DynOut (DynSt W B K) :=
  match s.budget with
  | some 0 => .interrupted s
  | bd =>
    match f { s with budget := bd.map (· - 1) } with
    | some t => .ok t
    | none => .error s

/-- dynamics_learning.py 422-439: the step on the losses of a batch, logged with step `n_iter`. -/
def doStep (env : DynEnv W B K) (b : B) (s : DynSt W B K) : Option (DynSt W B K) :=
  (env.sampleStep b s.w).map fun w => { s with w := w, trace := s.trace ++ [.step s.nIter b] }

/-- dynamics_learning.py 442-467: the step on the losses of the programs; the thresholds are the losses at the samples of
the batch, with the networks after `doStep`. -/
def doProgram (env : DynEnv W B K) (b : B) (s : DynSt W B K) : Option (DynSt W B K) := do
  let l ← env.sampleLosses b s.w
  let w ← env.programStep l.1 l.2
  some { s with w := w, trace := s.trace ++ [.program s.nIter l.1] }

/-- dynamics_learning.py 420-468: one batch. -/
def trainBatch (env : DynEnv W B K) (cfg : DynTrainCfg B) (b : B) (s : DynSt W B K) : DynOut (DynSt W B K) :=
  (atomic (doStep env b) s).bind fun s =>
    (if cfg.lyapLossFreq > 0 ∧ s.nIter % cfg.lyapLossFreq = 0 then atomic (doProgram env b) s else .ok s).bind
      (atomic fun s => some { s with nIter := s.nIter + 1 })

variable [Field K]

/-- dynamics_learning.py 477-492: the sums over the validation batches (the four losses times the batch size, and the number
of samples). -/
def valStep (env : DynEnv W B K) (a : (K × K × K × K × K) × W) (b : B) : Option ((K × K × K × K × K) × W) := do
  let d ← env.dynLoss b a.2
  let l ← env.sampleLosses b d.2
  let k : K := (env.size b : K)
  some ((a.1.1 + d.1 * k, a.1.2.1 + l.1.1 * k, a.1.2.2.1 + l.1.2.1 * k, a.1.2.2.2.1 + l.1.2.2 * k, a.1.2.2.2.2 + k), l.2)

/-- dynamics_learning.py 470-503: the losses logged by the validation. Without validation batches, `0. / 0.` on Python floats
raises. -/
def doValidate (env : DynEnv W B K) (cfg : DynTrainCfg B) (s : DynSt W B K) : Option (DynSt W B K) :=
  if cfg.validationBatches = [] then none
  else do
    let r ← cfg.validationBatches.foldlM (valStep env) ((0, 0, 0, 0, 0), s.w)
    let n := r.1.2.2.2.2
    some { s with
      w := r.2
      trace := s.trace ++ [.validated s.nIter (r.1.1 / n, r.1.2.1 / n, r.1.2.2.1 / n, r.1.2.2.2.1 / n)] }

/-- dynamics_learning.py 538-546, 669-681 `save`. -/
def doSave (s : DynSt W B K) : DynSt W B K := { s with trace := s.trace ++ [.saved s.w] }

/-- dynamics_learning.py 418-506: one epoch. -/
def trainEpoch (env : DynEnv W B K) (cfg : DynTrainCfg B) (e : ℕ) (s : DynSt W B K) : DynOut (DynSt W B K) :=
  (DynOut.foldl (trainBatch env cfg) (cfg.trainBatches e) s).bind fun s =>
    (if cfg.validate then atomic (doValidate env cfg) s else .ok s).bind fun s =>
      if cfg.saveRate > 0 ∧ e % cfg.saveRate = 0 then
        if cfg.savePath then atomic (fun s => some (doSave s)) s else .error s
      else .ok s

/-- dynamics_learning.py 394-511 `train`: a `KeyboardInterrupt` ends the loop, and then the model is saved; any other
exception leaves `train`. -/
def dynTrain (env : DynEnv W B K) (cfg : DynTrainCfg B) (numEpoch : ℕ) (s : DynSt W B K) : DynOut (DynSt W B K) :=
  match DynOut.foldl (trainEpoch env cfg) (List.range numEpoch) s with
  | .error s => .error s
  | .ok s | .interrupted s => .ok (if cfg.savePath then doSave s else s)

end NNL.Model
