import Verif.Model.ForwardTraining

/-!
# `utils.train_model` (utils.py 676-713) and `TrainingLog` (training_log.py)
-/

namespace NNL.Model

open NNL NNL.Spec

/-! ### train_model -/

section TrainModel

variable {K : Type*} [Field K] {P : Type*}

/-- utils.py 692, 706: `MSELoss(reduction="sum")(model(x), y) / batch_size` for a batch. -/
def sumLoss (model : P → Vec K → Vec K) (b : ℕ) (batch : List (Vec K × Vec K)) (p : P) : K :=
  (batch.map fun d => ((vsub (model p d.1) d.2).map fun e => e * e).sum).sum / b

/-- utils.py 676-713 `train_model`. `adam f p` are the parameters (and the state of Adam) after a step on `f`,
`shuffle i` the order of the data in epoch `i`. `DataLoader(shuffle=True)` raises for no data and for a batch size
that is not positive. -/
def trainModel (model : P → Vec K → Vec K) (adam : (P → K) → P → P)
    (shuffle : ℕ → List (Vec K × Vec K) → List (Vec K × Vec K)) (b epochs : ℕ) (p : P)
    (data : List (Vec K × Vec K)) : Option P :=
  if data = [] ∨ b = 0 then none
  else some ((List.range epochs).foldl
    (fun p i => approxEpoch (fun p batch => adam (sumLoss model b batch) p) b p (shuffle i data)) p)

end TrainModel

/-! ### TrainingLog -/

/-- A point written by `SummaryWriter.add_scalars`: the plot (`none` is the plot without a number), the curve, the
value and the step. -/
structure LogPoint (K : Type*) where
  validation : Bool
  component : Option ℕ
  curve : String
  value : K
  step : ℕ
deriving DecidableEq

/-- training_log.py 7-17: the attributes; `writer` is the number of the writer. -/
structure TrainLog (K : Type*) where
  lossDim : ℕ
  curve : String
  firstOnly : Bool
  writer : ℕ
  train : List (List K)
  validation : List (List K)

/-- The points of all writers. -/
abbrev Writers (K : Type*) := List (List (LogPoint K))

variable {K : Type*}

/-- training_log.py 7-17 `TrainingLog(...)`. -/
def TrainLog.new (W : Writers K) (lossDim : ℕ) (curve : String) (writer : Option ℕ) (firstOnly : Bool) :
    Writers K × TrainLog K :=
  match writer with
  | none => (W ++ [[]], ⟨lossDim, curve, firstOnly, W.length, [], []⟩)
  | some w => (W, ⟨lossDim, curve, firstOnly, w, [], []⟩)

/-- training_log.py 21-29, 33-41: the points of one vector of losses at a step. -/
def TrainLog.points (L : TrainLog K) (validation : Bool) (losses : List K) (step : ℕ) : List (LogPoint K) :=
  if L.firstOnly then (losses.take 1).map fun v => ⟨validation, none, L.curve, v, step⟩
  else losses.mapIdx fun i v => ⟨validation, some i, L.curve, v, step⟩

/-- training_log.py 19-29 `add_train_loss`: `vstack` raises for another number of losses, and `losses[0]` for none. -/
def TrainLog.addTrain (W : Writers K) (L : TrainLog K) (losses : List K) : Option (Writers K × TrainLog K) :=
  if losses.length = L.lossDim ∧ (L.firstOnly = true → L.lossDim ≠ 0) then
    let L := { L with train := L.train ++ [losses] }
    some (W.modify L.writer (· ++ L.points false losses L.train.length), L)
  else none

/-- training_log.py 31-41 `add_validation_loss`. -/
def TrainLog.addValidation (W : Writers K) (L : TrainLog K) (losses : List K) : Option (Writers K × TrainLog K) :=
  if losses.length = L.lossDim ∧ (L.firstOnly = true → L.lossDim ≠ 0) then
    let L := { L with validation := L.validation ++ [losses] }
    some (W.modify L.writer (· ++ L.points true losses L.train.length), L)
  else none

/-- training_log.py 44-57 `get_copy`. -/
def TrainLog.copy (W : Writers K) (L : TrainLog K) (curve : Option String) (firstOnly : Option Bool)
    (keepWriter : Bool) : Writers K × TrainLog K :=
  let r := TrainLog.new W L.lossDim (curve.getD L.curve) (if keepWriter then some L.writer else none)
    (firstOnly.getD L.firstOnly)
  (r.1, { r.2 with train := L.train, validation := L.validation })

/-- A call of one of the two methods: the first entry says whether it is `add_validation_loss`. -/
def TrainLog.call (W : Writers K) (L : TrainLog K) (c : Bool × List K) : Option (Writers K × TrainLog K) :=
  if c.1 then L.addValidation W c.2 else L.addTrain W c.2

/-- A sequence of calls. -/
def TrainLog.calls : Writers K → TrainLog K → List (Bool × List K) → Option (Writers K × TrainLog K)
  | W, L, [] => some (W, L)
  | W, L, c :: cs => (L.call W c).bind fun r => TrainLog.calls r.1 r.2 cs

end NNL.Model
