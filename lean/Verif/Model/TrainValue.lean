import Verif.Model.TrainUtil

/-!
# The loops of `AdversarialWithBaseline.train` and `train_no_benchmark` (train_value.py 196-372, 415-511)

The networks and their optimizers are not part of the state: the loops do not depend on them except through the adversarial
samples, which are parameters.
-/

namespace NNL.Model

variable {D L : Type}

/-- The options read by the loops (train_value.py 9-35). -/
structure ValueOpt where
  initBuffer : ℕ
  initSteps : ℕ
  iterDesired : ℕ
  stepsBetween : ℕ
  numExtra : ℕ
  maxBuffer : ℕ
  useLimits : Bool

/-- The buffers and `num_total_iter_done`. -/
structure ValueSt (D L : Type) where
  buf : Buffers D L
  total : ℕ

/-- train_value.py 421-428: the initial fill of `train_no_benchmark`, of the adversarial buffer only. -/
def Buffers.initNB (b : Buffers D L) (size : ℕ) (V : D → Option L) (draws : List D) : Option (Buffers D L) :=
  if b.advData.length < size then
    (getSamples V (size - b.advData.length) draws).map fun r => b.push r.1 r.2 [] []
  else some b

/-- train_value.py 458-463, 471-476: only the adversarial buffer is trimmed. -/
def Buffers.trimNB (b : Buffers D L) (n limit : ℕ) : Buffers D L :=
  if n + b.advData.length > limit then { b with advData := b.advData.drop n, advLabel := b.advLabel.drop n } else b

/-- train_value.py 456-480: one round of sampling of `train_no_benchmark`. -/
def Buffers.iterNB (numExtra limit : ℕ) (V : D → Option L) (b : Buffers D L) (w : Draws D L) : Option (Buffers D L) :=
  let b1 := (b.trimNB w.advData.length limit).push w.advData w.advLabel [] []
  (getSamples V numExtra w.extra).map fun e => (b1.trimNB numExtra limit).push e.1 e.2 [] []

/-- train_value.py 321-324: what a training step of `train` asserts. `train_no_benchmark` asserts nothing, and drawing no sample at all
from an empty buffer (325-328, 482-485) does not raise. -/
def Buffers.stepOk (bench : Bool) (b : Buffers D L) : Bool :=
  !bench || decide (b.advData.length = b.randData.length ∧ b.advLabel.length = b.randLabel.length)

/-- train_value.py 320-372, 481-511: the `for` loop over the training steps with its `break`, from `iter_num` and
`num_total_iter_done`. -/
def valueInner (desired : ℕ) : ℕ → ℕ × ℕ → ℕ × ℕ
  | 0, s => s
  | k + 1, s => if s.1 + 1 ≥ desired then (s.1 + 1, s.2 + 1) else valueInner desired k (s.1 + 1, s.2 + 1)

/-- train_value.py 261-372, 454-511: the `while` loop, from `iter_num`. Each round uses one of the `draws`; `none` if an exception
is raised, or if the loop has not ended when they are used up. Also returned: the draws that are left. -/
def valueRounds (bench : Bool) (o : ValueOpt) (V : D → Option L) :
    List (Draws D L) → ℕ → ValueSt D L → Option (ValueSt D L × List (Draws D L))
  | ws, iter, s =>
    if iter < o.iterDesired then
      match ws with
      | [] => none
      | w :: ws =>
        match (if bench then s.buf.iter o.useLimits o.numExtra o.maxBuffer V w
          else s.buf.iterNB o.numExtra o.maxBuffer V w) with
        | none => none
        | some b =>
          if o.stepsBetween > 0 ∧ b.stepOk bench = false then none
          else
            let r := valueInner o.iterDesired o.stepsBetween (iter, s.total)
            valueRounds bench o V ws r.1 ⟨b, r.2⟩
    else some (s, ws)

/-- train_value.py 216-220: what the initial training steps of `train` assert. -/
def Buffers.initOk (bench : Bool) (b : Buffers D L) : Bool :=
  !bench || (decide (0 < b.advData.length) && b.stepOk bench)

/-- train_value.py 196-372 `train` (`bench`), 415-511 `train_no_benchmark`. -/
def valueTrain (bench : Bool) (o : ValueOpt) (V : D → Option L) (initDraws : List D) (ws : List (Draws D L)) (s : ValueSt D L) :
    Option (ValueSt D L × List (Draws D L)) :=
  (if bench then s.buf.init o.initBuffer V initDraws else s.buf.initNB o.initBuffer V initDraws).bind fun b =>
    if s.total = 0 ∧ o.initSteps > 0 ∧ b.initOk bench = false then none
    else valueRounds bench o V ws 0 ⟨b, s.total⟩

end NNL.Model
