import Verif.Basic.Vec

/-!
# Building, saving and loading the learners of the dynamics (dynamics_learning.py)

A network is its parameters, of an arbitrary type `P`. `cast d n` is `n.type(d)`. A file is the list of the objects
pickled into it, one after another; pickling and reading an object gives the same object. Data loaders, the writer of
TensorBoard, devices and the weight of the KL loss are not modelled.
-/

namespace NNL.Model

/-- What is read here of the candidate and of its system: whether their classes are the ones asked for in
dynamics_learning.py 45-50, the networks and the equilibrium. -/
structure HybLyap (X P : Type) where
  isHybrid : Bool
  autonomous : Bool
  relu : P
  dynRelu : P
  xEq : X
  deriving DecidableEq

/-- dynamics_learning.py 14-32: the options read by the constructors. -/
structure LearnOpt (D : Type) where
  dtype : D
  width : ℕ
  height : ℕ
  deriving DecidableEq

/-- The networks a learner can train. -/
inductive LearnNet
  | relu
  | dynRelu
  | encoder
  | decoder
  deriving DecidableEq

/-- dynamics_learning.py 52-65: the fields of `DynamicsLearning`; `optimizer` lists the networks whose parameters were
given to Adam. -/
structure DynLearner (X P D : Type) where
  lyap : HybLyap X P
  opt : LearnOpt D
  optimizer : Option (List LearnNet)
  nIter : ℕ
  posAdv : X
  derLoAdv : X
  derUpAdv : X
  deriving DecidableEq

/-- dynamics_learning.py 624-645: the fields of `LatentSpaceDynamicsLearning`; an image has its shape. -/
structure LatentLearner (X P D I : Type) extends DynLearner X P D where
  encoder : P
  decoder : P
  decodedEq : Option (List ℕ × I)
  deriving DecidableEq

/-- What is pickled. -/
inductive Pickled (X P I : Type)
  | lyap (l : HybLyap X P)
  | net (n : P)
  | image (q : Option (List ℕ × I))

variable {X P D I F : Type}

/-- dynamics_learning.py 36-65 `DynamicsLearning.__init__`, 515-520 `StateSpaceDynamicsLearning.__init__`. -/
def DynLearner.new (lyap : HybLyap X P) (opt : LearnOpt D) : Option (DynLearner X P D) :=
  if lyap.isHybrid && lyap.autonomous then
    some ⟨lyap, opt, none, 0, lyap.xEq, lyap.xEq, lyap.xEq⟩
  else none

/-- dynamics_learning.py 637-642: the shape of `decoded_equilibrium`. -/
def imageShapeOk (opt : LearnOpt D) (s : List ℕ) : Bool :=
  decide (s.length = 3) && decide (s.tail = [opt.width, opt.height]) && (s.head? == some 2 || s.head? == some 6)

/-- dynamics_learning.py 624-645 `LatentSpaceDynamicsLearning.__init__`. -/
def LatentLearner.new (cast : D → P → P) (lyap : HybLyap X P) (opt : LearnOpt D) (enc dec : P)
    (q : Option (List ℕ × I)) : Option (LatentLearner X P D I) :=
  match DynLearner.new lyap opt with
  | none => none
  | some b =>
    match q with
    | none => some { b with encoder := cast opt.dtype enc, decoder := cast opt.dtype dec, decodedEq := none }
    | some im =>
      if imageShapeOk opt im.1 then
        some { b with encoder := cast opt.dtype enc, decoder := cast opt.dtype dec, decodedEq := some im }
      else none

/-- dynamics_learning.py 84-90 `get_lyapunov_parameters`. -/
def lyapParams : List LearnNet := [.relu]

/-- dynamics_learning.py 522-530 `StateSpaceDynamicsLearning.get_trainable_parameters`. -/
def stateParams : List LearnNet := [.relu, .dynRelu]

/-- dynamics_learning.py 647-657 `LatentSpaceDynamicsLearning.get_trainable_parameters`. -/
def latentParams : List LearnNet := [.relu, .dynRelu, .encoder, .decoder]

/-- dynamics_learning.py 67-82 `reset_optimizer`; `params` is `get_trainable_parameters()`. -/
def DynLearner.reset (params : List LearnNet) (b : DynLearner X P D) (lyapOnly : Bool) : DynLearner X P D :=
  { b with optimizer := some (if lyapOnly then lyapParams else params), nIter := 0 }

/-- dynamics_learning.py 414-415: at the start of `train`. -/
def DynLearner.startTrain (params : List LearnNet) (b : DynLearner X P D) : DynLearner X P D :=
  match b.optimizer with
  | none => b.reset params false
  | some _ => b

/-- A step of the optimizer (dynamics_learning.py 433, 464) of a latent learner: `upd` is the new value of a network,
and only the networks given to the optimizer change. Without an optimizer the call raises. -/
def LatentLearner.step (upd : LearnNet → P → P) (s : LatentLearner X P D I) : Option (LatentLearner X P D I) :=
  match s.optimizer with
  | none => none
  | some o =>
    let ch (n : LearnNet) (p : P) : P := if n ∈ o then upd n p else p
    some { s with
      lyap := { s.lyap with relu := ch .relu s.lyap.relu, dynRelu := ch .dynRelu s.lyap.dynRelu }
      encoder := ch .encoder s.encoder
      decoder := ch .decoder s.decoder }

/-- Steps of the optimizer, one for each update. -/
def LatentLearner.steps (s : LatentLearner X P D I) : List (LearnNet → P → P) → Option (LatentLearner X P D I)
  | [] => some s
  | u :: us => (s.step u).bind fun t => t.steps us

/-- The files `dyn_learner.pkl`, by the directory. -/
abbrev PickleStore (F X P I : Type) : Type := F → Option (List (Pickled X P I))

/-- A call of `save` of one of the two classes. -/
inductive SaveCall (F X P D I : Type)
  | state (path : F) (b : DynLearner X P D)
  | latent (path : F) (s : LatentLearner X P D I)

/-- The directory of a call. -/
def SaveCall.path : SaveCall F X P D I → F
  | .state p _ => p
  | .latent p _ => p

/-- dynamics_learning.py 538-546, 669-681: the objects written. -/
def SaveCall.content : SaveCall F X P D I → List (Pickled X P I)
  | .state _ b => [.lyap b.lyap]
  | .latent _ s => [.lyap s.lyap, .net s.encoder, .net s.decoder, .image s.decodedEq]

/-- dynamics_learning.py 538-546, 669-681 `save`: the mode `'wb'` replaces the file. -/
def SaveCall.run [DecidableEq F] (st : PickleStore F X P I) (c : SaveCall F X P D I) : PickleStore F X P I :=
  Function.update st c.path (some c.content)

/-- dynamics_learning.py 549-560 `StateSpaceDynamicsLearning.load`. Reading from an absent or an empty file raises, and
the constructor refuses what is not a candidate. -/
def loadState (st : PickleStore F X P I) (path : F) (opt : LearnOpt D) : Option (DynLearner X P D) :=
  match st path with
  | some (.lyap l :: _) => DynLearner.new l opt
  | _ => none

/-- dynamics_learning.py 684-704 `LatentSpaceDynamicsLearning.load`. Reading past the end raises. -/
def loadLatent (cast : D → P → P) (st : PickleStore F X P I) (path : F) (opt : LearnOpt D) :
    Option (LatentLearner X P D I) :=
  match st path with
  | some (.lyap l :: .net e :: .net d :: .image q :: _) => LatentLearner.new cast l opt e d q
  | _ => none

end NNL.Model
