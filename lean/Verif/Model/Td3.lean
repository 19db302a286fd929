import Verif.Basic.Vec
import Verif.Model.ReplayBuffer

/-!
# `td3` (examples/rl/td3.py)

The networks enter through their lists of parameters; the gradients of the losses and the steps of the two Adam optimizers are parameters
(`Td3Fns`), as are the environment and everything that is drawn. Testing (322-334) is in `QuadEnv.lean`. Logging and saving are left out.
-/

namespace NNL.Model

variable {K : Type} [Field K] [LinearOrder K]

/-! ## The losses -/

/-- td3.py 249-252: the target policy smoothing, for one entry of the action. `e` is the noise before clamping. -/
def smoothAct (clip lo hi piTarg e : K) : K := max (min (piTarg + min (max e (-clip)) clip) hi) lo

/-- td3.py 257-258: the Bellman backup of one transition. -/
def bellmanBackup (γ r d q1 q2 : K) : K := r + γ * (1 - d) * min q1 q2

/-- td3.py 316-320 `get_action`, one entry: `a` is the output of the policy, `e` the noise. -/
def getAct (scale lo hi a e : K) : K := max (min (a + scale * e) hi) lo

/-- td3.py 46-50 `MLPActor.forward`, one entry: `p`, `pEq` are the outputs of the sigmoid at the observation and at the equilibrium. -/
def actorOut (lo hi actEq p pEq : K) : K := (p * (hi - lo) + lo) - (pEq * (hi - lo) + lo) + actEq

/-! ## One update -/

/-- The gradients of the losses and the steps of the optimizers. `B` is a batch together with its smoothing noise, `SP` and `SQ` are the
states of the optimizers. -/
structure Td3Fns (K B SP SQ : Type) where
  gradQ : List K → List K → List K → B → List K
  gradPi : List K → List K → B → List K
  gradPiQ : List K → List K → B → List K
  stepPi : SP → List K → List K → SP × List K
  stepQ : SQ → List K → List K → SQ × List K

/-- The parameters of the policy and of the two Q functions, of their targets, the accumulated gradients and the states of the
optimizers. -/
structure Td3Nets (K SP SQ : Type) where
  pi : List K
  q : List K
  piTarg : List K
  qTarg : List K
  gPi : List K
  gQ : List K
  optPi : SP
  optQ : SQ

/-- td3.py 311-314: polyak averaging, `mul_` and then `add_`. -/
def polyakAvg (ρ : K) (targ p : List K) : List K := List.zipWith (fun a b => a * ρ + (1 - ρ) * b) targ p

/-- td3.py 283-286: one step of the Q functions: `zero_grad`, `backward`, `step`. -/
def qUpdate {B SP SQ : Type} (F : Td3Fns K B SP SQ) (s : Td3Nets K SP SQ) (data : B) : Td3Nets K SP SQ :=
  let g := vadd (zeros s.q.length) (F.gradQ s.q s.piTarg s.qTarg data)
  let r := F.stepQ s.optQ s.q g
  { s with q := r.2, optQ := r.1, gQ := g }

/-- td3.py 293-314: one step of the policy and of the targets. With `freeze` the gradients of the Q functions are not accumulated. The
program has `freeze = false`: `q_params` is an iterator, which the constructor of the optimizer (279) has used up, so that the
loops 295-296 and 307-308 do nothing. -/
def piUpdate {B SP SQ : Type} (freeze : Bool) (F : Td3Fns K B SP SQ) (ρ : K) (s : Td3Nets K SP SQ) (data : B) : Td3Nets K SP SQ :=
  let g := vadd (zeros s.pi.length) (F.gradPi s.pi s.q data)
  let r := F.stepPi s.optPi s.pi g
  { s with
    pi := r.2, optPi := r.1, gPi := g
    gQ := if freeze then s.gQ else vadd s.gQ (F.gradPiQ s.pi s.q data)
    piTarg := polyakAvg ρ s.piTarg r.2
    qTarg := polyakAvg ρ s.qTarg s.q }

/-- td3.py 281-314 `update`. `timer % 0` raises. -/
def td3Update {B SP SQ : Type} (freeze : Bool) (F : Td3Fns K B SP SQ) (ρ : K) (delay : ℕ) (s : Td3Nets K SP SQ) (data : B) (timer : ℕ) :
    Option (Td3Nets K SP SQ) :=
  if delay = 0 then none
  else
    let s1 := qUpdate F s data
    some (if timer % delay = 0 then piUpdate freeze F ρ s1 data else s1)

/-! ## The main loop -/

/-- The environment. -/
structure GymEnv (E O A K : Type) where
  reset : E → O × E
  step : E → A → (O × K × Bool) × E

structure Td3Cfg (K : Type) where
  ρ : K
  startSteps : ℕ
  updateAfter : ℕ
  updateEvery : ℕ
  policyDelay : ℕ
  maxEpLen : ℕ
  replaySize : ℕ

/-- What is drawn in one step: the action of `action_space.sample`, the noise of `get_action`, the indices of the batches and the smoothing
noise. -/
structure Td3Draw (A N M : Type) where
  action : A
  noise : N
  idxs : ℕ → List ℕ
  smooth : ℕ → M

/-- A record of one call of `update`. -/
structure Td3Upd (O A K : Type) where
  t : ℕ
  batch : Batch O A K
  policy : Bool

/-- The variables of the loop. `log` records the transitions passed to `store`, `rand` the actions drawn at random, `upds` the calls of
`update`. -/
structure Td3St (E O A K SP SQ : Type) where
  nets : Td3Nets K SP SQ
  env : E
  obs : O
  epLen : ℕ
  buf : ReplayBuffer O A K
  log : List (Transition O A K)
  rand : List Bool
  upds : List (Td3Upd O A K)

variable {E O A N M SP SQ : Type}

/-- td3.py 373-375: the first `k` updates of the block of step `t`. -/
def td3Block (F : Td3Fns K (Batch O A K × M) SP SQ) (c : Td3Cfg K) (w : Td3Draw A N M) (t : ℕ) :
    ℕ → Td3St E O A K SP SQ → Option (Td3St E O A K SP SQ)
  | 0, s => some s
  | k + 1, s => (td3Block F c w t k s).bind fun s1 => (s1.buf.sampleBatch (w.idxs k)).bind fun b =>
      (td3Update false F c.ρ c.policyDelay s1.nets (b, w.smooth k) k).map fun n =>
        { s1 with nets := n, upds := s1.upds ++ [⟨t, b, decide (k % c.policyDelay = 0)⟩] }

/-- td3.py 342-375: one pass of the main loop. `act` is `get_action` with `act_noise`, which sees the parameters of the policy. -/
def td3Step (G : GymEnv E O A K) (act : List K → O → N → A) (F : Td3Fns K (Batch O A K × M) SP SQ) (c : Td3Cfg K)
    (w : Td3Draw A N M) (t : ℕ) (s : Td3St E O A K SP SQ) : Option (Td3St E O A K SP SQ) :=
  let a := if t > c.startSteps then act s.nets.pi s.obs w.noise else w.action
  let r := G.step s.env a
  let epLen := s.epLen + 1
  let d := if epLen = c.maxEpLen then false else r.1.2.2
  if c.replaySize = 0 then none
  else
    let tr : Transition O A K := ⟨s.obs, a, r.1.2.1, r.1.1, if d then 1 else 0⟩
    let buf := s.buf.store tr
    let fin := d || decide (epLen = c.maxEpLen)
    let z := G.reset r.2
    let s1 : Td3St E O A K SP SQ :=
      { s with
        buf := buf, log := s.log ++ [tr], rand := s.rand ++ [decide (t ≤ c.startSteps)]
        obs := if fin then z.1 else r.1.1
        env := if fin then z.2 else r.2
        epLen := if fin then 0 else epLen }
    if t ≥ c.updateAfter then
      if c.updateEvery = 0 then none
      else if t % c.updateEvery = 0 then td3Block F c w t c.updateEvery s1 else some s1
    else some s1

/-- td3.py 338: before the loop. -/
def td3Init (G : GymEnv E O A K) (o0 : O) (a0 : A) (c : Td3Cfg K) (n : Td3Nets K SP SQ) (e : E) : Td3St E O A K SP SQ where
  nets := n
  env := (G.reset e).2
  obs := (G.reset e).1
  epLen := 0
  buf := ReplayBuffer.init o0 a0 0 c.replaySize
  log := []
  rand := []
  upds := []

/-- td3.py 341-375: the first `T` passes of the main loop. -/
def td3Loop (G : GymEnv E O A K) (act : List K → O → N → A) (F : Td3Fns K (Batch O A K × M) SP SQ) (c : Td3Cfg K)
    (w : ℕ → Td3Draw A N M) : ℕ → Td3St E O A K SP SQ → Option (Td3St E O A K SP SQ)
  | 0, s => some s
  | T + 1, s => (td3Loop G act F c w T s).bind (td3Step G act F c (w T) T)

end NNL.Model
