import Verif.Basic.Vec

/-!
# Training utilities

train_utils.py 17-83, train_lyapunov_barrier.py 1453-1490, line_search_gd.py 97-127,
line_search_adam.py 74-112, train_value.py 134-194, 202-213, 261-319.
-/

set_option linter.unusedSectionVars false

namespace NNL.Model

open NNL

variable {K : Type*} [Field K] [LinearOrder K]

/-! ### project_gradient -/

/-- train_utils.py 9-14 `ProjectGradientMode`. -/
inductive PGMode
  | loss1 | loss2 | both | emphasizeLoss1 | emphasizeLoss2
  deriving DecidableEq

/-- train_utils.py 65, 72: `a - (a @ b / (b @ b)) * b`. If `b` is zero the code computes 0/0, all entries
become NaN, which is `none` here. -/
def perp (a b : Vec K) : Option (Vec K) :=
  if dot b b = 0 then none else some (vsub a (vsmul (dot a b / dot b b) b))

/-- Sum of two tensors that may be NaN. -/
def addO (a b : Option (Vec K)) : Option (Vec K) :=
  match a, b with
  | some a, some b => some (vadd a b)
  | _, _ => none

/-- train_utils.py 55-75: the flag `need_projection` and the gradient. -/
def projectGradient (mode : PGMode) (n1 n2 : Vec K) : Bool × Option (Vec K) :=
  if dot n1 n2 > 0 then (false, some (vadd n1 n2))
  else
    let g0 : Option (Vec K) := some (zeros n1.length)
    let g1 := if mode = .loss1 ∨ mode = .both ∨ mode = .emphasizeLoss2 then addO g0 (perp n1 n2)
      else g0
    let g2 := if mode = .emphasizeLoss1 then addO g1 (some n1) else g1
    let g3 := if mode = .loss2 ∨ mode = .both ∨ mode = .emphasizeLoss1 then addO g2 (perp n2 n1)
      else g2
    let g4 := if mode = .emphasizeLoss2 then addO g3 (some n2) else g3
    (true, g4)

/-- train_utils.py 77-82: hand the gradient out to the parameters, of the given sizes. -/
def distribute : List ℕ → ℕ → Vec K → List (Vec K)
  | [], _, _ => []
  | n :: ns, off, g => (g.drop off).take n :: distribute ns (off + n) g

/-! ### _cluster_adversarial_states -/

/-- train_lyapunov_barrier.py 1468-1469: squared distance of two states. -/
def sqDist (a b : Vec K) : K := dot (vsub a b) (vsub a b)

/-- train_lyapunov_barrier.py 1468-1469: squared distances of successive states. -/
def stepDist (s : List (Vec K)) : Vec K := List.zipWith sqDist s.tail s

/-- train_lyapunov_barrier.py 1470-1473: the kept states. -/
def keptStates (s : List (Vec K)) (r : K) : List (Vec K) :=
  match s with
  | [] => []
  | a :: t => a :: ((t.zip (stepDist (a :: t))).filter fun p => decide (p.2 > r ^ 2)).map Prod.fst

/-- train_lyapunov_barrier.py 1474-1476: `new_adversarial_state_index`. -/
def newIndex (s : List (Vec K)) (r : K) : List ℕ :=
  (((List.range (s.length - 1)).zip (stepDist s)).filter fun p => decide (p.2 > r ^ 2)).map
    fun p => p.1 + 1

/-- train_lyapunov_barrier.py 1477-1489: the repetition counts. -/
def repetition (s : List (Vec K)) (r : K) : List ℕ :=
  let idx := newIndex s r
  let d := List.zipWith (fun b a => b - a) idx.tail idx
  if d = [] then [s.length]
  else idx.headD 0 :: (d ++ [s.length - idx.getLastD 0])

/-- train_lyapunov_barrier.py 1453-1490 `_cluster_adversarial_states`. -/
def clusterStates (s : List (Vec K)) (r : K) : List (Vec K) × List ℕ :=
  match s with
  | [] => ([], [])
  | _ :: _ => (keptStates s r, repetition s r)

/-! ### Line search -/

/-- The parameters: one vector per parameter tensor. -/
abbrev Params (K : Type*) := List (Vec K)

/-- line_search_gd.py 97-104, line_search_adam.py 74-81: add `c * t[i] * d[i]` to parameter `i`. -/
def addStep (p : Params K) (c : K) (t : List K) (d : Params K) : Params K :=
  List.zipWith (fun q s => vadd q (vsmul (c * s.1) s.2)) p (t.zip d)

/-- Result of a line search. `unbound`: the loop body is never entered and `return loss` raises;
`outOfFuel`: not finished after the given number of trials. -/
inductive LSResult (K : Type*)
  | returned (loss : K) (p : Params K) (early : Bool)
  | unbound
  | outOfFuel

/-- line_search_gd.py 116-127, line_search_adam.py 98-112: the loop. `accept alpha loss` is the test
for the early return; `last` is the loss of the previous trial, if any. The closure is a function `f` of
the parameters. -/
def lsLoop (f : Params K → K) (accept : K → K → Bool) (minStep red : K) (t : List K) (d : Params K) :
    ℕ → Params K → K → K → Option K → LSResult K
  | 0, _, _, _, _ => .outOfFuel
  | fuel + 1, p, prev, alpha, last =>
    if alpha > minStep then
      let p' := addStep p (alpha - prev) t d
      let loss := f p'
      if accept alpha loss then .returned loss p' true
      else lsLoop f accept minStep red t d fuel p' alpha (alpha * red) (some loss)
    else
      match last with
      | some l => .returned l p false
      | none => .unbound

/-- line_search_gd.py 113-115: `increment / loss_minimal_decrement`. -/
def slopeSum (grads d : Params K) : K := (List.zipWith dot grads d).sum

/-- line_search_gd.py 106-127 `line_search`. One step size `t` for all parameters. -/
def lineSearchGD (fuel : ℕ) (loss0 : K) (f : Params K → K) (c red minStep minImp : K) (grads : Params K)
    (p : Params K) (t : K) (d : Params K) : LSResult K :=
  let increment := c * slopeSum grads d
  lsLoop f (fun _ loss => decide (loss ≤ loss0 + t * increment ∧ loss ≤ loss0 - minImp)) minStep red
    (List.replicate p.length t) d fuel p 0 1 none

/-- line_search_adam.py 90-96: `decrement / loss_minimal_decrement`. -/
def slopeSumT (t : List K) (grads d : Params K) : K :=
  (List.zipWith (fun s g => s * g) t (List.zipWith dot grads d)).sum

/-- line_search_adam.py 83-112 `line_search`. `c = none` is `loss_minimal_decrement = None`. -/
def lineSearchAdam (fuel : ℕ) (loss0 : K) (f : Params K → K) (c : Option K) (red minStep minImp : K)
    (grads : Params K) (p : Params K) (t : List K) (d : Params K) : LSResult K :=
  match c with
  | some c =>
    let decrement := c * slopeSumT t grads d
    lsLoop f (fun alpha loss => decide (loss < loss0 + alpha * decrement ∧ loss < loss0 - minImp))
      minStep red t d fuel p 0 1 none
  | none =>
    lsLoop f (fun _ loss => decide (loss < loss0 - minImp)) minStep red t d fuel p 0 1 none

/-! ### Buffers of AdversarialWithBaseline -/

section Buffers

variable {D L : Type*}

/-- train_value.py 134-149 `get_random_samples`, `get_limit_samples`: draw until `n` states have a
value. `draws` are the states drawn; `none` if they run out first. -/
def getSamples (V : D → Option L) : ℕ → List D → Option (List D × List L)
  | 0, _ => some ([], [])
  | _ + 1, [] => none
  | n + 1, x :: draws =>
    match V x with
    | some v => (getSamples V n draws).map fun r => (x :: r.1, v :: r.2)
    | none => getSamples V (n + 1) draws

/-- The four buffers. -/
structure Buffers (D L : Type*) where
  advData : List D
  advLabel : List L
  randData : List D
  randLabel : List L

/-- train_value.py 281-290, 302-311: drop the `n` oldest entries of each buffer if `n` more would
exceed the limit. -/
def Buffers.trim (b : Buffers D L) (n limit : ℕ) : Buffers D L :=
  if n + b.advData.length > limit then
    ⟨b.advData.drop n, b.advLabel.drop n, b.randData.drop n, b.randLabel.drop n⟩
  else b

/-- train_value.py 291-298, 312-319: append. -/
def Buffers.push (b : Buffers D L) (ad : List D) (al : List L) (rd : List D) (rl : List L) :
    Buffers D L :=
  ⟨b.advData ++ ad, b.advLabel ++ al, b.randData ++ rd, b.randLabel ++ rl⟩

/-- train_value.py 202-213: the initial fill. The samples are those of `get_random_samples`. -/
def Buffers.init (b : Buffers D L) (size : ℕ) (V : D → Option L) (draws : List D) :
    Option (Buffers D L) :=
  if b.advData.length < size then
    (getSamples V (size - b.advData.length) draws).map fun r => b.push r.1 r.2 r.1 r.2
  else some b

/-- What one iteration of the loop draws: the adversarial batch (with its labels) and the states drawn
for `get_random_samples`, `get_limit_samples` and the extra random samples. -/
structure Draws (D L : Type*) where
  advData : List D
  advLabel : List L
  rand : List D
  lim : List D
  extra : List D

/-- train_value.py 262-319: one iteration of the training loop, as far as the buffers are concerned. A
failed assertion and an endless draw are `none`. -/
def Buffers.iter (useLimits : Bool) (numExtra limit : ℕ) (V : D → Option L) (b : Buffers D L)
    (w : Draws D L) : Option (Buffers D L) :=
  if b.advData.length = b.randData.length ∧ b.advLabel.length = b.randLabel.length then
    let n := w.advData.length
    (if useLimits = true ∧ n > 1 then
      (getSamples V 1 w.rand).bind fun r => (getSamples V (n - 1) w.lim).map fun l =>
        (r.1 ++ l.1, r.2 ++ l.2)
    else getSamples V n w.rand).bind fun r =>
    let b1 := (b.trim n limit).push w.advData w.advLabel r.1 r.2
    (getSamples V numExtra w.extra).map fun e => (b1.trim numExtra limit).push e.1 e.2 e.1 e.2
  else none

/-- train_value.py 261-: the loop. -/
def Buffers.run (useLimits : Bool) (numExtra limit : ℕ) (V : D → Option L) :
    Buffers D L → List (Draws D L) → Option (Buffers D L)
  | b, [] => some b
  | b, w :: ws => (b.iter useLimits numExtra limit V w).bind fun b' =>
    Buffers.run useLimits numExtra limit V b' ws

end Buffers

end NNL.Model
