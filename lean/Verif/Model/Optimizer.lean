import Verif.Model.TrainUtil
import Mathlib.Analysis.Real.Sqrt

/-!
# The optimizers with line search (line_search_gd.py, line_search_adam.py)

A tensor is flattened to a vector. `param_groups` is flattened to the list of its parameters, each with the options of its group, and the
options of the last group, since both `line_search` and the last lines of `step` read the variables left over from the loop over the groups.
Between two steps the caller sets the gradients (`zero_grad` and `backward`); the closure is a function of the parameters that have a gradient.
Sparse gradients are not modelled.
-/

set_option linter.unusedSectionVars false

namespace NNL.Model

open NNL

variable {K O S : Type*} [Field K] [LinearOrder K]

/-- A parameter: `p.data`, `p.grad` and `self.state[p]` (line_search_gd.py 146-163, line_search_adam.py 126-155). -/
structure OptParam (K S : Type*) where
  data : Vec K
  grad : Option (Vec K)
  st : Option S

/-- What `step` computes for one parameter: the new state, the gradient as left in `p.grad`, the step size and the direction. -/
structure OptUpd (K S : Type*) where
  st : Option S
  grad : Vec K
  t : K
  d : Vec K

/-- A parameter as passed to `line_search`: `p.data`, `p.grad`, `t` and `d_p`. -/
structure Active (K : Type*) where
  data : Vec K
  grad : Vec K
  t : K
  d : Vec K

/-- The body of the loop over the parameters, for one with a gradient: from state, data and gradient. -/
abbrev OptRule (K S : Type*) := Option S → Vec K → Vec K → OptUpd K S

/-- line_search_gd.py 146-151, line_search_adam.py 126-129: a parameter without gradient is skipped, with one the state and `p.grad` change. -/
def OptParam.after (r : OptRule K S) (p : OptParam K S) : OptParam K S :=
  match p.grad with
  | none => p
  | some g => { p with grad := some (r p.st p.data g).grad, st := (r p.st p.data g).st }

/-- line_search_gd.py 164-165, line_search_adam.py 181-183: what is appended to `p_all`, `step_size_all` and `dp_all`. -/
def OptParam.active (r : OptRule K S) (p : OptParam K S) : Option (Active K) :=
  match p.grad with
  | none => none
  | some g => some ⟨p.data, (r p.st p.data g).grad, (r p.st p.data g).t, (r p.st p.data g).d⟩

/-- The optimizer: the parameters with the options of their group, and the options of the last group. -/
structure Optim (O K S : Type*) where
  params : List (O × OptParam K S)
  last : O

/-- The line search changes `p.data` in place, of the parameters with a gradient in their order. -/
def writeBack : List (O × OptParam K S) → Params K → List (O × OptParam K S)
  | [], _ => []
  | q :: ps, xs =>
    match q.2.grad with
    | none => q :: writeBack ps xs
    | some _ =>
      match xs with
      | [] => q :: ps
      | x :: xs => (q.1, { q.2 with data := x }) :: writeBack ps xs

/-- line_search_gd.py 129-166 `step`, line_search_adam.py 186-190 `step` with 114-184 `step_direction`: the result of the line search
and the optimizer after it; `none` if it raises. -/
def Optim.step (rule : O → OptRule K S) (ls : O → K → (Params K → K) → List (Active K) → LSResult K) (s : Optim O K S)
    (f : Params K → K) (loss0 : K) : Option (K × Optim O K S) :=
  match ls s.last loss0 f (s.params.filterMap fun q => q.2.active (rule q.1)) with
  | .returned loss p' _ => some (loss, { s with params := writeBack (s.params.map fun q => (q.1, q.2.after (rule q.1))) p' })
  | _ => none

/-- What the caller does before a step: the gradients of all parameters (`none` for `p.grad = None`), the closure and `loss0`. -/
structure OptEvent (K : Type*) where
  grads : List (Option (Vec K))
  f : Params K → K
  loss0 : K

/-- Setting `p.grad`; torch only accepts gradients of the shape of the parameter. -/
def Optim.setGrads (s : Optim O K S) (g : List (Option (Vec K))) : Option (Optim O K S) :=
  if g.length = s.params.length ∧ ∀ q ∈ s.params.zip g, ∀ v ∈ q.2, v.length = q.1.2.data.length then
    some { s with params := List.zipWith (fun q g => (q.1, { q.2 with grad := g })) s.params g }
  else none

/-- A history of steps: the states in which `step` was called, and the state after the last one. -/
def Optim.run (rule : O → OptRule K S) (ls : O → K → (Params K → K) → List (Active K) → LSResult K) :
    Optim O K S → List (OptEvent K) → Option (List (Optim O K S) × Optim O K S)
  | s, [] => some ([], s)
  | s, e :: es =>
    match s.setGrads e.grads with
    | none => none
    | some s1 =>
      match s1.step rule ls e.f e.loss0 with
      | none => none
      | some (_, s2) => (s2.run rule ls es).map fun r => (s1 :: r.1, r.2)

/-! ### LineSearchGD -/

/-- The options of a group (line_search_gd.py 60-86). -/
structure GDOptions (K : Type*) where
  lr : K
  momentum : K
  dampening : K
  weightDecay : K
  nesterov : Bool
  minStep : K
  c : K
  red : K
  minImp : K

/-- line_search_gd.py 71-76, 87-89: the options that are accepted. -/
def GDOptions.Ok (o : GDOptions K) : Prop :=
  ¬ o.lr < 0 ∧ ¬ o.momentum < 0 ∧ ¬ o.weightDecay < 0 ∧ ¬ (o.nesterov = true ∧ (o.momentum ≤ 0 ∨ o.dampening ≠ 0))

/-- line_search_gd.py 149-151, line_search_adam.py 162-163: weight decay, added to `p.grad` in place. -/
def decayGrad (wd : K) (p g : Vec K) : Vec K := if wd ≠ 0 then vadd g (vsmul wd p) else g

/-- line_search_gd.py 153-159: the momentum buffer, from the old one (if any) and the gradient. -/
def gdBuf (o : GDOptions K) (st : Option (Vec K)) (g : Vec K) : Vec K :=
  match st with
  | none => g
  | some b => vadd (vsmul o.momentum b) (vsmul (1 - o.dampening) g)

/-- line_search_gd.py 149-165: the body of the loop; without momentum there is no buffer. The step size is filled in by `lsGD`. -/
def gdRule (o : GDOptions K) : OptRule K (Vec K) := fun st p g =>
  let g' := decayGrad o.weightDecay p g
  if o.momentum ≠ 0 then
    let buf := gdBuf o st g'
    let d := if o.nesterov then vadd g' (vsmul o.momentum buf) else buf
    ⟨some buf, g', o.lr, vneg d⟩
  else ⟨st, g', o.lr, vneg g'⟩

/-- line_search_gd.py 166, 106-127: `line_search` with the `lr` of the last group for all parameters; `torch.stack` of no tensors raises. -/
def lsGD (fuel : ℕ) (o : GDOptions K) (loss0 : K) (f : Params K → K) (a : List (Active K)) : LSResult K :=
  if a.isEmpty then .unbound
  else lineSearchGD fuel loss0 f o.c o.red o.minStep o.minImp (a.map Active.grad) (a.map Active.data) o.lr (a.map Active.d)

/-! ### LineSearchAdam -/

/-- The options of a group (line_search_adam.py 37-66). -/
structure AdamOptions (K : Type*) where
  lr : K
  beta1 : K
  beta2 : K
  eps : K
  weightDecay : K
  amsgrad : Bool
  c : Option K
  minStep : K
  red : K
  minImp : K

/-- line_search_adam.py 48-57: the options that are accepted. -/
def AdamOptions.Ok (o : AdamOptions K) : Prop :=
  0 ≤ o.lr ∧ 0 ≤ o.eps ∧ (0 ≤ o.beta1 ∧ o.beta1 < 1) ∧ (0 ≤ o.beta2 ∧ o.beta2 < 1)

/-- The state of a parameter (line_search_adam.py 139-155); without `amsgrad` the last entry is not used. -/
structure AdamState (K : Type*) where
  step : ℕ
  m : Vec K
  v : Vec K
  vmax : Vec K

/-- line_search_adam.py 139-155: the state before the step, zeros at the first one. -/
def adamInit (st : Option (AdamState K)) (n : ℕ) : AdamState K := st.getD ⟨0, zeros n, zeros n, zeros n⟩

/-- line_search_adam.py 158, 165-171: the updated state, from the gradient with weight decay. -/
def adamNext (o : AdamOptions K) (s : AdamState K) (g : Vec K) : AdamState K :=
  let v := vadd (vsmul o.beta2 s.v) (vsmul (1 - o.beta2) (List.zipWith (· * ·) g g))
  ⟨s.step + 1, vadd (vsmul o.beta1 s.m) (vsmul (1 - o.beta1) g), v, if o.amsgrad then List.zipWith max s.vmax v else s.vmax⟩

/-- line_search_adam.py 129-183: the body of the loop. -/
noncomputable def adamRule (o : AdamOptions ℝ) : OptRule ℝ (AdamState ℝ) := fun st p g =>
  let g' := decayGrad o.weightDecay p g
  let s := adamNext o (adamInit st p.length) g'
  let bc1 := 1 - o.beta1 ^ s.step
  let bc2 := 1 - o.beta2 ^ s.step
  let denom := (if o.amsgrad then s.vmax else s.v).map fun x => √x / √bc2 + o.eps
  ⟨some s, g', o.lr / bc1, vneg (List.zipWith (· / ·) s.m denom)⟩

/-- line_search_adam.py 83-112: `line_search` with the options of the last group but the step sizes of each parameter; `torch.stack` of
no tensors raises. -/
def lsAdam (fuel : ℕ) (o : AdamOptions K) (loss0 : K) (f : Params K → K) (a : List (Active K)) : LSResult K :=
  if a.isEmpty ∧ o.c.isSome then .unbound
  else lineSearchAdam fuel loss0 f o.c o.red o.minStep o.minImp (a.map Active.grad) (a.map Active.data) (a.map Active.t) (a.map Active.d)

end NNL.Model
