import Verif.Model.Td3Nets
import Verif.Props.Td3
import Mathlib.Tactic.Ring
import Mathlib.Tactic.NormNum

/-!
# C139: the networks of the TD3 agent
-/

set_option linter.unusedSectionVars false

namespace NNL.Props

open NNL NNL.Model NNL.Spec

variable {K : Type} [Field K] [LinearOrder K] [IsStrictOrderedRing K]

/-- `nn.Linear(a, b)`: a layer with `a` inputs, `b` outputs and a bias, with any numbers in it. -/
def IsLinear (l : Lin K) (a b : ℕ) : Prop :=
  l.inF = a ∧ l.W.length = b ∧ HasCols l.W a ∧ ∃ v, l.bias = some v ∧ v.length = b

theorem IsLinear.ok {l : Lin K} {a b : ℕ} (h : IsLinear l a b) : l.Ok := by
  obtain ⟨h1, h2, h3, v, h4, h5⟩ := h
  refine ⟨by rw [h1]; exact h3, ?_⟩
  simp [Lin.b, h4, h5, h2]

theorem agentEval_append : ∀ (ls ms : List (AgentLayer K)) (x : Vec K),
    agentEval (ls ++ ms) x = (agentEval ls x).bind (agentEval ms)
  | [], _, _ => rfl
  | l :: ls, ms, x => by
    show (l.eval x).bind (agentEval (ls ++ ms)) = ((l.eval x).bind (agentEval ls)).bind (agentEval ms)
    cases l.eval x with
    | none => rfl
    | some y => exact agentEval_append ls ms y

/-- The values behind the layers. -/
def mlpTrace (sizes : List ℕ) (init : ℕ → ℕ → ℕ → Lin K) (act out : K → K) (x : Vec K) : ℕ → Vec K
  | 0 => x
  | j + 1 => ((init j (sizes.getD j 0) (sizes.getD (j + 1) 0)).eval (mlpTrace sizes init act out x j)).map
      (if j < sizes.length - 2 then act else out)

theorem mlp_prefix (sizes : List ℕ) (init : ℕ → ℕ → ℕ → Lin K) (act out : K → K)
    (hinit : ∀ j a b, IsLinear (init j a b) a b) (x : Vec K) (hx : x.length = sizes.getD 0 0) (k : ℕ) :
    agentEval ((List.range k).flatMap (mlpStep sizes init act out)) x = some (mlpTrace sizes init act out x k) ∧
      (mlpTrace sizes init act out x k).length = sizes.getD k 0 := by
  induction k with
  | zero => exact ⟨rfl, hx⟩
  | succ k ih =>
    obtain ⟨h1, h2⟩ := ih
    have hi := hinit k (sizes.getD k 0) (sizes.getD (k + 1) 0)
    constructor
    · rw [List.range_succ, List.flatMap_append, agentEval_append, h1]
      simp only [List.flatMap_cons, List.flatMap_nil, List.append_nil, Option.bind_some, mlpStep, agentEval,
        AgentLayer.eval]
      rw [if_pos (h2.trans hi.1.symm)]
      rfl
    · rw [mlpTrace, List.length_map, Lin.length_eval hi.ok, hi.2.1]

/-- **C139** (`mlp`). With the sizes `s₀, ..., sₙ`, `n ≥ 1`, and an input with `s₀` entries, the network answers; the
values behind the layers are `W v + b` followed by the activation, which is the output activation behind the last
linear layer and the other one before; each has the number of entries asked for. -/
theorem C139_mlp (sizes : List ℕ) (hs : 2 ≤ sizes.length) (init : ℕ → ℕ → ℕ → Lin K) (act out : K → K)
    (hinit : ∀ j a b, IsLinear (init j a b) a b) (x : Vec K) (hx : sizes[0]? = some x.length) :
    ∃ v : ℕ → Vec K, v 0 = x ∧ agentEval (mlp sizes init act out) x = some (v (sizes.length - 1)) ∧
      (∀ j, j < sizes.length → sizes[j]? = some (v j).length) ∧
      (∀ j a b, j + 2 < sizes.length → sizes[j]? = some a → sizes[j + 1]? = some b →
        v (j + 1) = ((init j a b).eval (v j)).map act) ∧
      ∀ j a b, j + 2 = sizes.length → sizes[j]? = some a → sizes[j + 1]? = some b →
        v (j + 1) = ((init j a b).eval (v j)).map out := by
  have hg : ∀ {j a : ℕ}, sizes[j]? = some a → sizes.getD j 0 = a := by
    intro j a h; simp [List.getD_eq_getElem?_getD, h]
  have hx' := (hg hx).symm
  refine ⟨mlpTrace sizes init act out x, rfl, (mlp_prefix sizes init act out hinit x hx' _).1, ?_, ?_, ?_⟩
  · intro j hj
    rw [(mlp_prefix sizes init act out hinit x hx' j).2, List.getD_eq_getElem?_getD, List.getElem?_eq_getElem hj]
    rfl
  · intro j a b hj ha hb
    rw [mlpTrace, hg ha, hg hb, if_pos (by omega)]
  · intro j a b hj ha hb
    rw [mlpTrace, hg ha, hg hb, if_neg (by omega)]

/-- **C139** (`mlp`). An input with another number of entries raises. -/
theorem C139_mlp_raises (s : ℕ) (t : ℕ) (rest : List ℕ) (init : ℕ → ℕ → ℕ → Lin K) (act out : K → K)
    (hinit : ∀ j a b, IsLinear (init j a b) a b) (x : Vec K) (hx : x.length ≠ s) :
    agentEval (mlp (s :: t :: rest) init act out) x = none := by
  unfold mlp
  have : (s :: t :: rest).length - 1 = rest.length + 1 := by simp
  rw [this, List.range_succ_eq_map, List.flatMap_cons, agentEval_append]
  have hi := (hinit 0 s t).1
  simp only [mlpStep, agentEval, AgentLayer.eval, List.getD_cons_zero, List.getD_cons_succ, Nat.reduceAdd]
  rw [if_neg (by rw [hi]; exact hx)]
  rfl

/-- **C139** (`count_vars`). The number of parameters of the network. -/
theorem C139_count (sizes : List ℕ) (init : ℕ → ℕ → ℕ → Lin K) (act out : K → K)
    (hinit : ∀ j a b, IsLinear (init j a b) a b) :
    countVars (mlp sizes init act out) =
      ((List.range (sizes.length - 1)).map fun j => (sizes.getD j 0 + 1) * sizes.getD (j + 1) 0).sum := by
  unfold mlp
  induction List.range (sizes.length - 1) with
  | nil => rfl
  | cons j js ih =>
    obtain ⟨h1, h2, -, v, h4, h5⟩ := hinit j (sizes.getD j 0) (sizes.getD (j + 1) 0)
    rw [List.flatMap_cons, List.map_cons, List.sum_cons, ← ih]
    simp only [countVars, mlpStep, List.cons_append, List.nil_append, List.map_cons, List.sum_cons, h1, h2, h4, h5,
      zero_add]
    ring

/-- What one layer does to the last values: entries of the output lie where the output activation puts them. -/
theorem mlp_range (s : ℕ) (hidden : List ℕ) (t : ℕ) (init : ℕ → ℕ → ℕ → Lin K) (act out : K → K)
    (hinit : ∀ j a b, IsLinear (init j a b) a b) (x : Vec K) (hx : x.length = s) :
    ∃ y, agentEval (mlp (s :: hidden ++ [t]) init act out) x = some y ∧ y.length = t ∧ ∀ e ∈ y, ∃ z, e = out z := by
  have hl : (s :: hidden ++ [t]).length = hidden.length + 2 := by simp
  obtain ⟨v, -, h2, h3, -, h5⟩ := C139_mlp (s :: hidden ++ [t]) (by omega) init act out hinit x (by simp [hx])
  rw [hl] at h2
  have hlast : (s :: hidden ++ [t])[hidden.length + 1]? = some t := by simp
  refine ⟨_, h2, ?_, ?_⟩
  · have := h3 (hidden.length + 1) (by omega)
    rw [hlast] at this
    exact (Option.some.inj this).symm
  · obtain ⟨a, ha⟩ : ∃ a, (s :: hidden ++ [t])[hidden.length]? = some a :=
      ⟨_, List.getElem?_eq_getElem (by omega)⟩
    have := h5 hidden.length a t hl.symm ha hlast
    intro e he
    have hk : hidden.length + 2 - 1 = hidden.length + 1 := by omega
    rw [hk, this] at he
    obtain ⟨z, -, rfl⟩ := List.mem_map.1 he
    exact ⟨z, rfl⟩

/-- **C139** (policy). For every observation of the right size the policy answers with as many entries as the
equilibrium action, each off it by less than the width of its limits; at the equilibrium it answers the equilibrium
action. -/
theorem C139_actor (low high obsEq actEq : Vec K) (hidden : List ℕ) (init : ℕ → ℕ → ℕ → Lin K) (act sigmoid : K → K)
    (hinit : ∀ j a b, IsLinear (init j a b) a b) (hsig : ∀ z, 0 < sigmoid z ∧ sigmoid z < 1)
    (hlim : ∀ i, i < actEq.length → low.getD i 0 < high.getD i 0) (obs : Vec K) (hobs : obs.length = obsEq.length) :
    (∃ u, (Actor.new low high obsEq actEq hidden init act sigmoid).forward obs = some u ∧ u.length = actEq.length ∧
      ∀ i, i < actEq.length → |u.getD i 0 - actEq.getD i 0| < high.getD i 0 - low.getD i 0) ∧
    (Actor.new low high obsEq actEq hidden init act sigmoid).forward obsEq = some actEq := by
  obtain ⟨pe, hpe, hple, hpr⟩ := mlp_range obsEq.length hidden actEq.length init act sigmoid hinit obsEq rfl
  obtain ⟨p, hp, hpl, hpp⟩ := mlp_range obsEq.length hidden actEq.length init act sigmoid hinit obs hobs
  have mem : ∀ {v : Vec K}, v.length = actEq.length → (∀ e ∈ v, ∃ z, e = sigmoid z) → ∀ i, i < actEq.length →
      0 < v.getD i 0 ∧ v.getD i 0 < 1 := by
    intro v hv hr i hi
    rw [getD_of_lt v i (by omega)]
    obtain ⟨z, hz⟩ := hr _ (List.getElem_mem (by omega : i < v.length))
    rw [hz]
    exact hsig z
  constructor
  · refine ⟨_, by simp only [Actor.forward, Actor.new, hpe, hp]; rfl, by simp, ?_⟩
    intro i hi
    have hq := mem hpl hpp i hi
    have hq' := mem hple hpr i hi
    have := (C115_actor (hlim i hi) (actEq.getD i 0) hq.1 hq.2 hq'.1 hq'.2).2
    rw [getD_of_lt _ i (by simpa using hi)]
    simpa using this
  · simp only [Actor.forward, Actor.new, hpe]
    refine congrArg some ?_
    apply List.ext_getElem
    · simp
    · intro i h1 h2
      have hq' := mem hple hpr i h2
      have := (C115_actor (hlim i h2) (actEq.getD i 0) hq'.1 hq'.2 hq'.1 hq'.2).1
      rw [List.getElem_map, List.getElem_range, this, getD_of_lt actEq i h2]

/-- **C139** (policy). The action, entry by entry: the difference of the network's outputs at the observation and at
the equilibrium, scaled with the width of the limits, is added to the equilibrium action. -/
theorem C139_actor_value (low high obsEq actEq : Vec K) (hidden : List ℕ) (init : ℕ → ℕ → ℕ → Lin K)
    (act sigmoid : K → K) (obs u : Vec K)
    (h : (Actor.new low high obsEq actEq hidden init act sigmoid).forward obs = some u) :
    ∃ p pEq, agentEval (mlp (obsEq.length :: hidden ++ [actEq.length]) init act sigmoid) obs = some p ∧
      agentEval (mlp (obsEq.length :: hidden ++ [actEq.length]) init act sigmoid) obsEq = some pEq ∧
      ∀ i, i < actEq.length →
        u.getD i 0 = actEq.getD i 0 + (p.getD i 0 - pEq.getD i 0) * (high.getD i 0 - low.getD i 0) := by
  simp only [Actor.forward, Actor.new, Option.bind_eq_bind, Option.bind_eq_some_iff] at h
  obtain ⟨pe, hpe, p, hp, hu⟩ := h
  refine ⟨p, pe, hp, hpe, ?_⟩
  intro i hi
  rw [← Option.some.inj hu, getD_of_lt _ i (by simpa using hi), List.getElem_map, List.getElem_range]
  unfold actorOut
  ring

/-- **C139** (policy). An observation with another number of entries raises. -/
theorem C139_actor_raises (low high obsEq actEq : Vec K) (hidden : List ℕ) (init : ℕ → ℕ → ℕ → Lin K)
    (act sigmoid : K → K) (hinit : ∀ j a b, IsLinear (init j a b) a b) (obs : Vec K)
    (hobs : obs.length ≠ obsEq.length) :
    (Actor.new low high obsEq actEq hidden init act sigmoid).forward obs = none := by
  have h : agentEval (mlp (obsEq.length :: hidden ++ [actEq.length]) init act sigmoid) obs = none := by
    cases hidden with
    | nil => exact C139_mlp_raises _ _ [] init act sigmoid hinit obs hobs
    | cons t rest => exact C139_mlp_raises _ t (rest ++ [actEq.length]) init act sigmoid hinit obs hobs
  simp only [Actor.forward, Actor.new, h]
  cases agentEval (mlp (obsEq.length :: hidden ++ [actEq.length]) init act sigmoid) obsEq <;> rfl

/-- **C139** (Q functions). The Q function answers with a number exactly if the observation and the action together
have the right number of entries. -/
theorem C139_q (obsDim actDim : ℕ) (hidden : List ℕ) (init : ℕ → ℕ → ℕ → Lin K) (act : K → K)
    (hinit : ∀ j a b, IsLinear (init j a b) a b) (obs a : Vec K) :
    (qForward (qLayers obsDim actDim hidden init act) obs a).isSome ↔ obs.length + a.length = obsDim + actDim := by
  by_cases h : obs.length + a.length = obsDim + actDim
  · simp only [h, iff_true]
    obtain ⟨y, hy, hl, -⟩ := mlp_range (obsDim + actDim) hidden 1 init act id hinit (obs ++ a) (by simp [h])
    obtain ⟨z, rfl⟩ := List.length_eq_one_iff.1 hl
    simp only [qForward, qLayers, hy]
    rfl
  · simp only [h, iff_false]
    have hn : agentEval (qLayers obsDim actDim hidden init act) (obs ++ a) = none := by
      have hx : (obs ++ a).length ≠ obsDim + actDim := by simpa using h
      cases hidden with
      | nil => exact C139_mlp_raises _ _ [] init act id hinit _ hx
      | cons t rest => exact C139_mlp_raises _ t (rest ++ [1]) init act id hinit _ hx
    simp [qForward, hn]

/-- **C139** (Q functions). Without hidden layers the Q function is affine: no activation is applied to its value. -/
theorem C139_q_value (obsDim actDim : ℕ) (init : ℕ → ℕ → ℕ → Lin K) (act : K → K)
    (hinit : ∀ j a b, IsLinear (init j a b) a b) (hidden : List ℕ) (obs a : Vec K) (y : K)
    (h : qForward (qLayers obsDim actDim hidden init act) obs a = some y) :
    ∃ (v : Vec K) (n : ℕ), v.length = n ∧ (hidden = [] → v = obs ++ a) ∧
      (init hidden.length n 1).eval v = [y] := by
  have hx := (C139_q obsDim actDim hidden init act hinit obs a).1 (by rw [h]; rfl)
  have hl : ((obsDim + actDim) :: hidden ++ [1]).length = hidden.length + 2 := by simp
  obtain ⟨v, h1, h2, h3, -, h5⟩ := C139_mlp ((obsDim + actDim) :: hidden ++ [1]) (by omega) init act id hinit
    (obs ++ a) (by simp [hx])
  rw [hl] at h2
  have ha := h3 hidden.length (by omega)
  have h6 := h5 hidden.length _ 1 hl.symm ha (by simp)
  refine ⟨v hidden.length, _, rfl, ?_, ?_⟩
  · rintro rfl; exact h1
  · simp only [qForward, qLayers, h2, Option.bind_some] at h
    have hk : hidden.length + 2 - 1 = hidden.length + 1 := by omega
    rw [hk, h6, List.map_id] at h
    split at h
    · rename_i z hz
      rw [hz, Option.some.inj h]
    · cases h

/-- Layers filled with ones. -/
def onesInit (_ a b : ℕ) : Lin ℚ := ⟨a, List.replicate b (List.replicate a 1), some (List.replicate b 0)⟩

theorem onesInit_ok (j a b : ℕ) : IsLinear (onesInit j a b) a b := by
  refine ⟨rfl, by simp [onesInit], ?_, _, rfl, by simp⟩
  intro r hr
  rw [(List.mem_replicate.1 hr).2]
  simp

/-- A policy with one input and the limits 0 and 10; the activation at the output is not a sigmoid but easy to compute. -/
example : (Actor.new [0] [10] [1] [5] [] onesInit id fun z => z / 10).forward [(3 : ℚ)] = some [7] := by
  norm_num [Actor.forward, Actor.new, actorOut, mlp, mlpStep, agentEval, AgentLayer.eval, onesInit, Lin.eval, Lin.b,
    List.range_succ, matVec, dot, vadd, List.replicate]

/-- Two inputs, two hidden units, one output: the activation of the hidden layer is not applied to the output. -/
example : qForward (qLayers 1 1 [2] onesInit fun z => -z) [3] [(4 : ℚ)] = some (-14) := by
  norm_num [qForward, qLayers, mlp, mlpStep, agentEval, AgentLayer.eval, onesInit, Lin.eval, Lin.b, List.range_succ,
    matVec, dot, vadd, List.replicate]

end NNL.Props
