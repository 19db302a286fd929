import Verif.Lemmas.Optimizer
import Mathlib.Tactic.FieldSimp

/-! # Properties C106, C107: the steps of LineSearchGD and LineSearchAdam over any history -/

set_option linter.unusedSectionVars false

namespace NNL.Props

open NNL NNL.Model NNL.Spec NNL.Lemmas

variable {K O S : Type*} [Field K] [LinearOrder K] [IsStrictOrderedRing K]

/-- The gradients of coordinate `c` of parameter `i`, with weight decay `wd`, in those of the states `vs` in which the parameter has one. -/
def gradsSeen (wd : K) (i c : ℕ) (vs : List (Optim O K S)) : List K :=
  vs.filterMap fun v => v.params[i]?.bind fun q => q.2.grad.map fun g => g.getD c 0 + wd * q.2.data.getD c 0

/-- An optimizer before the first call: no states, no gradients. -/
def Fresh (s : Optim O K S) : Prop := ∀ q ∈ s.params, q.2.st = none ∧ q.2.grad = none

theorem gradsSeen_eq (wd : K) (i c : ℕ) (vs : List (Optim O K S)) :
    gradsSeen wd i c vs = (vs.filterMap fun v => seen v i).map (decayedAt wd c) := by
  rw [List.map_filterMap]
  refine List.filterMap_congr fun v _ => ?_
  simp only [seen]
  cases v.params[i]? with
  | none => rfl
  | some q => cases h : q.2.grad <;> simp [h, decayedAt]

/-! ## C106 -/

/-- C106: after any history of steps, the last of which found the gradients `e.grads` in the state `v`: a parameter without gradient is
untouched; every coordinate of a parameter with gradient has moved by one common fraction `redᵐ` (above the minimal step) of the learning
rate of the last group against the gradient, the momentum or Nesterov's combination, of all the gradients the parameter has seen;
`p.grad` has the weight decay added. -/
theorem C106_gd {fuel : ℕ} {s s' : Optim (GDOptions K) K (Vec K)} (hs : Fresh s) {es : List (OptEvent K)} {e : OptEvent K}
    {vs : List (Optim (GDOptions K) K (Vec K))} (h : s.run gdRule (lsGD fuel) (es ++ [e]) = some (vs, s')) :
    ∃ v, vs.getLast? = some v ∧ ∃ m : ℕ, (∀ j ≤ m, s.last.minStep < s.last.red ^ j) ∧
    ∀ (i : ℕ) (q : GDOptions K × OptParam K (Vec K)), s.params[i]? = some q →
      ∃ p p' : OptParam K (Vec K), v.params[i]? = some (q.1, p) ∧ s'.params[i]? = some (q.1, p') ∧ e.grads[i]? = some p.grad ∧
        p.data.length = q.2.data.length ∧ p'.data.length = q.2.data.length ∧
        (p.grad = none → p' = p) ∧
        ∀ g, p.grad = some g → ∃ g', p'.grad = some g' ∧ ∀ c < q.2.data.length,
          p'.data.getD c 0 = p.data.getD c 0
            - s.last.red ^ m * s.last.lr * gdDir q.1.momentum q.1.dampening q.1.nesterov (gradsSeen q.1.weightDecay i c vs) ∧
          g'.getD c 0 = g.getD c 0 + q.1.weightDecay * p.data.getD c 0 := by
  have hok : ∀ q ∈ s.params, ParamOk (fun n st => ∀ b ∈ st, b.length = n) q.2 := by
    intro q hq
    obtain ⟨h1, h2⟩ := hs q hq
    exact ⟨by simp [h1], by simp [h2]⟩
  obtain ⟨vs0, v, rfl, m, hm, H⟩ := run_last gdRule_ok (lsGD_ok fuel) hok h
  refine ⟨v, by simp, m, hm, fun i q hq => ?_⟩
  obtain ⟨p, h1, h2, h3, h4, h5, h6, h7⟩ := H i q hq
  have hq0 := (hs q (List.mem_of_getElem? hq)).1
  rw [hq0] at h5
  refine ⟨p, _, h1, h7, h4, h3, (newParam_ok gdRule_ok h2).2.trans h3, ?_, ?_⟩
  · intro hg
    simp [newParam, hg]
  · intro g hg
    have hgl : g.length = q.2.data.length := (h2.2 g (by simp [hg])).trans h3
    have hl : ∀ x ∈ vs0.filterMap fun v => seen v i, x.1.length = q.2.data.length ∧ x.2.length = q.2.data.length := by
      intro x hx
      obtain ⟨w, hw, hx⟩ := List.mem_filterMap.1 hx
      exact h6 w (by simp [hw]) x hx
    have hd := gd_dir (o := q.1) hl h3 hgl
    have hdl := gdRule_ok.d q.1 _ p.st p.data g h2.1 rfl (hgl.trans h3.symm)
    refine ⟨(gdRule q.1 p.st p.data g).grad, by simp only [newParam, hg], fun c hc => ⟨?_, ?_⟩⟩
    · simp only [newParam, hg]
      rw [getD_vadd _ _ _ (by rw [length_vsmul, hdl]), getD_vsmul, h5, hd c, gradsSeen_eq, List.filterMap_append]
      have : (List.filterMap (fun v => seen v i) [v]) = [(p.data, g)] := by simp [seen, h1, hg]
      rw [this]
      ring
    · have : (gdRule q.1 p.st p.data g).grad = decayGrad q.1.weightDecay p.data g := by
        simp only [gdRule]
        split <;> rfl
      rw [this, decay_getD (h3.trans hgl.symm)]
      rfl

theorem dot_vneg_self (a : Vec K) : dot a (vneg a) = - dot a a := by
  induction a with
  | nil => simp [vneg]
  | cons x a ih =>
    have : vneg (x :: a) = -x :: vneg a := rfl
    rw [this, dot_cons, dot_cons, ih]
    ring

theorem slope_eq (L : List (GDOptions K × OptParam K (Vec K))) (hm : ∀ q ∈ L, q.1.momentum = 0) :
    slopeSum ((L.filterMap (fun q => q.2.active (gdRule q.1))).map Active.grad) ((L.filterMap (fun q => q.2.active (gdRule q.1))).map Active.d)
      = - (L.filterMap fun q => q.2.grad.map fun g =>
        dot (decayGrad q.1.weightDecay q.2.data g) (decayGrad q.1.weightDecay q.2.data g)).sum := by
  induction L with
  | nil => simp [slopeSum]
  | cons q L ih =>
    have ih := ih fun q hq => hm q (by simp [hq])
    have h0 := hm q (by simp)
    cases hg : q.2.grad with
    | none =>
      rw [List.filterMap_cons_none (by simp [OptParam.active, hg]), List.filterMap_cons_none (by simp [hg])]
      exact ih
    | some g =>
      rw [List.filterMap_cons_some (b := ⟨q.2.data, decayGrad q.1.weightDecay q.2.data g, q.1.lr, vneg (decayGrad q.1.weightDecay q.2.data g)⟩)
        (by simp [OptParam.active, hg, gdRule, h0]), List.filterMap_cons_some (by simp [hg]; rfl)]
      simp only [slopeSum, List.map_cons, List.zipWith_cons_cons, List.sum_cons] at ih ⊢
      rw [ih, dot_vneg_self]
      ring

/-- C106: without momentum the direction is a descent direction: a step with nonnegative options either decreases the loss by
`redᵐ · lr · c` times the squared norm of the gradient (with weight decay), and by the minimal improvement, or the shortest trial has been
reached. -/
theorem C106_descent {fuel : ℕ} {s s' : Optim (GDOptions K) K (Vec K)} (ho : s.last.Ok) (hc : 0 ≤ s.last.c) (hr0 : 0 ≤ s.last.red)
    (hr1 : s.last.red ≤ 1) (hm : ∀ q ∈ s.params, q.1.momentum = 0) (hl : ∀ q ∈ s.params, ∀ g ∈ q.2.grad, g.length = q.2.data.length)
    {f : Params K → K} {loss0 loss : K} (h : s.step gdRule (lsGD fuel) f loss0 = some (loss, s')) :
    ∃ m : ℕ, (∀ j ≤ m, s.last.minStep < s.last.red ^ j) ∧
      ((loss ≤ loss0 - s.last.red ^ m * s.last.lr * s.last.c *
          (s.params.filterMap fun q => q.2.grad.map fun g =>
            dot (decayGrad q.1.weightDecay q.2.data g) (decayGrad q.1.weightDecay q.2.data g)).sum ∧ loss ≤ loss0 - s.last.minImp) ∨
        s.last.red ^ (m + 1) ≤ s.last.minStep) := by
  rw [Optim.step] at h
  split at h
  · rename_i l p' early he
    cases h
    rw [lsGD] at he
    split at he
    · cases he
    · have hlen : ∀ x ∈ s.params.filterMap (fun q => q.2.active (gdRule q.1)), x.data.length = x.d.length := by
        intro x hx
        obtain ⟨q, hq, hx⟩ := List.mem_filterMap.1 hx
        unfold OptParam.active at hx
        split at hx
        · cases hx
        · rename_i g hg
          cases hx
          have := hl q hq g (by simp [hg])
          simp [gdRule, hm q hq, vneg, decay_length (wd := q.1.weightDecay) this.symm, this]
      obtain ⟨m, h1, h2, h3, h4, h5, h6⟩ := C58_gd (by
        rw [List.forall₂_map_left_iff, List.forall₂_map_right_iff, List.forall₂_same]; exact hlen) he
      have hslope := slope_eq s.params hm
      refine ⟨m, h3, ?_⟩
      cases early with
      | false => exact Or.inr (h6 rfl)
      | true =>
        obtain ⟨ha, hb⟩ := h5.1 rfl
        rw [hslope] at ha
        rw [h2]
        refine Or.inl ⟨ha.trans ?_, hb⟩
        have hG : 0 ≤ (s.params.filterMap fun q => q.2.grad.map fun g =>
            dot (decayGrad q.1.weightDecay q.2.data g) (decayGrad q.1.weightDecay q.2.data g)).sum := by
          refine List.sum_nonneg fun x hx => ?_
          obtain ⟨q, -, hx⟩ := List.mem_filterMap.1 hx
          obtain ⟨g, -, rfl⟩ := Option.map_eq_some_iff.1 hx
          exact dot_self_nonneg _
        generalize (s.params.filterMap fun q => q.2.grad.map fun g =>
            dot (decayGrad q.1.weightDecay q.2.data g) (decayGrad q.1.weightDecay q.2.data g)).sum = G at *
        have hlr : 0 ≤ s.last.lr := not_lt.1 ho.1
        have h7 : s.last.red ^ m * (s.last.lr * (s.last.c * G)) ≤ 1 * (s.last.lr * (s.last.c * G)) :=
          mul_le_mul_of_nonneg_right (pow_le_one₀ hr0 hr1) (mul_nonneg hlr (mul_nonneg hc hG))
        nlinarith
  · cases h

/-- Two steps with momentum 1/2 on one parameter. -/
example : (Optim.run gdRule (lsGD 3) (⟨[(⟨1, 1 / 2, 0, 0, false, 1 / 100, 0, 1 / 2, 0⟩, ⟨[10, 10], none, none⟩)],
    ⟨1, 1 / 2, 0, 0, false, 1 / 100, 0, 1 / 2, 0⟩⟩ : Optim (GDOptions ℚ) ℚ (Vec ℚ))
    [⟨[some [1, 2]], fun _ => 0, 0⟩, ⟨[some [3, 0]], fun _ => 0, 0⟩]).map (fun r => r.2.params.map fun q => q.2.data)
    = some [[10 - 1 - (3 + 1 / 2), 10 - 2 - 1]] := by
  decide +kernel

/-- The momentum of the second step above. -/
example : gdDir (1 / 2 : ℚ) 0 false [1, 3] = 3 + 1 / 2 := by
  norm_num [gdDir, momentum, expSum]

/-- C106: with two parameter groups of learning rates 1 and 10 the parameter of the first group moves by the learning rate of the second. -/
theorem C106_group_lr_counterexample :
    ((⟨[(⟨1, 0, 0, 0, false, 1 / 100, 0, 1 / 2, 0⟩, ⟨[0], some [1], none⟩), (⟨10, 0, 0, 0, false, 1 / 100, 0, 1 / 2, 0⟩, ⟨[0], some [1], none⟩)],
      ⟨10, 0, 0, 0, false, 1 / 100, 0, 1 / 2, 0⟩⟩ : Optim (GDOptions ℚ) ℚ (Vec ℚ)).step gdRule (lsGD 3) (fun _ => 0) 0).map
      (fun r => r.2.params.map fun q => q.2.data) = some [[-10], [-10]] := by
  decide +kernel

/-- C106: with momentum the direction can point uphill: after gradient 1 comes gradient -1/4, but the parameter keeps going down, against a
positive slope. -/
theorem C106_momentum_ascent : 0 < gdDir (1 / 2 : ℚ) 0 false [1, -1 / 4] := by
  norm_num [gdDir, momentum, expSum]

/-! ## C107 -/

/-- C107: after any history of steps: a parameter without gradient is untouched; every coordinate of a parameter with gradient has moved by
one common fraction `redᵐ` of the learning rate of its own group times the ratio of the bias corrected averages over all the gradients the
parameter has seen. -/
theorem C107_adam {fuel : ℕ} {s s' : Optim (AdamOptions ℝ) ℝ (AdamState ℝ)} (hs : Fresh s) (ho : ∀ q ∈ s.params, q.1.Ok)
    {es : List (OptEvent ℝ)} {e : OptEvent ℝ} {vs : List (Optim (AdamOptions ℝ) ℝ (AdamState ℝ))}
    (h : s.run adamRule (lsAdam fuel) (es ++ [e]) = some (vs, s')) :
    ∃ v, vs.getLast? = some v ∧ ∃ m : ℕ, (∀ j ≤ m, s.last.minStep < s.last.red ^ j) ∧
    ∀ (i : ℕ) (q : AdamOptions ℝ × OptParam ℝ (AdamState ℝ)), s.params[i]? = some q →
      ∃ p p' : OptParam ℝ (AdamState ℝ), v.params[i]? = some (q.1, p) ∧ s'.params[i]? = some (q.1, p') ∧ e.grads[i]? = some p.grad ∧
        p.data.length = q.2.data.length ∧ p'.data.length = q.2.data.length ∧
        (p.grad = none → p' = p) ∧
        ∀ g, p.grad = some g → ∃ g', p'.grad = some g' ∧ ∀ c < q.2.data.length,
          gradsSeen q.1.weightDecay i c vs ≠ [] ∧
          (gradsSeen q.1.weightDecay i c vs).getLastD 0 = g.getD c 0 + q.1.weightDecay * p.data.getD c 0 ∧
          p'.data.getD c 0 = p.data.getD c 0
            - s.last.red ^ m * q.1.lr * adamDir q.1.beta1 q.1.beta2 q.1.eps q.1.amsgrad (gradsSeen q.1.weightDecay i c vs) ∧
          g'.getD c 0 = g.getD c 0 + q.1.weightDecay * p.data.getD c 0 := by
  have hok : ∀ q ∈ s.params, ParamOk (fun n st => ∀ b ∈ st, StateLen n b) q.2 := by
    intro q hq
    obtain ⟨h1, h2⟩ := hs q hq
    exact ⟨by simp [h1], by simp [h2]⟩
  obtain ⟨vs0, v, rfl, m, hm, H⟩ := run_last adamRule_ok (lsAdam_ok fuel) hok h
  refine ⟨v, by simp, m, hm, fun i q hq => ?_⟩
  obtain ⟨p, h1, h2, h3, h4, h5, h6, h7⟩ := H i q hq
  have hq0 := (hs q (List.mem_of_getElem? hq)).1
  rw [hq0] at h5
  refine ⟨p, _, h1, h7, h4, h3, (newParam_ok adamRule_ok h2).2.trans h3, ?_, ?_⟩
  · intro hg
    simp [newParam, hg]
  · intro g hg
    have hgl : g.length = q.2.data.length := (h2.2 g (by simp [hg])).trans h3
    have hl : ∀ x ∈ vs0.filterMap fun v => seen v i, x.1.length = q.2.data.length ∧ x.2.length = q.2.data.length := by
      intro x hx
      obtain ⟨w, hw, hx⟩ := List.mem_filterMap.1 hx
      exact h6 w (by simp [hw]) x hx
    have hd := adam_dir (ho q (List.mem_of_getElem? hq)) hl h3 hgl
    have hdl := adamRule_ok.d q.1 _ p.st p.data g h2.1 rfl (hgl.trans h3.symm)
    have hlast : (List.filterMap (fun v => seen v i) [v]) = [(p.data, g)] := by simp [seen, h1, hg]
    refine ⟨(adamRule q.1 p.st p.data g).grad, by simp only [newParam, hg], fun c hc => ⟨?_, ?_, ?_, ?_⟩⟩
    · rw [gradsSeen_eq, List.filterMap_append, hlast]
      simp
    · rw [gradsSeen_eq, List.filterMap_append, hlast]
      simp [decayedAt]
    · simp only [newParam, hg]
      have hd := hd c hc
      rw [← h5] at hd
      rw [getD_vadd _ _ _ (by rw [length_vsmul, hdl]), getD_vsmul, mul_assoc (s.last.red ^ m), hd, gradsSeen_eq, List.filterMap_append, hlast]
      ring
    · have : (adamRule q.1 p.st p.data g).grad = decayGrad q.1.weightDecay p.data g := rfl
      rw [this, decay_getD (h3.trans hgl.symm)]
      rfl

/-- C107: whatever the gradients have been, one step moves no coordinate by more than `lr · √((1 - β₁) / (1 - β₂))`, as long as `β₁ ≤ β₂`,
`ε > 0` and the reduction factor of the line search is in `[0, 1]`. With the default values that is `10 lr`. -/
theorem C107_bounded {fuel : ℕ} {s s' : Optim (AdamOptions ℝ) ℝ (AdamState ℝ)} (hs : Fresh s) (ho : ∀ q ∈ s.params, q.1.Ok)
    (hr0 : 0 ≤ s.last.red) (hr1 : s.last.red ≤ 1) (hb : ∀ q ∈ s.params, q.1.beta1 ≤ q.1.beta2 ∧ 0 < q.1.eps)
    {es : List (OptEvent ℝ)} {e : OptEvent ℝ} {vs : List (Optim (AdamOptions ℝ) ℝ (AdamState ℝ))}
    (h : s.run adamRule (lsAdam fuel) (es ++ [e]) = some (vs, s')) :
    ∃ v, vs.getLast? = some v ∧ ∀ (i : ℕ) (q : AdamOptions ℝ × OptParam ℝ (AdamState ℝ)), s.params[i]? = some q →
      ∃ p p' : OptParam ℝ (AdamState ℝ), v.params[i]? = some (q.1, p) ∧ s'.params[i]? = some (q.1, p') ∧
        ∀ c < q.2.data.length, |p'.data.getD c 0 - p.data.getD c 0| ≤ q.1.lr * √((1 - q.1.beta1) / (1 - q.1.beta2)) := by
  obtain ⟨v, hv, m, -, H⟩ := C107_adam hs ho h
  refine ⟨v, hv, fun i q hq => ?_⟩
  obtain ⟨p, p', h1, h2, -, -, -, h3, h4⟩ := H i q hq
  have hq' := List.mem_of_getElem? hq
  obtain ⟨hlr, -, ⟨k1, -⟩, -, k4⟩ := ho q hq'
  have hpow0 : 0 ≤ s.last.red ^ m := pow_nonneg hr0 m
  have hpow1 : s.last.red ^ m ≤ 1 := pow_le_one₀ hr0 hr1
  refine ⟨p, p', h1, h2, fun c hc => ?_⟩
  cases hg : p.grad with
  | none =>
    rw [h3 hg, sub_self, abs_zero]
    exact mul_nonneg hlr (Real.sqrt_nonneg _)
  | some g =>
    obtain ⟨g', -, hg'⟩ := h4 g hg
    obtain ⟨hne, -, hd, -⟩ := hg' c hc
    have := adamDir_abs_le k1 (hb q hq').1 k4 (hb q hq').2 q.1.amsgrad hne
    rw [hd, show ∀ a b : ℝ, a - b - a = -b from fun a b => by ring, abs_neg, abs_mul, abs_mul, abs_of_nonneg hpow0, abs_of_nonneg hlr]
    have h5 : s.last.red ^ m * q.1.lr ≤ q.1.lr := by nlinarith
    exact mul_le_mul h5 this (abs_nonneg _) hlr

/-- The normalized gradient of a first step. -/
theorem adamDir_singleton {a b ε x : ℝ} (hb : b < 1) (ams : Bool) : adamDir a b ε ams [x] = x / (|x| + ε) := by
  have h1 : (1 : ℝ) - b ≠ 0 := by linarith
  have h2 : 0 < 1 - b := by linarith
  have e : (1 - b) * expSum b (List.map (· ^ 2) [x]) = (1 - b) * x ^ 2 := by simp [expSum]
  have hm : maxMoment b [x] = (1 - b) * x ^ 2 := by
    have := maxMoment_snoc b [] x
    rw [List.nil_append, maxMoment_nil, e, max_eq_right (by positivity)] at this
    exact this
  unfold adamDir
  have hv : (if ams = true then maxMoment b [x] / (1 - b ^ [x].length) else expAvg b (List.map (· ^ 2) [x])) = x ^ 2 := by
    split
    · rw [hm]; simp; field_simp
    · simp [expAvg, expSum]
  rw [hv, Real.sqrt_sq_eq_abs]
  congr 1
  simp [expAvg, expSum]

/-- C107: the first step of a fresh optimizer moves every coordinate against its gradient `x` (with weight decay) by a fraction of
`lr · |x| / (|x| + ε)`, with or without `amsgrad`. -/
theorem C107_first {fuel : ℕ} {s s' : Optim (AdamOptions ℝ) ℝ (AdamState ℝ)} (hs : Fresh s) (ho : ∀ q ∈ s.params, q.1.Ok)
    {e : OptEvent ℝ} {vs : List (Optim (AdamOptions ℝ) ℝ (AdamState ℝ))} (h : s.run adamRule (lsAdam fuel) [e] = some (vs, s')) :
    ∃ m : ℕ, (∀ j ≤ m, s.last.minStep < s.last.red ^ j) ∧
    ∀ (i : ℕ) (q : AdamOptions ℝ × OptParam ℝ (AdamState ℝ)) (g : Vec ℝ), s.params[i]? = some q → e.grads[i]? = some (some g) →
      ∃ p' : OptParam ℝ (AdamState ℝ), s'.params[i]? = some (q.1, p') ∧ ∀ c < q.2.data.length,
        p'.data.getD c 0 = q.2.data.getD c 0 - s.last.red ^ m * q.1.lr *
          ((g.getD c 0 + q.1.weightDecay * q.2.data.getD c 0) / (|g.getD c 0 + q.1.weightDecay * q.2.data.getD c 0| + q.1.eps)) := by
  obtain ⟨v, hv, m, hm, H⟩ := C107_adam (es := []) hs ho h
  refine ⟨m, hm, fun i q g hq hg => ?_⟩
  obtain ⟨p, p', h1, h2, h3, h4, h5, -, h6⟩ := H i q hq
  rw [hg, Option.some.injEq] at h3
  obtain ⟨g', -, hg'⟩ := h6 g h3.symm
  -- the only state visited is the initial one with the gradients set
  have hvis : ∃ s1, s.setGrads e.grads = some s1 ∧ vs = [s1] := by
    simp only [Optim.run] at h
    split at h
    · cases h
    · rename_i s1 hs1
      split at h
      · cases h
      · simp only [Option.map_some, Option.some.injEq, Prod.mk.injEq] at h
        exact ⟨s1, hs1, h.1.symm⟩
  obtain ⟨s1, hs1, rfl⟩ := hvis
  obtain ⟨-, -, g3⟩ := setGrads_spec hs1
  obtain ⟨g1, hg1, hp1, -⟩ := g3 i q hq
  rw [hg, Option.some.injEq] at hg1
  simp only [List.getLast?_singleton, Option.some.injEq] at hv
  subst hv
  rw [hp1, Option.some.injEq, Prod.mk.injEq] at h1
  have hdata : p.data = q.2.data := by rw [← h1.2]
  refine ⟨p', h2, fun c hc => ?_⟩
  obtain ⟨-, -, hd, -⟩ := hg' c hc
  obtain ⟨-, -, -, -, k2⟩ := ho q (List.mem_of_getElem? hq)
  have hseen : gradsSeen q.1.weightDecay i c [s1] = [g.getD c 0 + q.1.weightDecay * q.2.data.getD c 0] := by
    simp [gradsSeen, hp1, ← hg1]
  rw [hd, hseen, adamDir_singleton k2, hdata]

/-- C107: later steps need not descend: with the default options the gradients 1 and then -1/10 still move the parameter down, against a
slope that now points up. -/
theorem C107_ascent : 0 < adamDir (9 / 10) (999 / 1000) (1 / 10 ^ 8) false [1, -1 / 10] := by
  unfold adamDir
  refine div_pos ?_ (add_pos_of_nonneg_of_pos (Real.sqrt_nonneg _) (by norm_num))
  norm_num [expAvg, expSum, Finset.sum_range_succ]

/-- A first step with learning rate 1/10 on a parameter with two coordinates; the closure accepts at once. -/
example : ∃ r, Optim.run adamRule (lsAdam 3) (⟨[(⟨1 / 10, 9 / 10, 999 / 1000, 1, 0, false, none, 1 / 100, 1 / 2, 0⟩, ⟨[1, 2], none, none⟩)],
    ⟨1 / 10, 9 / 10, 999 / 1000, 1, 0, false, none, 1 / 100, 1 / 2, 0⟩⟩ : Optim (AdamOptions ℝ) ℝ (AdamState ℝ))
    [⟨[some [1, -3]], fun _ => 0, 1⟩] = some r := by
  norm_num [Optim.run, Optim.setGrads, Optim.step, OptParam.active, OptParam.after, lsAdam, lineSearchAdam, lsLoop]

end NNL.Props
