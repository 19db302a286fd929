import Verif.Model.Trainer
import Verif.Model.Cuts
import Verif.Model.Physics
import Verif.Model.Slip
import Verif.Model.Optimizer
import Verif.Props.TrainUtil
import Mathlib.Tactic.Linarith
import Mathlib.Tactic.FieldSimp
import Mathlib.Tactic.NormNum
import Mathlib.Tactic.FinCases

/-!
# Further theorems which wrong programs asked for

The range of `beta_hat` of the selective cuts, the states added with noise, the tensors given to the optimiser, the
hover thrust of the quadrotor and the arguments which constructors reject.
-/

set_option linter.unusedSectionVars false

namespace NNL.Props

open NNL NNL.Spec NNL.Model

variable {K : Type} [Field K] [LinearOrder K] [IsStrictOrderedRing K]

theorem foldl_range (lhs : K) (xh : Vec K) (be : K) : ∀ (ts : List (Cut K)) (r : K × K),
    ((ts.foldl (fun r t =>
        let bound := lhs - dot t.xc xh - t.const
        if t.bc > 0 then (max r.1 (bound / t.bc), r.2)
        else if t.bc < 0 then (r.1, min r.2 (bound / t.bc))
        else r) r).1 ≤ be ∧ be ≤ (ts.foldl (fun r t =>
        let bound := lhs - dot t.xc xh - t.const
        if t.bc > 0 then (max r.1 (bound / t.bc), r.2)
        else if t.bc < 0 then (r.1, min r.2 (bound / t.bc))
        else r) r).2) ↔
      (r.1 ≤ be ∧ be ≤ r.2) ∧ ∀ t ∈ ts, t.bc ≠ 0 → lhs ≤ dot t.xc xh + t.bc * be + t.const := by
  intro ts
  induction ts with
  | nil => intro r; simp
  | cons t ts ih =>
    intro r
    simp only [List.foldl_cons, List.forall_mem_cons]
    rw [ih]
    rcases lt_trichotomy t.bc 0 with h | h | h
    · have e : be ≤ (lhs - dot t.xc xh - t.const) / t.bc ↔ lhs ≤ dot t.xc xh + t.bc * be + t.const := by
        rw [le_div_iff_of_neg h]
        constructor <;> intro q <;> linarith
      rw [if_neg (not_lt.2 h.le), if_pos h]
      simp only [le_min_iff, e, ne_eq, h.ne, not_false_iff, true_implies]
      tauto
    · rw [if_neg (by simp [h]), if_neg (by simp [h])]
      simp [h]
    · have e : (lhs - dot t.xc xh - t.const) / t.bc ≤ be ↔ lhs ≤ dot t.xc xh + t.bc * be + t.const := by
        rw [div_le_iff₀ h]
        constructor <;> intro q <;> linarith
      rw [if_pos h]
      simp only [max_le_iff, e, ne_eq, h.ne', not_false_iff, true_implies]
      tauto

/-- The range computed for `beta_hat` holds exactly the numbers in `[0, 1]` for which no cut that involves the
binary variable separates the point of the unit's graph over `xhat`. -/
theorem C14_beta_range (c : K) (w : Vec K) (b : K) (ts : List (Cut K)) (xh : Vec K) (be : K) :
    ((betaRange c w b ts xh).1 ≤ be ∧ be ≤ (betaRange c w b ts xh).2) ↔
      (0 ≤ be ∧ be ≤ 1) ∧ ∀ t ∈ ts, t.bc ≠ 0 →
        max (dot w xh + b) (c * (dot w xh + b)) ≤ dot t.xc xh + t.bc * be + t.const := by
  unfold betaRange
  exact foldl_range _ _ _ _ _

/-- With noise, the states added to the samples are the adversarial ones followed by their perturbations; without
noise they are the adversarial ones. -/
theorem C56_perturbed {W : Type} (noise : Option (W → Mat K → Mat K × W)) (w : W) (adv : Mat K) :
    (∀ s ∈ adv, s ∈ (perturbed noise w adv).1) ∧
      ∀ s ∈ (perturbed noise w adv).1, s ∈ adv ∨ ∃ f, noise = some f ∧ s ∈ (f w adv).1 := by
  cases noise with
  | none => simp [perturbed]
  | some f => simp only [perturbed, List.mem_append]; exact ⟨fun s h => Or.inl h, fun s h => h.imp id fun h => ⟨f, rfl, h⟩⟩

/-- The optimiser is given the tensors of the network, those of the controller exactly if it is searched for, and the
variables of `R` if there are any. -/
theorem C67_trained (t : Tensors K) (search : Bool) (i : ℕ) :
    i ∈ t.trained search ↔ i ∈ t.net ∨ (search = true ∧ i ∈ t.ctrl) ∨ t.rvar = some i := by
  cases search <;> simp [Tensors.trained]

/-- Four propellers at the hover thrust carry exactly the weight and give no torque. -/
theorem C86_hover : Quad3.init.plant (fun _ => Quad3.init.hover) =
    ![Quad3.init.mass * Quad3.init.gravity, 0, 0, 0] := by
  funext i
  fin_cases i <;>
    simp [Quad3.plant, Quad3.init, Matrix.mulVec, dotProduct, Fin.sum_univ_succ] <;> norm_num

/-- The quadrotor level, at rest and at the hover thrust stays there. -/
theorem C86_hover_rest : Quad3.init.dynNp 0 (fun _ => Quad3.init.hover) = 0 := by
  unfold Quad3.dynNp
  rw [C86_hover]
  funext i
  fin_cases i <;>
    simp [Quad3.init, rpy2rotmatNp, Matrix.mulVec, dotProduct, Fin.sum_univ_succ, crossProduct, rpyRate] <;> norm_num

/-- `SLIP` rejects exactly a negative gravity, and `SteppingStone` exactly an empty one. -/
theorem C88_new (mass l0 k g : ℝ) (left right : EReal) (height : ℝ) :
    (Slip.init mass l0 k g = none ↔ g < 0) ∧
      (∀ P, Slip.init mass l0 k g = some P → P.mass = mass ∧ P.l0 = l0 ∧ P.k = k ∧ P.g = g ∧ 0 ≤ P.g) ∧
      (Stone.init left right height = none ↔ right ≤ left) ∧
      ∀ s, Stone.init left right height = some s →
        s.left = left ∧ s.right = right ∧ s.height = height ∧ s.left < s.right := by
  unfold Slip.init Stone.init
  refine ⟨by simp, ?_, by simp, ?_⟩
  · intro P h
    split_ifs at h with hg
    cases h
    exact ⟨rfl, rfl, rfl, rfl, hg⟩
  · intro s h
    split_ifs at h with hl
    cases h
    exact ⟨rfl, rfl, rfl, hl⟩

/-- `LineSearchGD` accepts exactly options without negative entries, Nesterov momentum only with a positive momentum
and no dampening. -/
theorem C106_options (o : GDOptions K) :
    o.Ok ↔ 0 ≤ o.lr ∧ 0 ≤ o.momentum ∧ 0 ≤ o.weightDecay ∧
      (o.nesterov = true → 0 < o.momentum ∧ o.dampening = 0) := by
  unfold GDOptions.Ok
  simp only [not_lt, not_and, not_or, not_le, not_not]

/-- The slope of the line searches is the inner product of the gradient and the direction, the parameters put one after
the other; with step sizes `t` per parameter it is the one with the direction scaled by them. -/
theorem C58_slope : ∀ (grads d : Params K), List.Forall₂ (fun g e => g.length = e.length) grads d →
    slopeSum grads d = dot grads.flatten d.flatten ∧
      ∀ t : List K, t.length = d.length →
        slopeSumT t grads d = dot grads.flatten (List.zipWith vsmul t d).flatten := by
  intro grads d h
  induction h with
  | nil => simp [slopeSum, slopeSumT, dot]
  | @cons g e gs es h1 h2 ih =>
    refine ⟨?_, fun t ht => ?_⟩
    · have := ih.1
      unfold slopeSum at this ⊢
      rw [List.zipWith_cons_cons, List.sum_cons, List.flatten_cons, List.flatten_cons, dot_append _ _ _ _ h1, this]
    · cases t with
      | nil => simp at ht
      | cons a t =>
        have := ih.2 t (by simpa using ht)
        unfold slopeSumT at this ⊢
        simp only [List.zipWith_cons_cons, List.sum_cons, List.flatten_cons]
        rw [dot_append _ _ _ _ (by simpa [vsmul] using h1), ← this, dot_vsmul_right]

/-! ### Concrete cases -/

/-- Two cuts for the unit `max(x, x / 2)` at `x = 1`: `beta_hat` ranges over `[1/3, 1]`. -/
example : betaRange (1 / 2 : ℚ) [1] 0 [⟨[1 / 2], 3 / 2, 0⟩, ⟨[2], -1, 0⟩] [1] = (1 / 3, 1) := by
  norm_num [betaRange, dot]

example : (perturbed (some fun (w : ℕ) (a : Mat ℚ) => (a.map fun r => r.map (· + 1), w + 1)) 0 [[0, 1]]).1 =
    [[0, 1], [1, 2]] := by
  norm_num [perturbed]

example : ∃ P s, Slip.init 1 1 1 9.81 = some P ∧ Stone.init 0 ⊤ 0 = some s := by
  refine ⟨_, _, if_pos (by norm_num), if_pos ?_⟩
  exact EReal.zero_lt_top

end NNL.Props
