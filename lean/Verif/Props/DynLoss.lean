import Verif.Model.DynLoss
import Verif.Props.Callback
import Verif.Props.DynamicsLearning

/-!
C112: `lyapunov_loss` with early termination.
-/

namespace NNL.Props

open NNL NNL.Model NNL.Spec

set_option linter.unusedSectionVars false

variable {K : Type} [Field K] [LinearOrder K] [IsStrictOrderedRing K]

/-- The objective values of a program. -/
def valuesOf (m : Mip K) : Set K := {c | ∃ v, m.Feas v ∧ m.objVal v = c}

theorem programLoss_verdict {vals : Set K} {r : SolverRun K} (h : RunOk vals r) (optimal : Bool) {thr : K} (ht : 0 ≤ thr)
    {graded : Bool} (hg : optimal = false → graded = true) {w : K} (hw : 0 < w) :
    w * programLoss optimal thr graded r ≤ 0 ↔ ∀ v ∈ vals, v ≤ 0 := by
  have e : ∃ o : Option K, programLoss optimal thr graded r = r.optimize o ∧ ∀ t, o = some t → 0 ≤ t := by
    unfold programLoss
    cases optimal with
    | true => exact ⟨none, by simp, by simp⟩
    | false =>
      rw [hg rfl]
      exact ⟨some thr, by simp, by rintro t ⟨⟩; exact ht⟩
  obtain ⟨o, e, ho⟩ := e
  rw [e, ← (C110_verdict h o 0 ho).1]
  exact ⟨fun hv => by
    by_contra hc
    exact absurd hv (not_le.2 (mul_pos hw (not_le.1 hc))), fun hv => mul_nonpos_of_nonneg_of_nonpos hw.le hv⟩

/-- **C112** (verdict). With nonnegative thresholds and positive weights, whenever the solver is stopped, each loss is at most zero
exactly if the condition holds at every state of the box (for the decrease: at every state whose successor is in the box). -/
theorem C112_verdict (L : Lyap K) (hL : L.NetOk) (o : DynOptions K) {R' : Mat K} {xe : Vec K} (h : L.EqOk o.R R' xe)
    {sys : SysConstr K} {Rel : Vec K → Vec K → Prop} (hsys : SysEnc sys L.dim Rel Rel) {w thr : K × K × K}
    (hw : 0 < w.1 ∧ 0 < w.2.1 ∧ 0 < w.2.2) (ht : 0 ≤ thr.1 ∧ 0 ≤ thr.2.1 ∧ 0 ≤ thr.2.2) (optimal : Bool) {g : Bool × Bool × Bool}
    (hg : optimal = false → g = (true, true, true)) :
    ∃ P x D E, L.positivity xe o.lam o.epsPos o.R = some (P, x) ∧
      L.derivative sys xe o.lam o.epsLo .expLower o.R none none .binary = some D ∧
      L.derivative sys xe o.lam o.epsUp .expUpper o.R none none .binary = some E ∧
      ∀ r1 r2 r3, RunOk (valuesOf P) r1 → RunOk (valuesOf D.m) r2 → RunOk (valuesOf E.m) r3 →
        ((lyapunovLoss optimal w thr g r1 r2 r3).1 ≤ 0 ↔
          ∀ y, InBox L.xLo L.xUp y → o.epsPos * err R' xe y ≤ lyapV L.net R' o.lam xe y) ∧
        ((lyapunovLoss optimal w thr g r1 r2 r3).2.1 ≤ 0 ↔ ∀ y yn, InBox L.xLo L.xUp y → InBox L.xLo L.xUp yn → Rel y yn →
          lyapV L.net R' o.lam xe yn ≤ (1 - o.epsLo) * lyapV L.net R' o.lam xe y) ∧
        ((lyapunovLoss optimal w thr g r1 r2 r3).2.2 ≤ 0 ↔ ∀ y yn, InBox L.xLo L.xUp y → InBox L.xLo L.xUp yn → Rel y yn →
          (1 - o.epsUp) * lyapV L.net R' o.lam xe y ≤ lyapV L.net R' o.lam xe yn) := by
  obtain ⟨P, x, eP, -⟩ := C32_program L hL h o.lam o.epsPos
  obtain ⟨D, eD, -⟩ := C33_program L hL h o.lam o.epsLo .expLower none none hsys
  obtain ⟨E, eE, -⟩ := C33_program L hL h o.lam o.epsUp .expUpper none none hsys
  have hopt : ∀ m : Mip K, (∀ v ∈ valuesOf m, v ≤ 0) ↔ OptNonpos m := by
    intro m
    constructor
    · exact fun hv u hu => hv _ ⟨u, hu, rfl⟩
    · rintro hv _ ⟨u, hu, rfl⟩
      exact hv u hu
  refine ⟨P, x, D, E, eP, eD, eE, fun r1 r2 r3 h1 h2 h3 => ⟨?_, ?_, ?_⟩⟩
  · refine (programLoss_verdict h1 optimal ht.1 (fun e => by rw [hg e]) hw.1).trans ?_
    rw [hopt]
    exact C32_verdict L hL h o.lam o.epsPos eP
  · refine (programLoss_verdict h2 optimal ht.2.1 (fun e => by rw [hg e]) hw.2.1).trans ?_
    rw [hopt]
    refine (C33_verdict L hL h o.lam o.epsLo .expLower none none hsys eD).trans ?_
    simp only [Between, decrease]
    constructor
    · intro hh y yn a b c
      linarith [hh y yn a b c (by simp)]
    · intro hh y yn a b c _
      linarith [hh y yn a b c]
  · refine (programLoss_verdict h3 optimal ht.2.2 (fun e => by rw [hg e]) hw.2.2).trans ?_
    rw [hopt]
    refine (C33_verdict L hL h o.lam o.epsUp .expUpper none none hsys eE).trans ?_
    simp only [Between, decrease]
    constructor
    · intro hh y yn a b c
      linarith [hh y yn a b c (by simp)]
    · intro hh y yn a b c _
      linarith [hh y yn a b c]

/-- If the gradient cannot be computed for the solution at which the solver was stopped, the loss is 0 whatever was found: the
first condition is violated by every value of the program, and the loss says it is not. -/
theorem C112_ungraded_counterexample : ∃ r : SolverRun K, RunOk {1} r ∧ programLoss false 0 false r = 0 := by
  refine ⟨⟨[], fun _ => 1, 1⟩, ⟨rfl, fun v hv => le_of_eq hv, ?_, ?_⟩, rfl⟩ <;> intro k e he <;> simp at he

theorem vmean_le {h : Vec K} {M : K} (h0 : h ≠ []) (hM : ∀ a ∈ h, a ≤ M) : vmean h ≤ M := by
  have hs : h.sum ≤ (h.length : K) * M := by
    clear h0
    induction h with
    | nil => simp
    | cons a h ih =>
      rw [List.sum_cons, List.length_cons, Nat.cast_add, Nat.cast_one, add_mul, one_mul]
      linarith [hM a List.mem_cons_self, ih fun b hb => hM b (List.mem_cons_of_mem _ hb)]
  unfold vmean
  rw [div_le_iff₀ (Nat.cast_pos.2 (List.length_pos_iff.2 h0))]
  linarith

/-- The run with the threshold `w * (mean of violations)`: a mean of violations that all are values of the program. -/
theorem dominates {vals : Set K} {r : SolverRun K} (h : RunOk vals r) {w t : K} (hw : 0 ≤ w ∧ w ≤ 1)
    (ht : ∃ l : Vec K, l ≠ [] ∧ t = vmean l ∧ ∀ a ∈ l, a = 0 ∨ a ∈ vals) (optimal : Bool) {graded : Bool}
    (hg : optimal = false → graded = true) : w * t ≤ max 0 (programLoss optimal (w * t) graded r) := by
  obtain ⟨l, h0, rfl, hl⟩ := ht
  have e : ∃ o : Option K, programLoss optimal (w * vmean l) graded r = r.optimize o ∧ ∀ t, o = some t → t = w * vmean l := by
    unfold programLoss
    cases optimal with
    | true => exact ⟨none, by simp, by simp⟩
    | false =>
      rw [hg rfl]
      exact ⟨some (w * vmean l), by simp, by rintro t ⟨⟩; rfl⟩
  obtain ⟨o, e, ho⟩ := e
  rw [e]
  rcases (C110_objVal h o).2 with hm | ⟨t, e1, e2⟩
  · have hM : vmean l ≤ max 0 (r.optimize o) := by
      refine vmean_le h0 fun a ha => ?_
      rcases hl a ha with rfl | hv
      · exact le_max_left _ _
      · exact (hm a hv).trans (le_max_right _ _)
    have hM0 : 0 ≤ max 0 (r.optimize o) := le_max_left _ _
    calc w * vmean l ≤ w * max 0 (r.optimize o) := mul_le_mul_of_nonneg_left hM hw.1
      _ ≤ 1 * max 0 (r.optimize o) := mul_le_mul_of_nonneg_right hw.2 hM0
      _ = max 0 (r.optimize o) := one_mul _
  · rw [ho t e1] at e2
    exact e2.le.trans (le_max_right _ _)

theorem hinge_cases (b : K) : hinge 0 b = 0 ∨ hinge 0 b = -b := by
  unfold hinge
  rcases max_cases 0 (0 - b) with ⟨h, -⟩ | ⟨h, -⟩
  · exact Or.inl h
  · exact Or.inr (by rw [h, zero_sub])

theorem positivityHinge_mem (L : Lyap K) {R : Option (Tensor2 K)} {R' : Mat K} (hR : getR R L.dim = some R') (xs : List (Vec K))
    (xe : Vec K) (lam eps : K) {l : Vec K} (h : L.positivityHinge xs xe lam eps R 0 = some l) {a : K} (ha : a ∈ l) :
    ∃ x ∈ xs, a = 0 ∨ a = eps * err R' xe x - lyapV L.net R' lam xe x := by
  simp only [Lyap.positivityHinge, hR, C31_values L R R' hR, Option.bind_eq_bind, Option.bind_some, Option.some.injEq] at h
  rw [← h] at ha
  obtain ⟨b, hb, rfl⟩ := List.mem_map.1 ha
  rw [List.zipWith_map_left, List.zipWith_self] at hb
  obtain ⟨x, hx, rfl⟩ := List.mem_map.1 hb
  refine ⟨x, hx, (hinge_cases _).imp id fun e => e.trans ?_⟩
  rw [neg_sub]
  rfl

theorem derivativeHinge_mem (L : Lyap K) {R : Option (Tensor2 K)} {R' : Mat K} (hR : getR R L.dim = some R') (xs : List (Vec K))
    (step : Vec K → Vec K) (xe : Vec K) (lam eps : K) (et : EpsType) {l : Vec K}
    (h : L.derivativeHinge xs (xs.map step) xe lam eps et R 0 = some l) {a : K} (ha : a ∈ l) :
    ∃ x ∈ xs, a = 0 ∨ a = decrease et eps (lyapV L.net R' lam xe (step x)) (lyapV L.net R' lam xe x) (err R' xe x) := by
  simp only [Lyap.derivativeHinge, hR, C31_values L R R' hR, Option.bind_eq_bind, Option.bind_some, List.length_map, if_true,
    Option.some.injEq, List.map_map] at h
  rw [← h] at ha
  obtain ⟨b, hb, rfl⟩ := List.mem_map.1 ha
  rw [List.zip_map', List.zipWith_map_left, List.zipWith_self] at hb
  obtain ⟨x, hx, rfl⟩ := List.mem_map.1 hb
  refine ⟨x, hx, (hinge_cases _).imp id fun e => e.trans ?_⟩
  rw [derivArg_eq, neg_neg]
  rfl

/-- **C112** (the programs find no less than the samples). With the losses at the samples as thresholds, as in `train`, whenever
the solver is stopped: a loss at the samples is at most the violation that the program finds, if the weights of the sample losses are at
most 1, the samples kept and their successors are in the box of the programs, and `step` is the encoded dynamics. -/
theorem C112_dominates (L : Lyap K) (hL : L.NetOk) (o : DynOptions K) {R' : Mat K} {xe : Vec K} (h : L.EqOk o.R R' xe)
    {sys : SysConstr K} {Rel : Vec K → Vec K → Prop} (hsys : SysEnc sys L.dim Rel Rel) {step : Vec K → Vec K}
    (hw : (0 ≤ o.wPos ∧ o.wPos ≤ 1) ∧ (0 ≤ o.wLo ∧ o.wLo ≤ 1) ∧ (0 ≤ o.wUp ∧ o.wUp ≤ 1)) {xs : List (Vec K)} {lo up : Vec K}
    (hx : ∀ x ∈ keepSamples lo up xs, InBox L.xLo L.xUp x ∧ InBox L.xLo L.xUp (step x) ∧ Rel x (step x)) {p l u : K}
    (hs : L.SampleLosses step xe o xs lo up (p, l, u)) (optimal : Bool) {g : Bool × Bool × Bool}
    (hg : optimal = false → g = (true, true, true)) :
    ∃ P x D E, L.positivity xe o.lam o.epsPos o.R = some (P, x) ∧
      L.derivative sys xe o.lam o.epsLo .expLower o.R none none .binary = some D ∧
      L.derivative sys xe o.lam o.epsUp .expUpper o.R none none .binary = some E ∧
      ∀ r1 r2 r3, RunOk (valuesOf P) r1 → RunOk (valuesOf D.m) r2 → RunOk (valuesOf E.m) r3 →
        p ≤ max 0 (lyapunovLoss optimal (1, 1, 1) (p, l, u) g r1 r2 r3).1 ∧
        l ≤ max 0 (lyapunovLoss optimal (1, 1, 1) (p, l, u) g r1 r2 r3).2.1 ∧
        u ≤ max 0 (lyapunovLoss optimal (1, 1, 1) (p, l, u) g r1 r2 r3).2.2 := by
  obtain ⟨P, x, eP, -, -, sP, cP⟩ := C32_program L hL h o.lam o.epsPos
  obtain ⟨D, eD, -, -, -, sD, cD⟩ := C33_program L hL h o.lam o.epsLo .expLower none none hsys
  obtain ⟨E, eE, -, -, -, sE, cE⟩ := C33_program L hL h o.lam o.epsUp .expUpper none none hsys
  refine ⟨P, x, D, E, eP, eD, eE, fun r1 r2 r3 h1 h2 h3 => ?_⟩
  simp only [lyapunovLoss, one_mul]
  simp only [Lyap.SampleLosses] at hs
  split_ifs at hs with h0
  · simp only [Prod.mk.injEq] at hs
    obtain ⟨rfl, rfl, rfl⟩ := hs
    exact ⟨le_max_left _ _, le_max_left _ _, le_max_left _ _⟩
  · obtain ⟨p', l', u', hp, hl', hu, e⟩ := hs
    simp only [Prod.mk.injEq] at e
    obtain ⟨rfl, rfl, rfl⟩ := e
    have hR : getR o.R L.dim = some R' := h.R
    refine ⟨dominates h1 hw.1 ?_ optimal fun e => by rw [hg e], dominates h2 hw.2.1 ?_ optimal fun e => by rw [hg e],
      dominates h3 hw.2.2 ?_ optimal fun e => by rw [hg e]⟩
    · obtain ⟨hh, e1, e2, e3⟩ := hp
      refine ⟨hh, e2, e3, fun a ha => ?_⟩
      obtain ⟨y, hy, e | e⟩ := positivityHinge_mem L hR _ xe o.lam o.epsPos e1 ha
      · exact Or.inl e
      · obtain ⟨v, hv, ev⟩ := cP y (hx y hy).1
        exact Or.inr ⟨v, hv, by rw [(sP v hv).2, ev, e]⟩
    · obtain ⟨hh, e1, e2, e3⟩ := hl'
      refine ⟨hh, e2, e3, fun a ha => ?_⟩
      obtain ⟨y, hy, e | e⟩ := derivativeHinge_mem L hR _ step xe o.lam o.epsLo _ e1 ha
      · exact Or.inl e
      · obtain ⟨v, hv, ev, en⟩ := cD y (step y) (hx y hy).1 (hx y hy).2.1 (hx y hy).2.2 (by simp [Between])
        exact Or.inr ⟨v, hv, by rw [(sD v hv).2.2.2.2.2.2, ev, en, e]⟩
    · obtain ⟨hh, e1, e2, e3⟩ := hu
      refine ⟨hh, e2, e3, fun a ha => ?_⟩
      obtain ⟨y, hy, e | e⟩ := derivativeHinge_mem L hR _ step xe o.lam o.epsUp _ e1 ha
      · exact Or.inl e
      · obtain ⟨v, hv, ev, en⟩ := cE y (step y) (hx y hy).1 (hx y hy).2.1 (hx y hy).2.2 (by simp [Between])
        exact Or.inr ⟨v, hv, by rw [(sE v hv).2.2.2.2.2.2, ev, en, e]⟩

/-- The hypotheses of C112 are met: `V(x) = 3/2 |x|`, `x⁺ = x / 2`, one sample, sample weights 1. -/
example (optimal : Bool) : ∃ p l u, absLyap.SampleLosses DynExample.step [0] ⟨1 / 2, 1 / 4, 3 / 5, 1 / 10, none, 1, 1, 1⟩
      [[1]] [-1] [1] (p, l, u) ∧ 0 < l ∧
    ∃ P x D E, absLyap.positivity [0] (1 / 2) (1 / 4) none = some (P, x) ∧
      absLyap.derivative (linSys 1 [[1 / 2]]) [0] (1 / 2) (3 / 5) .expLower none none none .binary = some D ∧
      absLyap.derivative (linSys 1 [[1 / 2]]) [0] (1 / 2) (1 / 10) .expUpper none none none .binary = some E ∧
      ∀ r1 r2 r3, RunOk (valuesOf P) r1 → RunOk (valuesOf D.m) r2 → RunOk (valuesOf E.m) r3 →
        l ≤ (lyapunovLoss optimal (1, 1, 1) (p, l, u) (true, true, true) r1 r2 r3).2.1 := by
  let op : DynOptions ℝ := ⟨1 / 2, 1 / 4, 3 / 5, 1 / 10, none, 1, 1, 1⟩
  have hR : getR op.R absLyap.dim = some (eye 1) := DynExample.hR
  obtain ⟨⟨p, l, u⟩, hr⟩ := C100_samples_defined absLyap DynExample.step [0] op hR [[1]] [-1] [1]
  obtain ⟨-, ⟨hl0, hl⟩, -⟩ := C100_samples absLyap DynExample.step [0] op hR (by norm_num [op]) (lo := [-1]) (up := [1]) rfl
    (by simp) hr
  have e2 : DynExample.step [(1 : ℝ)] = [1 / 2] := by simp [DynExample.step, matVec, dot]
  have hlpos : 0 < l := by
    refine lt_of_le_of_ne hl0 fun e => ?_
    have := hl.1 e.symm [1] (by simp) (DynExample.inBox (by norm_num))
    rw [e2, abs_V, abs_V, abs_of_pos (by norm_num : (0 : ℝ) < 1 / 2)] at this
    norm_num [op] at this
  refine ⟨p, l, u, hr, hlpos, ?_⟩
  have hx : ∀ y ∈ keepSamples [-1] [1] [[(1 : ℝ)]], InBox absLyap.xLo absLyap.xUp y ∧
      InBox absLyap.xLo absLyap.xUp (DynExample.step y) ∧ DynExample.step y = matVec [[1 / 2]] y := by
    intro y hy
    have hy' := keepSamples_subset hy
    simp only [List.mem_singleton] at hy'
    subst hy'
    exact ⟨DynExample.inBox (by norm_num), by rw [e2]; exact DynExample.inBox (by rw [abs_of_pos] <;> norm_num), rfl⟩
  obtain ⟨P, x, D, E, a, b, c, d⟩ := C112_dominates absLyap absLyap_ok op absEq_ok absSys_enc (step := DynExample.step)
    (by norm_num [op]) hx hr optimal (g := (true, true, true)) fun _ => rfl
  refine ⟨P, x, D, E, a, b, c, fun r1 r2 r3 h1 h2 h3 => ?_⟩
  rcases le_max_iff.1 (d r1 r2 r3 h1 h2 h3).2.1 with h | h
  · linarith
  · exact h

end NNL.Props
