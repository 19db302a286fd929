import Verif.Model.SimPlant
import Verif.Spec.SimPlant
import Verif.Props.Feedback
import Verif.Props.Converge
import Mathlib.Analysis.ODE.ExistUnique
import Mathlib.Analysis.SpecialFunctions.Trigonometric.Bounds

/-!
# C126: simulations
-/

set_option linter.unusedSectionVars false

namespace NNL.Props

open NNL NNL.Model NNL.Spec

section Lipschitz

variable {K : Type*} [Field K] [LinearOrder K] [IsStrictOrderedRing K]

/-- Two vectors of the same length whose entries differ by at most `d`. -/
def CloseVec (d : K) (x y : Vec K) : Prop := x.length = y.length ∧ ∀ i, |x.getD i 0 - y.getD i 0| ≤ d

theorem dot_close {d : K} : ∀ (r x y : Vec K), CloseVec d x y → |dot r x - dot r y| ≤ norm1 r * d
  | [], x, y, _ => by simp [dot, norm1]
  | a :: r, [], [], h => by
    have h0 : 0 ≤ d := by simpa using h.2 0
    have := mul_nonneg (norm1_nonneg (a :: r)) h0
    simpa [dot] using this
  | a :: r, [], y :: ys, h => by simp [CloseVec] at h
  | a :: r, x :: xs, [], h => by simp [CloseVec] at h
  | a :: r, x :: xs, y :: ys, h => by
    have ih := dot_close r xs ys ⟨by simpa using h.1, fun i => by simpa using h.2 (i + 1)⟩
    have h0 : |x - y| ≤ d := by simpa using h.2 0
    have e : dot (a :: r) (x :: xs) - dot (a :: r) (y :: ys) = a * (x - y) + (dot r xs - dot r ys) := by
      simp only [dot, List.zipWith_cons_cons, List.sum_cons]; ring
    have en : norm1 (a :: r) = |a| + norm1 r := by simp [norm1]
    rw [e, en, add_mul]
    refine (abs_add_le _ _).trans (add_le_add ?_ ih)
    rw [abs_mul]
    exact mul_le_mul_of_nonneg_left h0 (abs_nonneg a)

theorem lin_close {l : Lin K} (h : l.Ok) : ∃ L, 0 ≤ L ∧ ∀ d x y, 0 ≤ d → CloseVec d x y → CloseVec (L * d) (l.eval x) (l.eval y) := by
  refine ⟨(l.W.map norm1).sum, List.sum_nonneg (by
    intro a ha
    obtain ⟨r, -, rfl⟩ := List.mem_map.1 ha
    exact norm1_nonneg r), fun d x y hd hc => ⟨by rw [Lin.length_eval h, Lin.length_eval h], fun i => ?_⟩⟩
  rw [Lin.eval, Lin.eval, getD_vadd _ _ _ (by simp [matVec, h.2]), getD_vadd _ _ _ (by simp [matVec, h.2]), getD_matVec, getD_matVec,
    add_sub_add_right_eq_sub]
  refine (dot_close _ x y hc).trans (mul_le_mul_of_nonneg_right ?_ hd)
  by_cases hi : i < l.W.length
  · have hm : norm1 (l.W.getD i []) ∈ l.W.map norm1 := by
      refine List.mem_map_of_mem ?_
      rw [List.getD_eq_getElem?_getD, List.getElem?_eq_getElem hi]
      exact List.getElem_mem hi
    exact List.single_le_sum (fun a ha => by
      obtain ⟨r, -, rfl⟩ := List.mem_map.1 ha
      exact norm1_nonneg r) _ hm
  · have : l.W.getD i [] = [] := by simp [List.getD, not_lt.1 hi]
    rw [this]
    have : norm1 ([] : Vec K) = 0 := by simp [norm1]
    rw [this]
    exact List.sum_nonneg (by
      intro a ha
      obtain ⟨r, -, rfl⟩ := List.mem_map.1 ha
      exact norm1_nonneg r)

theorem abs_min_sub_min_le (u v c : K) : |min u c - min v c| ≤ |u - v| := by
  refine (abs_min_sub_min_le_max u c v c).trans ?_
  simp

theorem act_close (a : Act K) : ∃ L, 0 ≤ L ∧ ∀ u v : K, |a.f u - a.f v| ≤ L * |u - v| := by
  cases a with
  | relu => exact ⟨1, zero_le_one, fun u v => by simpa [Act.f, relu] using abs_max_sub_max_le_abs u v 0⟩
  | leaky s =>
    refine ⟨1 + |s|, by positivity, fun u v => ?_⟩
    have e : leaky s u - leaky s v = (max u 0 - max v 0) + s * (min u 0 - min v 0) := by
      simp only [leaky]; ring
    simp only [Act.f]
    rw [e, add_mul, one_mul]
    refine (abs_add_le _ _).trans (add_le_add (abs_max_sub_max_le_abs u v 0) ?_)
    rw [abs_mul]
    exact mul_le_mul_of_nonneg_left (abs_min_sub_min_le u v 0) (abs_nonneg s)

theorem hidden_close {n m : ℕ} {hs : List (Lin K × Act K)} (h : HidOk n hs m) :
    ∃ L, 0 ≤ L ∧ ∀ d x y, 0 ≤ d → CloseVec d x y → CloseVec (L * d) (hiddenOut hs x) (hiddenOut hs y) := by
  induction hs generalizing n with
  | nil => exact ⟨1, zero_le_one, fun d x y _ hc => by simpa [hiddenOut] using hc⟩
  | cons p hs ih =>
    obtain ⟨l, a⟩ := p
    obtain ⟨-, hl, hr⟩ := h
    obtain ⟨L1, h1, c1⟩ := lin_close hl
    obtain ⟨L2, h2, c2⟩ := act_close a
    obtain ⟨L3, h3, c3⟩ := ih hr
    refine ⟨L3 * (L2 * L1), by positivity, fun d x y hd hc => ?_⟩
    have hc1 := c1 d x y hd hc
    have hc2 : CloseVec (L2 * (L1 * d)) ((l.eval x).map a.f) ((l.eval y).map a.f) := by
      refine ⟨by simpa using hc1.1, fun i => ?_⟩
      by_cases hi : i < (l.eval x).length
      · have hi' : i < (l.eval y).length := hc1.1 ▸ hi
        have := hc1.2 i
        simp only [List.getD_eq_getElem?_getD, List.getElem?_map, List.getElem?_eq_getElem hi, List.getElem?_eq_getElem hi', Option.map_some,
          Option.getD_some] at this ⊢
        exact (c2 _ _).trans (mul_le_mul_of_nonneg_left this h2)
      · have hi' : ¬i < (l.eval y).length := hc1.1 ▸ hi
        have hnn : 0 ≤ L2 * (L1 * d) := by positivity
        simpa [List.getD_eq_getElem?_getD, List.getElem?_map, not_lt.1 hi, not_lt.1 hi'] using hnn
    have := c3 _ _ _ (by positivity) hc2
    simpa [hiddenOut, mul_assoc] using this

/-- **C126** (controllers). A (leaky) ReLU network is Lipschitz continuous, and so is a linear layer. -/
theorem C126_lipschitz (c : Controller K) {n : ℕ} (hc : ∀ N method, c = .net N method → N.Ok n) (hl : ∀ l, c = .lin l → l.Ok) :
    ∃ L, 0 ≤ L ∧ ∀ (d : K) (x y : Vec K), 0 ≤ d → x.length = y.length → (∀ i, |x.getD i 0 - y.getD i 0| ≤ d) →
      ∀ i, |(c.eval x).getD i 0 - (c.eval y).getD i 0| ≤ L * d := by
  cases c with
  | lin l =>
    obtain ⟨L, h0, h1⟩ := lin_close (hl l rfl)
    exact ⟨L, h0, fun d x y hd hxy h i => (h1 d x y hd ⟨hxy, h⟩).2 i⟩
  | net N method =>
    obtain ⟨o1, o2⟩ := hc N method rfl
    obtain ⟨L1, h1, c1⟩ := hidden_close o1
    obtain ⟨L2, h2, c2⟩ := lin_close o2
    refine ⟨L2 * L1, by positivity, fun d x y hd hxy h i => ?_⟩
    have := (c2 _ _ _ (by positivity) (c1 d x y hd ⟨hxy, h⟩)).2 i
    rw [mul_assoc]
    exact this

end Lipschitz

/-! ## The control -/

open Set

/-- Shapes of what `simulate_plant_with_controller` gets. -/
structure CtrlOk (c : Controller ℝ) (n p : ℕ) : Prop where
  net : ∀ N method, c = .net N method → N.Ok n
  lin : ∀ l, c = .lin l → l.Ok
  out : ∀ x, (c.eval x).length = p

theorem simControl_getD {c : Controller ℝ} {n p : ℕ} (hc : CtrlOk c n p) (xEq : Vec ℝ) (uEq uLo uUp : Fin p → ℝ) (x : Vec ℝ) (i : Fin p) :
    (simControl c xEq (List.ofFn uEq) (List.ofFn uLo) (List.ofFn uUp) x).getD i 0 =
      max (min ((c.eval x).getD i 0 - (c.eval xEq).getD i 0 + uEq i) (uUp i)) (uLo i) := by
  have h1 : (c.eval x)[(i : ℕ)]? = some ((c.eval x).getD i 0) := by
    rw [List.getD_eq_getElem?_getD, List.getElem?_eq_getElem (by rw [hc.out]; exact i.2)]; rfl
  have h2 : (c.eval xEq)[(i : ℕ)]? = some ((c.eval xEq).getD i 0) := by
    rw [List.getD_eq_getElem?_getD, List.getElem?_eq_getElem (by rw [hc.out]; exact i.2)]; rfl
  generalize (c.eval x).getD i 0 = a at h1 ⊢
  generalize (c.eval xEq).getD i 0 = b at h2 ⊢
  simp only [simControl, vadd, vsub, List.getD_eq_getElem?_getD, List.getElem?_zipWith, h1, h2, List.getElem?_ofFn, i.2, dite_true]
  rfl

/-- **C126** (the simulated control). Each control is `φ(x) - φ(x*) + u*` cut off at the limits; it is the control of the feedback system with
the same controller, equilibrium and limits, so what is simulated is what is verified. -/
theorem C126_control {c : Controller ℝ} {n p : ℕ} (hc : CtrlOk c n p) (xEq : Vec ℝ) (uEq uLo uUp : Fin p → ℝ) (hle : ∀ i, uLo i ≤ uUp i)
    (x : Vec ℝ) :
    (∀ i : Fin p, (simControl c xEq (List.ofFn uEq) (List.ofFn uLo) (List.ofFn uUp) x).getD i 0 =
      cutOff (uLo i) (uUp i) ((c.eval x).getD i 0 - (c.eval xEq).getD i 0 + uEq i)) ∧
    ∀ S : Feedback ℝ, S.ctrl = c → S.xEq = xEq → S.uEq = List.ofFn uEq → S.uLower = (List.ofFn uLo).map Ext.fin →
      S.uUpper = (List.ofFn uUp).map Ext.fin →
      S.computeU x = (simControl c xEq (List.ofFn uEq) (List.ofFn uLo) (List.ofFn uUp) x).map Ext.fin := by
  constructor
  · intro i
    rw [simControl_getD hc]
    unfold cutOff
    have := hle i
    split
    · rename_i h
      rw [min_eq_left (by linarith), max_eq_right h.le]
    · rename_i h
      split
      · rename_i h2
        rw [min_eq_right h2.le, max_eq_left this]
      · rename_i h2
        rw [min_eq_left (not_lt.1 h2), max_eq_left (not_lt.1 h)]
  · rintro S rfl rfl h3 h4 h5
    unfold Feedback.computeU Feedback.preSat simControl
    rw [h3, h4, h5]
    generalize vadd (vsub (S.ctrl.eval x) (S.ctrl.eval S.xEq)) (List.ofFn uEq) = a
    generalize List.ofFn uUp = b
    generalize List.ofFn uLo = c
    induction a generalizing b c with
    | nil => simp
    | cons a as ih =>
      cases b with
      | nil => simp
      | cons b bs =>
        cases c with
        | nil => simp
        | cons c cs =>
          simp only [List.map_cons, List.zipWith_cons_cons, ih, List.cons.injEq, and_true]
          rw [fin_min, fin_max]

/-! ## Simulations -/

/-- `simDyn` is Lipschitz. -/
theorem simDyn_lipschitz {n p : ℕ} {f : (Fin n → ℝ) → (Fin p → ℝ) → Fin n → ℝ} {c : Controller ℝ} (hc : CtrlOk c n p) (xEq : Fin n → ℝ)
    (uEq : Fin p → ℝ) {uLo uUp : Fin p → ℝ} (hle : ∀ i, uLo i ≤ uUp i) {L : ℝ} (hL : 0 ≤ L) (hf : LipschitzPlant f uLo uUp L) :
    ∃ M : NNReal, LipschitzWith M (simDyn f c xEq uEq uLo uUp) := by
  obtain ⟨Lc, h0, h1⟩ := C126_lipschitz c hc.net hc.lin
  have hM : 0 ≤ L * (1 + Lc) := by positivity
  refine ⟨Real.toNNReal (L * (1 + Lc)), LipschitzWith.of_dist_le_mul fun x y => ?_⟩
  rw [Real.coe_toNNReal _ hM, dist_pi_le_iff (mul_nonneg hM dist_nonneg)]
  intro i
  rw [Real.dist_eq, mul_assoc]
  have hxy : ∀ j, |x j - y j| ≤ dist x y := fun j => by rw [← Real.dist_eq]; exact dist_le_pi_dist x y j
  have hd : (0 : ℝ) ≤ dist x y := dist_nonneg
  have lim : ∀ z : Vec ℝ, ∀ j : Fin p, uLo j ≤ (simControl c (List.ofFn xEq) (List.ofFn uEq) (List.ofFn uLo) (List.ofFn uUp) z).getD j 0 ∧
      (simControl c (List.ofFn xEq) (List.ofFn uEq) (List.ofFn uLo) (List.ofFn uUp) z).getD j 0 ≤ uUp j := by
    intro z j
    rw [simControl_getD hc]
    exact ⟨le_max_right _ _, max_le (min_le_right _ _) (hle j)⟩
  refine hf x y _ _ ((1 + Lc) * dist x y) (by positivity) (fun j => (hxy j).trans (by nlinarith)) (lim _) (lim _) (fun j => ?_) i
  rw [simControl_getD hc, simControl_getD hc]
  refine (abs_max_sub_max_le_abs _ _ _).trans ((abs_min_sub_min_le _ _ _).trans ?_)
  have := h1 (dist x y) (List.ofFn x) (List.ofFn y) hd (by simp) (fun k => by
    by_cases hk : k < n
    · have := hxy ⟨k, hk⟩
      simpa [List.getD_eq_getElem?_getD, List.getElem?_ofFn, hk] using this
    · simp [List.getD_eq_getElem?_getD, hk]) j
  rw [add_sub_add_right_eq_sub, sub_sub_sub_cancel_right]
  exact this.trans (by nlinarith)

/-- **C126** (simulations depend continuously on where they start). In particular the exact simulation from a state is unique. -/
theorem C126_dependence {n p : ℕ} {f : (Fin n → ℝ) → (Fin p → ℝ) → Fin n → ℝ} {c : Controller ℝ} (hc : CtrlOk c n p) (xEq : Fin n → ℝ)
    (uEq : Fin p → ℝ) {uLo uUp : Fin p → ℝ} (hle : ∀ i, uLo i ≤ uUp i) {L : ℝ} (hL : 0 ≤ L) (hf : LipschitzPlant f uLo uUp L) :
    ∃ M : ℝ, ∀ t0 t1 x0 y0 X Y d, SolvesIvp (simDyn f c xEq uEq uLo uUp) t0 t1 x0 X → SolvesIvp (simDyn f c xEq uEq uLo uUp) t0 t1 y0 Y →
      0 ≤ d → (∀ i, |x0 i - y0 i| ≤ d) → ∀ t ∈ Icc t0 t1, ∀ i, |X t i - Y t i| ≤ d * Real.exp (M * (t - t0)) := by
  obtain ⟨M, hM⟩ := simDyn_lipschitz hc xEq uEq hle hL hf
  refine ⟨M, fun t0 t1 x0 y0 X Y d hX hY hd hxy t ht i => ?_⟩
  have conv : ∀ {x0 X}, SolvesIvp (simDyn f c xEq uEq uLo uUp) t0 t1 x0 X → ContinuousOn X (Icc t0 t1) ∧
      ∀ t ∈ Ico t0 t1, HasDerivWithinAt X (simDyn f c xEq uEq uLo uUp (X t)) (Ici t) t := by
    intro x0 X h
    have hd : ∀ t ∈ Icc t0 t1, HasDerivWithinAt X (simDyn f c xEq uEq uLo uUp (X t)) (Icc t0 t1) t := fun t ht =>
      hasDerivWithinAt_pi.2 fun i => h.2 t ht i
    refine ⟨fun t ht => (hd t ht).continuousWithinAt, fun t ht => ?_⟩
    refine (hd t ⟨ht.1, ht.2.le⟩).mono_of_mem_nhdsWithin ?_
    exact Filter.mem_of_superset (Icc_mem_nhdsGE ht.2) (Icc_subset_Icc_left ht.1)
  obtain ⟨a1, a2⟩ := conv hX
  obtain ⟨b1, b2⟩ := conv hY
  have := dist_le_of_trajectories_ODE (v := fun _ => simDyn f c xEq uEq uLo uUp) (δ := d) (fun _ => hM) a1 a2 b1 b2 (by
    rw [hX.1, hY.1, dist_pi_le_iff hd]
    intro i
    rw [Real.dist_eq]
    exact hxy i) t ht
  rw [← Real.dist_eq]
  exact (dist_le_pi_dist (X t) (Y t) i).trans this

theorem arange_mem {t0 t1 t : ℝ} (h : t ∈ arange t0 t1 0.01) : t ∈ Icc t0 t1 := by
  obtain ⟨k, hk, rfl⟩ := List.mem_map.1 h
  rw [List.mem_range, Nat.lt_ceil, lt_div_iff₀ (by norm_num)] at hk
  refine ⟨?_, by linarith⟩
  have : (0 : ℝ) ≤ k := by positivity
  linarith

/-- **C126** (the equilibrium). If the plant rests at `x*` under a control `u*` within the limits, an exact simulation from `x*` returns `x*`
at all times. -/
theorem C126_equilibrium {n p : ℕ} {f : (Fin n → ℝ) → (Fin p → ℝ) → Fin n → ℝ} {c : Controller ℝ} (hc : CtrlOk c n p) (xEq : Fin n → ℝ)
    (uEq : Fin p → ℝ) {uLo uUp : Fin p → ℝ} (hle : ∀ i, uLo i ≤ uEq i ∧ uEq i ≤ uUp i) {L : ℝ} (hL : 0 ≤ L)
    (hf : LipschitzPlant f uLo uUp L) (hrest : f xEq uEq = 0)
    (solve : ((Fin n → ℝ) → Fin n → ℝ) → ℝ → ℝ → (Fin n → ℝ) → ℝ → Fin n → ℝ) (t0 t1 : ℝ)
    (hs : SolvesIvp (simDyn f c xEq uEq uLo uUp) t0 t1 xEq (solve (simDyn f c xEq uEq uLo uUp) t0 t1 xEq)) :
    ∀ r ∈ simulatePlant solve f c t0 t1 xEq uEq uLo uUp xEq, r.2 = xEq := by
  have hle' : ∀ i, uLo i ≤ uUp i := fun i => (hle i).1.trans (hle i).2
  have h0 : simDyn f c xEq uEq uLo uUp xEq = 0 := by
    unfold simDyn
    rw [show (fun i : Fin p => (simControl c (List.ofFn xEq) (List.ofFn uEq) (List.ofFn uLo) (List.ofFn uUp) (List.ofFn xEq)).getD i 0) = uEq from
      funext fun i => by
        rw [simControl_getD hc, sub_self, zero_add, min_eq_left (hle i).2, max_eq_left (hle i).1]]
    exact hrest
  have hconst : SolvesIvp (simDyn f c xEq uEq uLo uUp) t0 t1 xEq fun _ => xEq := by
    refine ⟨rfl, fun t _ i => ?_⟩
    rw [h0]
    exact hasDerivWithinAt_const _ _ _
  obtain ⟨M, hM⟩ := C126_dependence hc xEq uEq hle' hL hf
  intro r hr
  obtain ⟨t, ht, rfl⟩ := List.mem_map.1 hr
  funext i
  have := hM t0 t1 xEq xEq _ _ 0 hs hconst le_rfl (fun i => by simp) t (arange_mem ht) i
  rw [zero_mul, abs_nonpos_iff, sub_eq_zero] at this
  exact this

/-- **C126** (times). The states are returned at the times `t0, t0 + 0.01, ...` before `t1`: the first is that of the start, the last within
0.01 of `t1`, and each is where the motion is at its time. -/
theorem C126_times {n p : ℕ} {f : (Fin n → ℝ) → (Fin p → ℝ) → Fin n → ℝ} {c : Controller ℝ} (xEq : Fin n → ℝ)
    (uEq uLo uUp : Fin p → ℝ) (solve : ((Fin n → ℝ) → Fin n → ℝ) → ℝ → ℝ → (Fin n → ℝ) → ℝ → Fin n → ℝ) {t0 t1 : ℝ} (ht : t0 < t1)
    (x0 : Fin n → ℝ)
    (hs : SolvesIvp (simDyn f c xEq uEq uLo uUp) t0 t1 x0 (solve (simDyn f c xEq uEq uLo uUp) t0 t1 x0)) :
    ∃ X, SolvesIvp (simDyn f c xEq uEq uLo uUp) t0 t1 x0 X ∧
      (simulatePlant solve f c t0 t1 xEq uEq uLo uUp x0)[0]? = some (t0, x0) ∧
      (∀ (k : ℕ) r, (simulatePlant solve f c t0 t1 xEq uEq uLo uUp x0)[k]? = some r → r.1 = t0 + 0.01 * k ∧ r.1 < t1 ∧ r.2 = X r.1) ∧
      ∃ r, (simulatePlant solve f c t0 t1 xEq uEq uLo uUp x0).getLast? = some r ∧ t1 - r.1 ≤ 0.01 := by
  set g := simDyn f c xEq uEq uLo uUp with hg
  have hpos : 0 < ⌈(t1 - t0) / 0.01⌉₊ := Nat.ceil_pos.2 (div_pos (by linarith) (by norm_num))
  have hget : ∀ k < ⌈(t1 - t0) / (0.01 : ℝ)⌉₊, (simulatePlant solve f c t0 t1 xEq uEq uLo uUp x0)[k]? =
      some (t0 + k * 0.01, solve g t0 t1 x0 (t0 + k * 0.01)) := by
    intro k hk
    simp [simulatePlant, arange, hk, hg]
  have hlen : (simulatePlant solve f c t0 t1 xEq uEq uLo uUp x0).length = ⌈(t1 - t0) / (0.01 : ℝ)⌉₊ := by simp [simulatePlant, arange]
  refine ⟨_, hs, ?_, ?_, ?_⟩
  · rw [hget 0 hpos]
    simp [hs.1]
  · intro k r hr
    have hk : k < ⌈(t1 - t0) / (0.01 : ℝ)⌉₊ := hlen ▸ (List.getElem?_eq_some_iff.1 hr).1
    rw [hget k hk, Option.some.injEq] at hr
    subst hr
    rw [Nat.lt_ceil, lt_div_iff₀ (by norm_num)] at hk
    exact ⟨by ring, by simp only; linarith, rfl⟩
  · rw [List.getLast?_eq_getElem?, hlen, hget _ (by omega)]
    refine ⟨_, rfl, ?_⟩
    have := Nat.le_ceil ((t1 - t0) / (0.01 : ℝ))
    rw [div_le_iff₀ (by norm_num)] at this
    have e : ((⌈(t1 - t0) / (0.01 : ℝ)⌉₊ - 1 : ℕ) : ℝ) = (⌈(t1 - t0) / (0.01 : ℝ)⌉₊ : ℝ) - 1 := by
      rw [Nat.cast_sub (by omega)]; simp
    simp only [e]
    linarith

/-! ## Paths of discrete-time systems -/

theorem stepSystem_last {X : Type} {step : X → Option X} {x : X} {k : ℕ} {path : List X} (h : stepSystem step x k = some path) :
    path.length = k + 1 := by
  induction k generalizing path with
  | zero =>
    simp only [stepSystem, Option.some.injEq] at h
    subst h; rfl
  | succ k ih =>
    simp only [stepSystem, Option.bind_eq_bind, Option.bind_eq_some_iff, Option.some.injEq] at h
    obtain ⟨p, hp, l, -, y, -, rfl⟩ := h
    simp [ih hp]

/-- **C126** (paths). The path has the start and one state for each step, and each state is the successor of the one before; if no step raises
there is a path. -/
theorem C126_path {X : Type} (step : X → Option X) (x : X) (k : ℕ) :
    (∀ path, stepSystem step x k = some path → path.length = k + 1 ∧ path[0]? = some x ∧
      ∀ (i : ℕ) a b, path[i]? = some a → path[i + 1]? = some b → step a = some b) ∧
    ((∀ y, (step y).isSome) → (stepSystem step x k).isSome) := by
  induction k with
  | zero =>
    refine ⟨?_, fun _ => rfl⟩
    intro path h
    simp only [stepSystem, Option.some.injEq] at h
    subst h
    exact ⟨rfl, rfl, fun i a b _ h2 => by simp at h2⟩
  | succ k ih =>
    constructor
    · intro path h
      simp only [stepSystem, Option.bind_eq_bind, Option.bind_eq_some_iff, Option.some.injEq] at h
      obtain ⟨p, hp, l, hl, y, hy, rfl⟩ := h
      obtain ⟨h1, h2, h3⟩ := ih.1 p hp
      refine ⟨by simp [h1], by rw [List.getElem?_append_left (by omega)]; exact h2, fun i a b ha hb => ?_⟩
      rcases lt_trichotomy (i + 1) p.length with hi | hi | hi
      · rw [List.getElem?_append_left (by omega)] at ha hb
        exact h3 i a b ha hb
      · rw [List.getElem?_append_left (by omega)] at ha
        rw [hi, List.getElem?_concat_length, Option.some.injEq] at hb
        rw [List.getLast?_eq_getElem?, show p.length - 1 = i by omega, ha, Option.some.injEq] at hl
        rw [← hb, hl]
        exact hy
      · rw [List.getElem?_eq_none (by simp; omega)] at hb
        cases hb
    · intro h
      obtain ⟨p, hp⟩ := Option.isSome_iff_exists.1 (ih.2 h)
      have hlen := stepSystem_last hp
      obtain ⟨l, hl⟩ : ∃ l, p.getLast? = some l := by
        rw [List.getLast?_eq_getElem?]
        exact ⟨_, List.getElem?_eq_getElem (by omega)⟩
      obtain ⟨y, hy⟩ := Option.isSome_iff_exists.1 (h l)
      simp [stepSystem, hp, hl, hy]

section

variable {K : Type} [Field K] [LinearOrder K] [IsStrictOrderedRing K]

/-- **C126** (paths of verified systems). When both programs of the Lyapunov function have optima that are not positive, the path which
`step_system` returns approaches the equilibrium exponentially as long as it stays in the box. -/
theorem C126_verified (L : Lyap K) (hL : L.NetOk) {R : Option (Tensor2 K)} {R' : Mat K} {xe : Vec K}
    (h : L.EqOk R R' xe) (lam eps1 eps2 : K) {sys : SysConstr K} {Dom Rel : Vec K → Vec K → Prop}
    (hsys : SysEnc sys L.dim Dom Rel) {m : Mip K} {xv : List ℕ} {D : DerivRet K}
    (hp : L.positivity xe lam eps1 R = some (m, xv)) (hpo : OptNonpos m)
    (hd : L.derivative sys xe lam eps2 .expLower R none none .binary = some D) (hdo : OptNonpos D.m)
    (he : eps2 ≤ 1) {step : Vec K → Option (Vec K)} (hstep : ∀ a b, InBox L.xLo L.xUp a → step a = some b → Dom a b)
    {x : Vec K} {k : ℕ} {path : List (Vec K)} (hpath : stepSystem step x k = some path) (hbox : ∀ a ∈ path, InBox L.xLo L.xUp a)
    (i : ℕ) (a : Vec K) (ha : path[i]? = some a) : eps1 * err R' xe a ≤ (1 - eps2) ^ i * lyapV L.net R' lam xe x := by
  obtain ⟨-, p0, pstep⟩ := (C126_path step x k).1 path hpath
  have hpos := (C32_verdict L hL h lam eps1 hp).1 hpo
  obtain ⟨D', e, -, -, -, s, c⟩ := C33_program L hL h lam eps2 .expLower none none hsys
  rw [e] at hd
  simp only [Option.some.injEq] at hd
  subst hd
  refine (hpos _ (hbox a (List.mem_of_getElem? ha))).trans ?_
  induction i generalizing a with
  | zero =>
    rw [p0, Option.some.injEq] at ha
    subst ha
    simp
  | succ i ih =>
    obtain ⟨hi, -⟩ := List.getElem?_eq_some_iff.1 ha
    have hb : path[i]? = some path[i] := List.getElem?_eq_getElem (by omega)
    have hbb := hbox _ (List.mem_of_getElem? hb)
    obtain ⟨v, hv, e1, e2⟩ := c path[i] a hbb (hbox a (List.mem_of_getElem? ha)) (hstep _ _ hbb (pstep i _ a hb ha)) (by simp [Between])
    have hob := hdo v hv
    rw [(s v hv).2.2.2.2.2.2, e1, e2] at hob
    simp only [decrease] at hob
    have h1 := mul_le_mul_of_nonneg_left (ih _ hb) (sub_nonneg.2 he)
    rw [pow_succ]
    linarith [mul_comm ((1 - eps2) ^ i) (1 - eps2), mul_assoc (1 - eps2) ((1 - eps2) ^ i) (lyapV L.net R' lam xe x)]

end

/-! ## The unicycle -/

/-- **C126** (the unicycle). Its dynamics are Lipschitz for bounded speeds and rest under the control 0, so an exact simulation with any network
controller that starts at the equilibrium stays there. -/
theorem C126_unicycle {c : Controller ℝ} (hc : CtrlOk c 3 2) (xEq : Fin 3 → ℝ) {uLo uUp : Fin 2 → ℝ} (hle : ∀ i, uLo i ≤ 0 ∧ 0 ≤ uUp i)
    (solve : ((Fin 3 → ℝ) → Fin 3 → ℝ) → ℝ → ℝ → (Fin 3 → ℝ) → ℝ → Fin 3 → ℝ) (t0 t1 : ℝ)
    (hs : SolvesIvp (simDyn unicycleDyn c xEq 0 uLo uUp) t0 t1 xEq (solve (simDyn unicycleDyn c xEq 0 uLo uUp) t0 t1 xEq)) :
    LipschitzPlant unicycleDyn uLo uUp (1 + max (-uLo 0) (uUp 0)) ∧
      ∀ r ∈ simulatePlant solve unicycleDyn c t0 t1 xEq 0 uLo uUp xEq, r.2 = xEq := by
  have hV : 0 ≤ max (-uLo 0) (uUp 0) := le_max_of_le_right (hle 0).2
  have hlip : LipschitzPlant unicycleDyn uLo uUp (1 + max (-uLo 0) (uUp 0)) := by
    intro x x' u u' d hd hx hu hu' hud i
    have hv : |u' 0| ≤ max (-uLo 0) (uUp 0) := abs_le.2
      ⟨by have := le_max_left (-uLo 0) (uUp 0); linarith [(hu' 0).1], le_max_of_le_right (hu' 0).2⟩
    have hcos : |Real.cos (x 2) - Real.cos (x' 2)| ≤ d := (Real.abs_cos_sub_cos_le _ _).trans (hx 2)
    have hsin : |Real.sin (x 2) - Real.sin (x' 2)| ≤ d := (Real.abs_sin_sub_sin_le _ _).trans (hx 2)
    have key : ∀ a a' : ℝ, |a| ≤ 1 → |a - a'| ≤ d → |u 0 * a - u' 0 * a'| ≤ (1 + max (-uLo 0) (uUp 0)) * d := by
      intro a a' ha haa
      have e : u 0 * a - u' 0 * a' = (u 0 - u' 0) * a + u' 0 * (a - a') := by ring
      rw [e, add_mul, one_mul]
      refine (abs_add_le _ _).trans (add_le_add ?_ ?_)
      · rw [abs_mul]
        exact (mul_le_of_le_one_right (abs_nonneg _) ha).trans (hud 0)
      · rw [abs_mul]
        exact mul_le_mul hv haa (abs_nonneg _) hV
    fin_cases i
    · exact key _ _ (Real.abs_cos_le_one _) hcos
    · exact key _ _ (Real.abs_sin_le_one _) hsin
    · refine (hud 1).trans ?_
      nlinarith
  refine ⟨hlip, C126_equilibrium hc xEq 0 hle (by positivity) hlip ?_ solve t0 t1 hs⟩
  funext i
  fin_cases i <;> simp [unicycleDyn]

/-! ## Examples -/

/-- A linear controller for the unicycle. -/
def exSimCtrl : Controller ℝ := .lin ⟨3, [[-1, 0, 0], [0, 0, -1]], none⟩

theorem exSimCtrl_ok : CtrlOk exSimCtrl 3 2 := by
  refine ⟨fun N m h => by simp [exSimCtrl] at h, fun l h => ?_, fun x => ?_⟩
  · simp only [exSimCtrl, Controller.lin.injEq] at h
    subst h
    exact ⟨by simp [HasCols], by simp [Lin.b]⟩
  · simp [exSimCtrl, Controller.eval, Lin.eval, Lin.b, matVec, vadd]

/-- The simulation of one second from the equilibrium. -/
example : ∀ r ∈ simulatePlant (fun _ _ _ x0 _ => x0) unicycleDyn exSimCtrl 0 1 0 0 ![-3, -1] ![6, 1] 0, r.2 = 0 := by
  refine (C126_unicycle exSimCtrl_ok 0 (fun i => by fin_cases i <;> norm_num) _ 0 1 ⟨rfl, fun t _ i => ?_⟩).2
  have : simDyn unicycleDyn exSimCtrl 0 0 ![-3, -1] ![6, 1] 0 = 0 := by
    unfold simDyn
    rw [show (fun i : Fin 2 => (simControl exSimCtrl (List.ofFn (0 : Fin 3 → ℝ)) (List.ofFn (0 : Fin 2 → ℝ)) (List.ofFn ![-3, -1])
        (List.ofFn ![6, 1]) (List.ofFn (0 : Fin 3 → ℝ))).getD i 0) = 0 from funext fun i => by
      rw [simControl_getD exSimCtrl_ok, sub_self, zero_add]
      fin_cases i <;> norm_num]
    funext i
    fin_cases i <;> simp [unicycleDyn]
  simp only [this]
  exact hasDerivWithinAt_const _ _ _

/-- The control at `x = (10, 0, 0)` would be `-10` and is cut off at `-3`. -/
example : (simControl exSimCtrl [0, 0, 0] [0, 0] [-3, -1] [6, 1] [10, 0, 0]).getD 0 0 = -3 := by
  norm_num [simControl, exSimCtrl, Controller.eval, Lin.eval, Lin.b, matVec, vadd, vsub, dot, zeros, List.replicate]

/-- Halving three times. -/
example : stepSystem (fun x : ℚ => some (x / 2)) 8 3 = some [8, 4, 2, 1] := by
  norm_num [stepSystem]

/-- The path `1, 1/2, 1/4, 1/8` of the verified system `x⁺ = x / 2`. -/
example : ∀ (i : ℕ) a, [[(1 : ℝ)], [1 / 2], [1 / 4], [1 / 8]][i]? = some a →
    1 / 4 * err (eye 1) [0] a ≤ (1 - 1 / 10) ^ i * lyapV absLyap.net (eye 1) (1 / 2) [0] [1] := by
  obtain ⟨m, xv, D, e, o, e', o'⟩ := abs_programs
  have hpath : stepSystem (fun x : Vec ℝ => some (matVec [[(1 / 2 : ℝ)]] x)) [1] 3 = some [[1], [1 / 2], [1 / 4], [1 / 8]] := by
    norm_num [stepSystem, matVec, dot]
  refine C126_verified absLyap absLyap_ok absEq_ok (1 / 2) (1 / 4) (1 / 10) absSys_enc e o e' o' (by norm_num)
    (fun a b _ h => by simpa using h.symm) hpath fun a ha => ?_
  simp only [List.mem_cons, List.not_mem_nil, or_false] at ha
  rcases ha with rfl | rfl | rfl | rfl <;>
  · refine ⟨rfl, rfl, fun i hi => ?_⟩
    have : i < 1 := hi
    interval_cases i
    norm_num [absLyap]

end NNL.Props
