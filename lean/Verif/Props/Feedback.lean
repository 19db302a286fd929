import Verif.Lemmas.Feedback
import Verif.Props.ReluSystem
import Verif.Props.Hybrid

/-!
# The feedback system: C47, C48
-/

set_option linter.unusedSectionVars false

namespace NNL.Props

open NNL NNL.Spec NNL.Model

variable {K : Type*} [Field K] [LinearOrder K] [IsStrictOrderedRing K]

/-! ## C47 -/

/-- The shapes asserted by the constructor, for `compute_u` alone. -/
structure Feedback.Shaped (S : Feedback K) (k : ℕ) : Prop where
  ueq : S.uEq.length = k
  lower : S.uLower.length = k
  upper : S.uUpper.length = k
  out : ∀ x, (S.ctrl.eval x).length = k

theorem computeU_entry {S : Feedback K} {k : ℕ} (h : Feedback.Shaped S k) (x : Vec K) :
    (S.computeU x).length = k ∧ ∀ i, i < k → (S.computeU x).getD i ⊤ = max (min (Ext.fin
      ((S.ctrl.eval x).getD i 0 - (S.ctrl.eval S.xEq).getD i 0 + S.uEq.getD i 0)) (S.uUpper.getD i ⊤))
        (S.uLower.getD i ⊥) := by
  have lp : (S.preSat x).length = k := by simp [Feedback.preSat, h.out, h.ueq]
  refine ⟨by simp [Feedback.computeU, lp, h.lower, h.upper], fun i hi => ?_⟩
  have : (S.preSat x).getD i 0 = (S.ctrl.eval x).getD i 0 - (S.ctrl.eval S.xEq).getD i 0 + S.uEq.getD i 0 := by
    rw [Feedback.preSat, getD_vadd _ _ _ (by simp [h.out, h.ueq]), getD_vsub _ _ _ (by rw [h.out, h.out])]
  rw [← this]
  simp [Feedback.computeU, List.getD, lp, h.lower, h.upper, hi]

/-- C47. The control lies between the limits (finite or not). -/
theorem C47_limits {S : Feedback K} {k : ℕ} (h : Feedback.Shaped S k) (x : Vec K) (i : ℕ) (hi : i < k)
    (hle : S.uLower.getD i ⊥ ≤ S.uUpper.getD i ⊤) :
    S.uLower.getD i ⊥ ≤ (S.computeU x).getD i ⊤ ∧ (S.computeU x).getD i ⊤ ≤ S.uUpper.getD i ⊤ := by
  rw [(computeU_entry h x).2 i hi]
  exact ⟨le_max_right _ _, max_le (min_le_right _ _) hle⟩

/-- C47. Within the limits the control is `φ(x) - φ(x*) + u*`; above (below) them it is the limit. -/
theorem C47_value {S : Feedback K} {k : ℕ} (h : Feedback.Shaped S k) (x : Vec K) (i : ℕ) (hi : i < k)
    (hle : S.uLower.getD i ⊥ ≤ S.uUpper.getD i ⊤) (p : K)
    (hp : p = (S.ctrl.eval x).getD i 0 - (S.ctrl.eval S.xEq).getD i 0 + S.uEq.getD i 0) :
    (S.uLower.getD i ⊥ ≤ Ext.fin p → Ext.fin p ≤ S.uUpper.getD i ⊤ → (S.computeU x).getD i ⊤ = Ext.fin p) ∧
      (Ext.fin p ≤ S.uLower.getD i ⊥ → (S.computeU x).getD i ⊤ = S.uLower.getD i ⊥) ∧
      (S.uUpper.getD i ⊤ ≤ Ext.fin p → (S.computeU x).getD i ⊤ = S.uUpper.getD i ⊤) := by
  rw [(computeU_entry h x).2 i hi, ← hp]
  refine ⟨fun h1 h2 => ?_, fun h1 => ?_, fun h1 => ?_⟩
  · rw [min_eq_left h2, max_eq_left h1]
  · rw [max_eq_right ((min_le_left _ _).trans h1)]
  · rw [min_eq_right h1, max_eq_left hle]

/-- C47. At the equilibrium the control is `u*`, if this is within the limits. -/
theorem C47_equilibrium {S : Feedback K} {k : ℕ} (h : Feedback.Shaped S k)
    (hu : ∀ i, i < k → S.uLower.getD i ⊥ ≤ Ext.fin (S.uEq.getD i 0) ∧ Ext.fin (S.uEq.getD i 0) ≤ S.uUpper.getD i ⊤) :
    S.computeU S.xEq = S.uEq.map Ext.fin := by
  obtain ⟨l, e⟩ := computeU_entry h S.xEq
  apply List.ext_getElem (by rw [l]; simp [h.ueq])
  intro i h1 h2
  have hi : i < k := by omega
  have := e i hi
  rw [sub_self, zero_add, min_eq_left (hu i hi).2, max_eq_left (hu i hi).1] at this
  have hu' : i < S.uEq.length := by rw [h.ueq]; exact hi
  simpa [List.getD, h1, hu'] using this

/-- C47. A batch of states gives the controls of its rows. -/
theorem C47_batch (S : Feedback K) (X : Mat K) : S.computeUBatch X = X.map S.computeU := rfl

/-- With the documented limits (none, or two finite ones) the control is finite. -/
theorem C47_finite {S : Feedback K} {n k : ℕ} (h : S.Ok n k) (x : Vec K) :
    ∃ u, finVec (S.computeU x) = some u ∧ u.length = k ∧ S.computeU x = u.map Ext.fin := by
  obtain ⟨w, h1, h2, -, h4⟩ := computeU_law h x
  exact ⟨w, h1, h2, h4⟩

/-! ## C48 -/

/-- C48. The constraints of the controller alone: for states in the box, the input is `compute_u`. A network
controller restricts the state to the box. -/
theorem C48_controller {S : Feedback K} {n k : ℕ} (h : S.Ok n k) (m : Mip K) (hw : m.WF) (x u : List ℕ)
    (lx : x.length = n) (lu : u.length = k) (hx : ∀ i ∈ x, i < m.n) (hu : ∀ i ∈ u, i < m.n) :
    ∃ m' s g lo up, S.addCtrl m x u = some (m', s, g, lo, up) ∧
      (∀ y w, InBox S.xLo S.xUp y → finVec (S.computeU y) = some w → InBox lo up w) ∧
      Enc m m' (fun v => InBox S.xLo S.xUp (x.map v) ∧ finVec (S.computeU (x.map v)) = some (u.map v)) fun v =>
        (S.isNet → InBox S.xLo S.xUp (x.map v)) ∧
          (InBox S.xLo S.xUp (x.map v) → finVec (S.computeU (x.map v)) = some (u.map v)) := by
  obtain ⟨m', s, g, lo, up, h1, -, -, h4, h5⟩ := addCtrl_fb h m hw x u lx lu hx hu
  exact ⟨m', s, g, lo, up, h1, h4, h5⟩

/-- The closed loop of a forward system with input bounds `[uLo, uUp]`: the state is in the box, the control is
within the bounds of the forward system, and the successor is that of the forward system. -/
def ClosedLoop (S : Feedback K) (uLo uUp : Vec K) (step : Vec K → Vec K → Vec K) (x y : Vec K) : Prop :=
  InBox S.xLo S.xUp x ∧ ∃ u, finVec (S.computeU x) = some u ∧ InBox uLo uUp u ∧ y = step x u

theorem closed_relu {S : Feedback K} {n k : ℕ} (h : S.Ok n k) {fwd : CtrlConstr K} {uLo uUp : Vec K}
    {step : Vec K → Vec K → Vec K} (l1 : uLo.length = k) (l2 : uUp.length = k)
    (hF : CtrlEnc fwd n k (UsableU uLo uUp) fun aLo aUp x u y =>
      InBox S.xLo S.xUp x ∧ InU uLo uUp aLo aUp u ∧ y = step x u)
    (hx : ∃ x u, InBox S.xLo S.xUp x ∧ finVec (S.computeU x) = some u ∧ InBox uLo uUp u) :
    SysEnc (S.addDynamics fwd) n (ClosedLoop S uLo uUp step) (ClosedLoop S uLo uUp step) := by
  have key := feedback_enc h hF (Rel0 := fun x u y => InBox S.xLo S.xUp x ∧ InBox uLo uUp u ∧ y = step x u)
    (Box := InBox S.xLo S.xUp)
    (by
      intro lo up e1 e2 hb
      refine ⟨fun l hl => ?_, fun l hl => ?_, ?_⟩
      · simp only [Option.some.injEq] at hl
        rw [← hl, e1, l1]
      · simp only [Option.some.injEq] at hl
        rw [← hl, e2, l2]
      · obtain ⟨x, u, hx1, hx2, hx3⟩ := hx
        have := hb x u hx1 hx2
        refine ⟨u, hx3, fun l hl i hi => ?_, fun l hl i hi => ?_⟩
        · simp only [Option.some.injEq] at hl
          rw [← hl]
          exact (this.2.2 i hi).1
        · simp only [Option.some.injEq] at hl
          rw [← hl]
          exact (this.2.2 i hi).2)
    (by
      intro lo up e1 e2 x u y lu
      refine ⟨?_, fun hh => ⟨⟨hh.1, hh.2.1.1, hh.2.2⟩, hh.1⟩⟩
      rintro hb ⟨h1, h2, h3⟩
      refine ⟨h1, ⟨h2, fun l hl i hi => ?_, fun l hl i hi => ?_⟩, h3⟩
      · simp only [Option.some.injEq] at hl
        rw [← hl]
        exact (hb.2.2 i hi).1
      · simp only [Option.some.injEq] at hl
        rw [← hl]
        exact (hb.2.2 i hi).2)
  intro m x xn a1 a2 a3 a4 a5 a6
  obtain ⟨m', s, g, h1, h2⟩ := key m x xn a1 a2 a3 a4 a5 a6
  refine ⟨m', s, g, h1, h2.weaken ?_ ?_⟩
  · rintro v - ⟨b1, u, b2, b3, b4⟩
    exact ⟨b1, u, b2, b1, b3, b4⟩
  · rintro v - ⟨-, b1, b2⟩
    obtain ⟨u, c1, c2, c3, c4⟩ := b2 b1
    exact ⟨b1, u, c1, c3, c4⟩

/-- C48. Forward system `ReLUSystem`, any controller: the constraints are exactly the closed loop (for states whose
control is within the input bounds of the forward system, see `C48_input_bounds_counterexample`). -/
theorem C48_relu {S : Feedback K} {F : CtrlRelu K} {n k : ℕ} (h : S.Ok n k) (hF : CtrlRelu.Ok F n k)
    (hh : F.net.hidden ≠ []) (e1 : S.xLo = F.xLo) (e2 : S.xUp = F.xUp)
    (hx : ∃ x u, InBox S.xLo S.xUp x ∧ finVec (S.computeU x) = some u ∧ InBox F.uLo F.uUp u) :
    SysEnc (S.addDynamics (addCtrl F.uLo F.uUp F.mic)) n (ClosedLoop S F.uLo F.uUp F.step)
      (ClosedLoop S F.uLo F.uUp F.step) :=
  closed_relu h hF.ulo hF.uup (by rw [e1, e2]; exact C50_controlled hF hh) hx

/-- C48. Forward system `ReLUSystemGivenEquilibrium`. -/
theorem C48_relu_equilibrium {S : Feedback K} {F : CtrlRelu K} {n k : ℕ} (h : S.Ok n k) (hF : CtrlRelu.Ok F n k)
    (hh : F.net.hidden ≠ []) (e1 : S.xLo = F.xLo) (e2 : S.xUp = F.xUp)
    (hx : ∃ x u, InBox S.xLo S.xUp x ∧ finVec (S.computeU x) = some u ∧ InBox F.uLo F.uUp u) :
    SysEnc (S.addDynamics (addCtrl F.uLo F.uUp F.micEq)) n (ClosedLoop S F.uLo F.uUp F.stepEq)
      (ClosedLoop S F.uLo F.uUp F.stepEq) :=
  closed_relu h hF.ulo hF.uup (by rw [e1, e2]; exact C50_controlled_equilibrium hF hh) hx

/-- C48. Forward system `ReLUSecondOrderSystemGivenEquilibrium`. -/
theorem C48_second_order {S : Feedback K} {F : SecondRelu K} {n k : ℕ} (h : S.Ok (n + n) k)
    (hF : SecondRelu.Ok F n k) (hn : F.net.Ok (n + n + k)) (hh : F.net.hidden ≠ []) (e1 : S.xLo = F.xLo)
    (e2 : S.xUp = F.xUp)
    (hx : ∃ x u, InBox S.xLo S.xUp x ∧ finVec (S.computeU x) = some u ∧ InBox F.uLo F.uUp u) :
    SysEnc (S.addDynamics (addCtrl F.uLo F.uUp F.mic)) (n + n) (ClosedLoop S F.uLo F.uUp F.step)
      (ClosedLoop S F.uLo F.uUp F.step) :=
  closed_relu h hF.ulo hF.uup (by rw [e1, e2]; exact C50_second_order hF hn hh) hx

/-- C48. Forward system `ReLUSecondOrderResidueSystemGivenEquilibrium`. This system restricts only some of the state
coordinates, so that with a linear controller the statement is about the states in the box only. -/
theorem C48_residue {S : Feedback K} {F : SecondRelu K} {n k : ℕ} (h : S.Ok (n + n) k) (hF : SecondRelu.Ok F n k)
    (hn : F.net.Ok (F.idx.length + k)) (hi : ∀ i ∈ F.idx, i < n + n) (hh : F.net.hidden ≠ []) (hm : F.method = .ia)
    (e1 : S.xLo = F.xLo) (e2 : S.xUp = F.xUp)
    (hx : ∃ x u, InBox S.xLo S.xUp x ∧ finVec (S.computeU x) = some u ∧ InBox F.uLo F.uUp u) :
    SysEnc (S.addDynamics F.addResidue) (n + n)
      (fun x y => InBox S.xLo S.xUp x ∧ ∃ u, finVec (S.computeU x) = some u ∧ InBox F.uLo F.uUp u ∧
        F.stepRes x u = some y)
      fun x y => (S.isNet → InBox S.xLo S.xUp x) ∧ (InBox S.xLo S.xUp x → ∃ u, finVec (S.computeU x) = some u ∧
        InBox F.uLo F.uUp u ∧ F.stepRes x u = some y) := by
  have key := feedback_enc h (C50_residue hF hn hi hh hm)
    (Rel0 := fun x u y => (∀ i ∈ F.idx, F.xLo.getD i 0 ≤ x.getD i 0 ∧ x.getD i 0 ≤ F.xUp.getD i 0) ∧
      InBox F.uLo F.uUp u ∧ F.stepRes x u = some y)
    (Box := fun _ => True)
    (by
      intro lo up e1 e2 hb
      refine ⟨fun l hl => ?_, fun l hl => ?_, ?_⟩
      · simp only [Option.some.injEq] at hl
        rw [← hl, e1, hF.ulo]
      · simp only [Option.some.injEq] at hl
        rw [← hl, e2, hF.uup]
      · obtain ⟨x, u, hx1, hx2, hx3⟩ := hx
        have := hb x u hx1 hx2
        refine ⟨u, hx3, fun l hl i hi => ?_, fun l hl i hi => ?_⟩
        · simp only [Option.some.injEq] at hl
          rw [← hl]
          exact (this.2.2 i hi).1
        · simp only [Option.some.injEq] at hl
          rw [← hl]
          exact (this.2.2 i hi).2)
    (by
      intro lo up e1 e2 x u y lu
      refine ⟨?_, fun hh => ⟨⟨hh.1, hh.2.1.1, hh.2.2⟩, trivial⟩⟩
      rintro hb ⟨h1, h2, h3⟩
      refine ⟨h1, ⟨h2, fun l hl i hi => ?_, fun l hl i hi => ?_⟩, h3⟩
      · simp only [Option.some.injEq] at hl
        rw [← hl]
        exact (hb.2.2 i hi).1
      · simp only [Option.some.injEq] at hl
        rw [← hl]
        exact (hb.2.2 i hi).2)
  intro m x xn a1 a2 a3 a4 a5 a6
  obtain ⟨m', s, g, h1, h2⟩ := key m x xn a1 a2 a3 a4 a5 a6
  refine ⟨m', s, g, h1, h2.weaken ?_ ?_⟩
  · rintro v - ⟨b1, u, b2, b3, b4⟩
    refine ⟨b1, u, b2, fun i hi' => ?_, b3, b4⟩
    rw [← e1, ← e2]
    refine b1.2.2 i ?_
    rw [b1.1, h.lo]
    exact hi i hi'
  · rintro v - ⟨b0, -, b2⟩
    refine ⟨b0, fun b1 => ?_⟩
    obtain ⟨u, c1, c2, c3, c4⟩ := b2 b1
    exact ⟨u, c1, c3, c4⟩

/-- When the limits are within the input bounds of the forward system, every state of the box has its successor in the
constraints: the closed loop is `step_forward` of the feedback system. -/
theorem C48_all_states {S : Feedback K} {n k : ℕ} (h : S.Ok n k) {uLo uUp : Vec K} (l1 : uLo.length = k)
    (l2 : uUp.length = k)
    (hl : ∀ i, i < k → Ext.fin (uLo.getD i 0) ≤ S.uLower.getD i ⊥ ∧ S.uUpper.getD i ⊤ ≤ Ext.fin (uUp.getD i 0))
    (step : Vec K → Vec K → Vec K) (x y : Vec K) :
    (ClosedLoop S uLo uUp step x y ↔ InBox S.xLo S.xUp x ∧ S.stepForward step x = some y) ∧
      (InBox S.xLo S.xUp x → ∃ y, ClosedLoop S uLo uUp step x y) := by
  obtain ⟨w, h1, h2, h3, h4⟩ := computeU_law h x
  have hb : InBox uLo uUp w := by
    refine ⟨by omega, by omega, fun i hi => ?_⟩
    have q := sat_limits (h.limits i (by omega)) (h3 i (by omega))
    have r := hl i (by omega)
    exact ⟨(fin_le_fin _ _).1 (r.1.trans q.1), (fin_le_fin _ _).1 (q.2.trans r.2)⟩
  refine ⟨?_, fun hx => ⟨step x w, hx, w, h1, hb, rfl⟩⟩
  unfold ClosedLoop Feedback.stepForward
  rw [h1]
  simp only [Option.bind_eq_bind, Option.bind_some, Option.some.injEq]
  constructor
  · rintro ⟨hx, u, rfl, -, rfl⟩
    exact ⟨hx, rfl⟩
  · rintro ⟨hx, rfl⟩
    exact ⟨hx, w, rfl, hb, rfl⟩

/-- The state of a transition of the hybrid system is within its recorded bounds. -/
theorem hstep_box {lp : LpSolver K} (ht : lp.Truthful) {n k : ℕ} {F : Hybrid K} (hB : Built lp n k F) {lo up : Vec K}
    (e1 : F.loAll.take n = lo.map Ext.fin) (e2 : F.upAll.take n = up.map Ext.fin) {x u y : Vec K} (hx : x.length = n)
    (hu : u.length = k) (h : HStep F.modes x u y) : InBox lo up x := by
  have R := C44_recorded ht hB
  have l1 : lo.length = n := by simpa [R.lenLo] using (congrArg List.length e1).symm
  have l2 : up.length = n := by simpa [R.lenUp] using (congrArg List.length e2).symm
  obtain ⟨md, hmd, hh, -⟩ := h
  refine ⟨by omega, by omega, fun i hi => ?_⟩
  have hin : i < n := by omega
  have mem : x.getD i 0 ∈ coords F.modes (n + k) i :=
    ⟨md, hmd, x ++ u, by simp [hx, hu], hh, by simp [List.getD, List.getElem?_append, hi]⟩
  have g1 : F.loAll.getD i ⊤ = Ext.fin (lo.getD i 0) := by
    have := congrArg (fun l => l.getD i ⊤) e1
    simpa [List.getD, hin, l1, R.lenLo, show i < n + k by omega] using this
  have g2 : F.upAll.getD i ⊥ = Ext.fin (up.getD i 0) := by
    have := congrArg (fun l => l.getD i ⊥) e2
    simpa [List.getD, hin, l2, R.lenUp, show i < n + k by omega] using this
  have b1 := (R.inf i (by omega)).1.1 ⟨_, mem, rfl⟩
  have b2 := (R.sup i (by omega)).1.1 ⟨_, mem, rfl⟩
  rw [g1] at b1
  rw [g2] at b2
  exact ⟨(fin_le_fin _ _).1 b1, (fin_le_fin _ _).1 b2⟩

/-- C48. Forward system `HybridLinearSystem` (bounded modes): the constraints are exactly the closed loop. -/
theorem C48_hybrid {lp : LpSolver K} (ht : lp.Truthful) {S : Feedback K} {F : Hybrid K} {n k : ℕ} (h : S.Ok n k)
    (hB : Built lp n k F) (hc : (F.mic none none none none).isSome) (e1 : F.loAll.take n = S.xLo.map Ext.fin)
    (e2 : F.upAll.take n = S.xUp.map Ext.fin) :
    SysEnc (S.addDynamics F.asForward) n
      (fun x y => ∃ u, finVec (S.computeU x) = some u ∧ HStep F.modes x u y)
      fun x y => ∃ u, finVec (S.computeU x) = some u ∧ HStep F.modes x u y := by
  have hF : CtrlEnc F.asForward n k (fun _ _ => True) fun _ _ x u y => x.length = n ∧ HStep F.modes x u y := by
    intro m x xn u aLo aUp a1 a2 a3 a4 a5 a6 a7 _
    obtain ⟨m', s, g, h1, -, -, h2⟩ := C42_dynamics ht hB hc m a1 x xn u a2 a3 a4 a5 a6 a7
    exact ⟨m', s, g, h1, h2.weaken (fun v _ hh => hh.2) fun v _ hh => ⟨by simpa using a2, hh.1⟩⟩
  have key := feedback_enc h hF (Rel0 := fun x u y => x.length = n ∧ HStep F.modes x u y)
    (Box := InBox S.xLo S.xUp) (fun _ _ _ _ _ => trivial)
    (fun lo up _ _ x u y lu => ⟨fun _ hh => hh, fun hh => ⟨hh, hstep_box ht hB e1 e2 hh.1 lu hh.2⟩⟩)
  intro m x xn a1 a2 a3 a4 a5 a6
  obtain ⟨m', s, g, h1, h2⟩ := key m x xn a1 a2 a3 a4 a5 a6
  refine ⟨m', s, g, h1, h2.weaken ?_ ?_⟩
  · rintro v - ⟨u, b2, b3⟩
    have lx : (x.map v).length = n := by simpa using a2
    obtain ⟨w, c1, c2, -⟩ := computeU_law h (x.map v)
    have : w = u := by rw [c1] at b2; simpa using b2
    subst this
    exact ⟨hstep_box ht hB e1 e2 lx c2 b3, w, b2, lx, b3⟩
  · rintro v - ⟨-, b1, b2⟩
    obtain ⟨u, c1, -, c3⟩ := b2 b1
    exact ⟨u, c1, c3⟩

/-! ## Examples -/

/-- `u = min(max(φ(x) - φ(1/4), -1/4), 1/4)` with a network `φ`. -/
def exFbNet : Feedback ℚ :=
  ⟨.net ⟨[(⟨1, [[1], [-1]], some [0, 1]⟩, .relu), (⟨2, [[1, -1]], none⟩, .leaky (1 / 10))], ⟨1, [[2]], some [1]⟩⟩ .ia,
    [-1], [1], 1, [1 / 4], [0], [Ext.fin (-1 / 4)], [Ext.fin (1 / 4)]⟩

/-- `u = min(max(3 (x - 1/4), -2), 2)`. -/
def exFbLin : Feedback ℚ :=
  ⟨.lin ⟨1, [[3]], some [1]⟩, [-1], [1], 1, [1 / 4], [0], [Ext.fin (-2)], [Ext.fin 2]⟩

theorem exFbNet_ok : exFbNet.Ok 1 1 := by
  refine ⟨rfl, rfl, fun i hi => ?_, rfl, rfl, rfl, rfl, rfl, fun i hi => ?_, fun x => ?_, fun N me hN => ?_,
    fun l hl => by simp [exFbNet] at hl⟩
  · have : i = 0 := by omega
    subst this
    norm_num [exFbNet]
  · have : i = 0 := by omega
    subst this
    exact Or.inr ⟨-1 / 4, 1 / 4, rfl, rfl, by norm_num⟩
  · simp [exFbNet, Controller.eval, Net.eval, Lin.eval, Lin.b, matVec]
  · simp only [exFbNet, Controller.net.injEq] at hN
    obtain ⟨rfl, rfl⟩ := hN
    refine ⟨by simp [Net.Ok, HidOk, Lin.Ok, HasCols, Lin.b, zeros], rfl, trivial, ?_⟩
    refine (C12_accepts ⟨[(⟨1, [[1], [-1]], some [0, 1]⟩, .relu), (⟨2, [[1, -1]], none⟩, .leaky (1 / 10))],
      ⟨1, [[2]], some [1]⟩⟩ 1 exFbNet.xLo exFbNet.xUp (by simp [Net.Ok, HidOk, Lin.Ok, HasCols, Lin.b, zeros]) rfl rfl
      fun i hi => ?_).2 (by simp)
    have : i = 0 := by omega
    subst this
    norm_num [exFbNet]

theorem exFbLin_ok : exFbLin.Ok 1 1 := by
  refine ⟨rfl, rfl, fun i hi => ?_, rfl, rfl, rfl, rfl, rfl, fun i hi => ?_, fun x => ?_,
    fun N me hN => by simp [exFbLin] at hN, fun l hl => ?_⟩
  · have : i = 0 := by omega
    subst this
    norm_num [exFbLin]
  · have : i = 0 := by omega
    subst this
    exact Or.inr ⟨-2, 2, rfl, rfl, by norm_num⟩
  · simp [exFbLin, Controller.eval, Lin.eval, Lin.b, matVec]
  · simp only [exFbLin, Controller.lin.injEq] at hl
    subst hl
    exact ⟨by simp [Lin.Ok, HasCols, Lin.b], rfl, rfl⟩

theorem exFbLin_u (a : ℚ) : finVec (exFbLin.computeU [a]) = some [max (min (3 * (a - 1 / 4)) 2) (-2)] := by
  have e : exFbLin.preSat [a] = [3 * (a - 1 / 4)] := by
    simp [Feedback.preSat, exFbLin, Controller.eval, Lin.eval, Lin.b, matVec, vadd, vsub, dot]
    ring
  rw [Feedback.computeU, e]
  simp only [exFbLin, List.map_cons, List.map_nil, List.zipWith_cons_cons, List.zipWith_nil_left, Props.fin_min,
    Props.fin_max]
  rfl

theorem box1 {a : ℚ} (h1 : -1 ≤ a) (h2 : a ≤ 1) : InBox [-1] [1] [a] :=
  ⟨rfl, rfl, fun i hi => by
    have : i = 0 := by simpa using hi
    subst this
    exact ⟨h1, h2⟩⟩

theorem exFb_relu : SysEnc (exFbLin.addDynamics (addCtrl exCtrl.uLo exCtrl.uUp exCtrl.mic)) 1
    (ClosedLoop exFbLin exCtrl.uLo exCtrl.uUp exCtrl.step) (ClosedLoop exFbLin exCtrl.uLo exCtrl.uUp exCtrl.step) := by
  refine C48_relu exFbLin_ok exCtrl_ok (by simp [exCtrl, exNet]) rfl rfl ⟨[1 / 4], [0], box1 (by norm_num) (by norm_num),
    ?_, box1 (by norm_num) (by norm_num)⟩
  rw [exFbLin_u]
  norm_num

/-- The limits of `exFbNet` are within the bounds of the forward system: C48 holds for all states of the box. -/
example (x : Vec ℚ) (hx : InBox [-1] [1] x) : ∃ y, ClosedLoop exFbNet exCtrl.uLo exCtrl.uUp exCtrl.step x y :=
  (C48_all_states exFbNet_ok rfl rfl (fun i hi => by
    have : i = 0 := by omega
    subst this
    exact ⟨(fin_le_fin _ _).2 (by norm_num [exCtrl]), (fin_le_fin _ _).2 (by norm_num [exCtrl])⟩) _ x []).2 hx

/-- C47 for a network controller: the saturation is active at `1` and inactive at the equilibrium. -/
example : Feedback.Shaped exFbNet 1 := ⟨rfl, rfl, rfl, exFbNet_ok.out⟩

example : exFbNet.computeU [-1] = [Ext.fin (-1 / 4)] ∧ exFbNet.computeU [1 / 4] = [Ext.fin 0] ∧
    exFbNet.computeU [3 / 8] = [Ext.fin (1 / 20)] := by
  refine ⟨?_, ?_, ?_⟩ <;>
    norm_num [Feedback.computeU, Feedback.preSat, exFbNet, Controller.eval, Net.eval, hiddenOut, Lin.eval, Lin.b, matVec,
      vadd, vsub, dot, Act.f, relu, leaky, zeros, Props.fin_min, Props.fin_max]

/-- Finding. If the limits are wider than the input bounds of the forward system, the constraints exclude the states
whose control is between the two: here `x = 1` is in the box and `step_forward` returns a successor, but no feasible
point of the program has the state `1`. A verification problem built on these constraints ignores such states. -/
theorem C48_input_bounds_counterexample :
    InBox exFbLin.xLo exFbLin.xUp [1] ∧ (exFbLin.stepForward exCtrl.step [1]).isSome ∧
      ∀ (m : Mip ℚ) (x xn : ℕ), m.WF → x ≠ xn → x < m.n → xn < m.n → ∃ m' s g,
        exFbLin.addDynamics (addCtrl exCtrl.uLo exCtrl.uUp exCtrl.mic) .binary m [x] [xn] = some (m', s, g) ∧
        ∀ v, m'.Feas v → v x ≠ 1 := by
  refine ⟨box1 (by norm_num) (by norm_num), ?_, fun m x xn hw hne hx hxn => ?_⟩
  · rw [Feedback.stepForward, exFbLin_u]
    rfl
  · obtain ⟨m', s, g, h1, h2⟩ := exFb_relu m [x] [xn] hw rfl rfl (by simpa using hne) (by simpa using hx) (by simpa using hxn)
    refine ⟨m', s, g, h1, fun v hv e => ?_⟩
    obtain ⟨-, u, h3, h4, -⟩ := (h2.sound v hv).2
    simp only [List.map_cons, List.map_nil, e] at h3
    rw [exFbLin_u] at h3
    norm_num at h3
    subst h3
    have := (h4.2.2 0 (by simp)).2
    norm_num [exCtrl] at this

/-- `x⁺ = x/2 + u/4` on `[-1, 1]²`. -/
def exSquare : HMode ℚ := ⟨[[1/2]], [[1/4]], [0], [[1, 0], [-1, 0], [0, 1], [0, -1]], [1, 1, 1, 1]⟩

theorem mem_square (a b v : ℚ) : v ∈ polyValues 2 exSquare.P exSquare.q [a, b] ↔
    ∃ x y, -1 ≤ x ∧ x ≤ 1 ∧ -1 ≤ y ∧ y ≤ 1 ∧ a * x + b * y = v := by
  constructor
  · rintro ⟨w, hw, hP, rfl⟩
    obtain ⟨x, y, rfl⟩ := List.length_eq_two.1 hw
    have h1 := hP 0 (by simp [exSquare])
    have h2 := hP 1 (by simp [exSquare])
    have h3 := hP 2 (by simp [exSquare])
    have h4 := hP 3 (by simp [exSquare])
    simp [dot, exSquare] at h1 h2 h3 h4
    exact ⟨x, y, by linarith, h1, by linarith, h3, by simp [dot]⟩
  · rintro ⟨x, y, h1, h2, h3, h4, rfl⟩
    refine ⟨[x, y], rfl, ?_, by simp [dot]⟩
    intro i hi
    have hi : i < 4 := by simpa [exSquare] using hi
    interval_cases i <;> simp [exSquare, dot] <;> linarith

def exSquareSys : Hybrid ℚ where
  xdim := 1
  udim := 1
  modes := [exSquare]
  los := [[Ext.fin (-1), Ext.fin (-1)]]
  ups := [[Ext.fin 1, Ext.fin 1]]
  loAll := [Ext.fin (-1), Ext.fin (-1)]
  upAll := [Ext.fin 1, Ext.fin 1]

theorem exSquare_built : Built exactLp 1 1 exSquareSys := by
  have ok : exSquare.Ok 1 1 := by decide
  have e1 : eye (1 + 1) = ([[1, 0], [0, 1]] : Mat ℚ) := by simp [eye, eyeRow, List.range_succ]
  have b1 : lpBounds exactLp (1 + 1) exSquare.P exSquare.q [1, 0] = some (Ext.fin (-1), Ext.fin 1) := by
    refine exactLp_bounds ⟨(mem_square 1 0 _).2 ⟨-1, 0, by norm_num⟩, fun v hv => ?_⟩
      ⟨(mem_square 1 0 _).2 ⟨1, 0, by norm_num⟩, fun v hv => ?_⟩
    all_goals
      obtain ⟨x, y, h⟩ := (mem_square 1 0 v).1 hv
      linarith [h.1, h.2.1, h.2.2.2.2]
  have b2 : lpBounds exactLp (1 + 1) exSquare.P exSquare.q [0, 1] = some (Ext.fin (-1), Ext.fin 1) := by
    refine exactLp_bounds ⟨(mem_square 0 1 _).2 ⟨0, -1, by norm_num⟩, fun v hv => ?_⟩
      ⟨(mem_square 0 1 _).2 ⟨0, 1, by norm_num⟩, fun v hv => ?_⟩
    all_goals
      obtain ⟨x, y, h⟩ := (mem_square 0 1 v).1 hv
      linarith [h.2.2.1, h.2.2.2.1, h.2.2.2.2]
  refine Built.add (md := exSquare) Built.new ?_
  rw [Hybrid.addMode, if_pos ok]
  simp only [e1]
  simp only [boundsOf, b1, b2, Option.bind_eq_bind, Option.bind_some]
  rfl

/-- C48 for a hybrid linear forward system: the hypotheses are met. -/
theorem exFb_hybrid : SysEnc (exFbLin.addDynamics exSquareSys.asForward) 1
    (fun x y => ∃ u, finVec (exFbLin.computeU x) = some u ∧ HStep exSquareSys.modes x u y)
    fun x y => ∃ u, finVec (exFbLin.computeU x) = some u ∧ HStep exSquareSys.modes x u y :=
  C48_hybrid exactLp_truthful exFbLin_ok exSquare_built (by decide) rfl rfl

end NNL.Props
