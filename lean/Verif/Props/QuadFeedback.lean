import Verif.Model.QuadFeedback
import Verif.Lemmas.Loose
import Verif.Props.Feedback
import Verif.Props.ExampleSystems3

/-!
# C105: the closed loop of the quadrotor with the controller in the bounding programs
-/

set_option linter.unusedSectionVars false

namespace NNL.Props

open NNL NNL.Spec NNL.Model

variable {K : Type*} [Field K] [LinearOrder K] [IsStrictOrderedRing K]

/-- What the solver is trusted for when the program starts with the program `p.1` and the network input is the variables `p.2`
(relu_to_optimization.py 452-516, status OPTIMAL): the two reported values bound the objective at every feasible point. -/
def ProgValid (relaxed : Bool) (net : Net K) (p : Mip K × List ℕ) (lo up : Vec K) (opt : Opt K) : Prop :=
  ∀ done preLo preUp l j v zs bs out, LayerAt net done l → j < l.W.length → p.1.Feas v → InBox lo up (p.2.map v) →
    ProgLayers relaxed done (p.2.map v) zs bs preLo preUp out →
    (opt done preLo preUp l j).1 ≤ dot (l.W.getD j []) out + l.b.getD j 0 ∧
    dot (l.W.getD j []) out + l.b.getD j 0 ≤ (opt done preLo preUp l j).2

/-- The solver is right about the programs it is given: those of `create_prog_callback`, with the bounds of the input that the
controller program returns. -/
def QuadSolver (S : Feedback K) (F : ExSys K) (N : Net K) (method : Method K) (lp : Bool)
    (cb : Mip K × List ℕ → Vec K → Vec K → Opt K) : Prop :=
  ∃ relaxed, ∀ c p m x u m' s g a b, S.ctrlCons N method = some c →
    S.addNetCtrlGiven N c.1 c.2.1 c.2.2 m x u = some (m', s, g, a, b) →
    S.quadProg F N c (List.zipWith max F.uLo a) (List.zipWith min F.uUp b) lp = some p →
    ProgValid relaxed F.net p (quadIn F.xLo (List.zipWith max F.uLo a)) (quadIn F.xUp (List.zipWith min F.uUp b))
      (cb p (quadIn F.xLo (List.zipWith max F.uLo a)) (quadIn F.xUp (List.zipWith min F.uUp b)))

theorem inBox_pt {z y : Vec K} (h : InBox z z y) : y = z :=
  vec_ext h.1 fun i hi => le_antisymm (h.2.2 i hi).2 (h.2.2 i hi).1

theorem inBox_self (z : Vec K) : InBox z z z := ⟨rfl, rfl, fun _ _ => ⟨le_rfl, le_rfl⟩⟩

theorem ctrlCons_of {S : Feedback K} {N : Net K} {method : Method K} {r : ReluMIC K}
    (hr : outputConstraint N S.xLo.length S.xLo S.xUp method = some r) :
    S.ctrlCons N method = some (r.mic, r.nnOutputLo, r.nnOutputUp) := by
  obtain ⟨h1, h2, h3, -⟩ := outputConstraint_some hr
  unfold Feedback.ctrlCons
  simp only [Option.bind_eq_bind, h1, Option.bind_some, h2, h3]

/-- The controller program with the constraints of `ctrlCons`. -/
theorem given_of_addCtrl {S : Feedback K} {N : Net K} {method : Method K} (hc : S.ctrl = .net N method) {r : ReluMIC K}
    (hr : outputConstraint N S.xLo.length S.xLo S.xUp method = some r) (m : Mip K) (x u : List ℕ) :
    S.addNetCtrlGiven N r.mic r.nnOutputLo r.nnOutputUp m x u = S.addCtrl m x u := by
  unfold Feedback.addCtrl
  rw [hc]
  simp only
  unfold Feedback.addNetCtrl
  simp only [Option.bind_eq_bind, hr, Option.bind_some]

theorem newOk_box {lo up y : Vec K} (h : InBox lo up y) :
    NewOk .continuous (lo.map some) (up.map some) y := by
  intro k hk
  have h1 := h.1
  have h2 := h.2.1
  have hb := h.2.2 k
  have k1 : k < lo.length := by omega
  have k2 : k < up.length := by omega
  simp only [List.getD_eq_getElem?_getD, List.getElem?_map, List.getElem?_eq_getElem k1, List.getElem?_eq_getElem k2,
    Option.map_some, Option.getD_some, newGVar, GVar.Ok] at hb ⊢
  obtain ⟨q1, q2⟩ := hb (by omega)
  refine ⟨fun l hl => ?_, fun l hl => ?_, by simp⟩
  · cases hl; simpa using q1
  · cases hl; simpa using q2

/-- The program of `create_prog_callback` can be created, and contains all states of the box with their control. -/
theorem quadProg_holds {S : Feedback K} {F : ExSys K} (h : S.Ok 12 4) (e1 : S.xLo = F.xLo) (e2 : S.xUp = F.xUp) {N : Net K}
    {method : Method K} (hc : S.ctrl = .net N method) {r : ReluMIC K}
    (hr : outputConstraint N S.xLo.length S.xLo S.xUp method = some r) {lo up : Vec K} (l1 : lo.length = 4)
    (l2 : up.length = 4) (lp : Bool) :
    ∃ p, S.quadProg F N (r.mic, r.nnOutputLo, r.nnOutputUp) lo up lp = some p ∧
      ∀ x u, InBox S.xLo S.xUp x → finVec (S.computeU x) = some u → InBox lo up u →
        ∃ v, p.1.Feas v ∧ p.2.map v = quadIn x u := by
  obtain ⟨m1, hm1⟩ := addVars_isSome (Mip.empty : Mip K) (num := 12) (lb := F.xLo.map some) (ub := F.xUp.map some)
    (vt := .continuous) (by simp [← e1, h.lo]) (by simp [← e2, h.up]) (by simp)
  have w1 := addVars_wf hm1 Mip.WF.empty
  obtain ⟨m2, hm2⟩ := addVars_isSome m1 (num := 4) (lb := lo.map some) (ub := up.map some)
    (vt := .continuous) (by simp [l1]) (by simp [l2]) (by simp)
  have w2 := addVars_wf hm2 w1
  have n1 : m1.n = 12 := by rw [addVars_n hm1]; rfl
  have n2 : m2.n = 16 := by rw [addVars_n hm2, n1]
  have n0 : (Mip.empty : Mip K).n = 0 := rfl
  rw [n0] at hm1
  rw [n1] at hm2
  have hx : ∀ i ∈ List.range' 0 12, i < m2.n := fun i hi => by
    have := (List.mem_range'_1.1 hi).2
    omega
  have hu : ∀ i ∈ List.range' 12 4, i < m2.n := fun i hi => by
    have := (List.mem_range'_1.1 hi).2
    omega
  obtain ⟨m3, s, g, a, b, hm3, -, -, -, e3⟩ := addCtrl_fb h m2 w2 (List.range' 0 12) (List.range' 12 4) (by simp) (by simp)
    hx hu
  rw [← given_of_addCtrl hc hr] at hm3
  obtain ⟨m4, hm4, lo4⟩ := loose_addNetCtrl S N r.mic r.nnOutputLo r.nnOutputUp (Loose.refl w2) (List.range' 0 12)
    (List.range' 12 4) (t := .binary) (t' := if lp then .continuous else .binary) (by cases lp <;> simp) hx _ _ hm3
  refine ⟨(m4, seg (List.range' 0 12) 3 6 ++ seg (List.range' 0 12) 9 12 ++ List.range' 12 4), ?_, fun y w hy hw hb => ?_⟩
  · unfold Feedback.quadProg
    simp only [Option.bind_eq_bind, hm1, Option.bind_some, hm2, hm4]
  · have ly : y.length = 12 := by rw [hy.1, h.lo]
    have lw : w.length = 4 := by rw [hb.1, l1]
    have q1 : (List.range' 0 12).map (upd (upd (fun _ => 0) 0 y) 12 w) = y := by
      rw [map_upd_lt _ _ _ _ (fun i hi => by have := (List.mem_range'_1.1 hi).2; omega)]
      exact map_upd _ _ _ _ ly
    have q2 : (List.range' 12 4).map (upd (upd (fun _ => 0) 0 y) 12 w) = w := map_upd _ _ _ _ lw
    obtain ⟨v, f1, f2⟩ := e3.complete (upd (upd (fun _ => 0) 0 y) 12 w)
      ((addVars_feas hm2 _).2 ⟨(addVars_feas hm1 _).2 ⟨feas_empty _, by
        rw [q1, ← e1, ← e2]; exact newOk_box hy⟩, by rw [q2]; exact newOk_box hb⟩)
      (by rw [q1, q2]; exact ⟨hy, hw⟩)
    refine ⟨v, lo4.feas v f2, ?_⟩
    have r1 : (List.range' 0 12).map v = y := by
      rw [← q1]; exact List.map_congr_left fun i hi => f1 i (hx i hi)
    have r2 : (List.range' 12 4).map v = w := by
      rw [← q2]; exact List.map_congr_left fun i hi => f1 i (hu i hi)
    rw [List.map_append, List.map_append, map_seg, map_seg, r1, r2]
    rfl

/-- Bounds of a solver that is right about the program hold at the points of the program. -/
theorem joint_bounds {relaxed : Bool} {net : Net K} {n : ℕ} {p : Mip K × List ℕ} {lo up : Vec K} {opt : Opt K}
    (hv : ProgValid relaxed net p lo up opt) (hok : net.Ok n) {B : LayerBounds K}
    (hB : layerBound (.opt opt false) net.hidden lo up = some B) {v : ℕ → K} (hf : p.1.Feas v)
    (hb : InBox lo up (p.2.map v)) : InBox B.preLo B.preUp (preacts net.hidden (p.2.map v)).flatten := by
  have ho : OptValid relaxed net (p.2.map v) (p.2.map v) opt := by
    intro done preLo preUp l j x zs bs out h1 h2 h3 h4
    rw [inBox_pt h3] at h4
    exact hv done preLo preUp l j v zs bs out h1 h2 hf hb h4
  exact (layerBoundOpt_sound ho (k := n) (inBox_self _) net.hidden [] n _ _ _ rfl hB rfl hok.1 inBox_nil inBox_nil hb).1

/-- The inputs that the controller returns bounds for leave those of the closed loop. -/
theorem usable_fb {S : Feedback K} {F : ExSys K} (hF : ExOk F 12 4 10 9) {lo up : Vec K} (l1 : lo.length = 4)
    (l2 : up.length = 4)
    (hb : ∀ y w, InBox S.xLo S.xUp y → finVec (S.computeU y) = some w → InBox lo up w)
    (hx : ∃ x u, InBox S.xLo S.xUp x ∧ finVec (S.computeU x) = some u ∧ InBox F.uLo F.uUp u) :
    UsableU F.uLo F.uUp (some lo) (some up) := by
  refine ⟨fun l hl => ?_, fun l hl => ?_, ?_⟩
  · simp only [Option.some.injEq] at hl
    rw [← hl, l1, hF.ulo]
  · simp only [Option.some.injEq] at hl
    rw [← hl, l2, hF.uup]
  · obtain ⟨x, u, hx1, hx2, hx3⟩ := hx
    have := hb x u hx1 hx2
    refine ⟨u, hx3, fun l hl i hi => ?_, fun l hl i hi => ?_⟩
    · simp only [Option.some.injEq] at hl
      rw [← hl]
      exact (this.2.2 i hi).1
    · simp only [Option.some.injEq] at hl
      rw [← hl]
      exact (this.2.2 i hi).2

theorem inU_of {uLo uUp lo up u : Vec K} (h1 : InBox uLo uUp u) (h2 : InBox lo up u) : InU uLo uUp (some lo) (some up) u := by
  refine ⟨h1, fun l hl i hi => ?_, fun l hl i hi => ?_⟩
  · simp only [Option.some.injEq] at hl
    rw [← hl]
    exact (h2.2.2 i hi).1
  · simp only [Option.some.injEq] at hl
    rw [← hl]
    exact (h2.2.2 i hi).2

/-- C105. Bounds of the units by LP or MIP over the network together with the controller: the constraints are exactly the closed loop. -/
theorem C105_joint {S : Feedback K} {F : ExSys K} (h : S.Ok 12 4) (hF : ExOk F 12 4 10 9) (e1 : S.xLo = F.xLo)
    (e2 : S.xUp = F.xUp) {N : Net K} {o o' : Opt K} (hc : S.ctrl = .net N (.opt o false)) (hm : F.method = .opt o' false)
    (lp : Bool) (cb : Mip K × List ℕ → Vec K → Vec K → Opt K) (hs : QuadSolver S F N (.opt o false) lp cb)
    (hx : ∃ x u, InBox S.xLo S.xUp x ∧ finVec (S.computeU x) = some u ∧ InBox F.uLo F.uUp u) :
    SysEnc (S.quadFbAdd F lp cb) 12 (ClosedLoop S F.uLo F.uUp F.quadStep) (ClosedLoop S F.uLo F.uUp F.quadStep) := by
  intro m x xn hw lx lxn _ hx0 hxn0
  obtain ⟨hN, hW, hM, hr⟩ := h.net N _ hc
  obtain ⟨r, hr⟩ := Option.isSome_iff_exists.1 hr
  rw [← h.lo] at hr
  obtain ⟨m1, hm1, s1⟩ := free_addVars m hw 4
  set u := List.range' m.n 4 with hu
  have lu : u.length = 4 := by simp [hu]
  have hu' : ∀ i ∈ u, i < m1.n := fun i hi => by
    have := (List.mem_range'_1.1 (hu ▸ hi)).2
    have := s1.n
    omega
  have hx1 : ∀ i ∈ x, i < m1.n := fun i hi => by
    have := hx0 i hi
    have := s1.n
    omega
  have hxn1 : ∀ i ∈ xn, i < m1.n := fun i hi => by
    have := hxn0 i hi
    have := s1.n
    omega
  obtain ⟨m2, s, g, lo, up, hm2, llo, lup, hb, e3⟩ := addCtrl_fb h m1 s1.wf x u lx lu hx1 hu'
  have hU := usable_fb (S := S) hF llo lup hb hx
  obtain ⟨lo', up', t1, t2, l1, l2, -, hat⟩ := tightenU_exact hF.ulo hF.uup hU
  have t1' : lo' = List.zipWith max F.uLo lo := by
    simp only [tightenU, llo, hF.ulo, if_true, Option.some.injEq] at t1
    exact t1.symm
  have t2' : up' = List.zipWith min F.uUp up := by
    simp only [tightenU, lup, hF.uup, if_true, Option.some.injEq] at t2
    exact t2.symm
  rw [← given_of_addCtrl hc hr] at hm2
  obtain ⟨p, hp, hpf⟩ := quadProg_holds h e1 e2 hc hr l1 l2 lp
  obtain ⟨relaxed, hs⟩ := hs
  have hvalid := hs _ p m1 x u m2 s g lo up (ctrlCons_of hr) hm2 (by rw [← t1', ← t2']; exact hp)
  rw [← t1', ← t2'] at hvalid
  have b1 : (quadIn F.xLo lo').length = 10 := by simp [quadIn, length_seg, hF.lo, l1]
  have b2 : (quadIn F.xUp up').length = 10 := by simp [quadIn, length_seg, hF.up, l2]
  obtain ⟨B, hB, -⟩ := layerBound_isSome (.opt (cb p (quadIn F.xLo lo') (quadIn F.xUp up')) false) hF.net b1 b2
  obtain ⟨m3, s', g', hm3, e4⟩ := quad_enc_on hF (fun inLo inUp => (S.quadProg F N (r.mic, r.nnOutputLo, r.nnOutputUp)
      (List.zipWith max F.uLo lo) (List.zipWith min F.uUp up) lp).bind fun p =>
    layerBound (.opt (cb p inLo inUp) false) F.net.hidden inLo inUp) m2 x xn u (some lo) (some up) e3.wf lx lxn lu
    (fun i hi => (hx1 i hi).trans_le e3.n) (fun i hi => (hxn1 i hi).trans_le e3.n)
    (fun i hi => (hu' i hi).trans_le e3.n) hU t1 t2 (B := B) (by
      rw [← t1', ← t2', hp]
      exact hB)
  refine ⟨m3, u ++ s' ++ s, g' ++ g, ?_, ?_⟩
  · unfold Feedback.quadFbAdd
    rw [hc, hm]
    dsimp only
    unfold Feedback.quadJoint
    simp only [Option.bind_eq_bind, h.udim, hm1, Option.bind_some, ctrlCons_of hr, hm2]
    rw [hm3]
    rfl
  · have isn : S.isNet := ⟨N, _, hc⟩
    set D : (ℕ → K) → Prop := fun v => InBox S.xLo S.xUp (x.map v) ∧ finVec (S.computeU (x.map v)) = some (u.map v) ∧
      InBox F.uLo F.uUp (u.map v) ∧ xn.map v = F.quadStep (x.map v) (u.map v) with hD
    have D23 : DepsBelow m1.n D := by
      intro v w hvw hv
      have q1 : x.map w = x.map v := List.map_congr_left fun i hi => (hvw i (hx1 i hi)).symm
      have q2 : u.map w = u.map v := List.map_congr_left fun i hi => (hvw i (hu' i hi)).symm
      have q3 : xn.map w = xn.map v := List.map_congr_left fun i hi => (hvw i (hxn1 i hi)).symm
      rw [hD] at hv ⊢
      simp only at hv ⊢
      rwa [q1, q2, q3]
    have e3' : Enc m1 m2 D _ := e3.weaken (fun v _ hv => ⟨hv.1, hv.2.1⟩) (fun _ _ h => h)
    have e23 := e3'.seq e4 D23 (fun v hv _ => by
      obtain ⟨h1, h2, h3, h4⟩ := hv
      have hin := inU_of h3 (hb _ _ h1 h2)
      have hbx : ∀ i ∈ [3, 4, 5, 9, 10, 11], InXAt F.xLo F.xUp (x.map v) i := fun i hi => by
        rw [e1, e2] at h1
        refine h1.2.2 i ?_
        simp only [List.length_map, lx]
        simp only [List.mem_cons, List.not_mem_nil, or_false] at hi
        omega
      refine ⟨⟨hbx, hin, h4.symm⟩, ?_⟩
      have hub : InBox lo' up' (u.map v) := (hat _ (by simp [lu])).2 hin
      obtain ⟨w, f1, f2⟩ := hpf _ _ h1 h2 hub
      rw [← f2]
      refine joint_bounds hvalid hF.net hB f1 ?_
      rw [f2]
      exact (quad_box hF l1 l2 (by simp [lx]) (by simp [lu])).2 ⟨hbx, hub⟩)
    have e0 : Enc m m1 (fun v => ClosedLoop S F.uLo F.uUp F.quadStep (x.map v) (xn.map v)) fun _ => True := by
      refine s1.enc hw (fun _ _ => trivial) fun v _ _ => ⟨zeros 4, by simp, trivial⟩
    refine ⟨e23.wf, e0.n.trans e23.n, by rw [e23.obj, e0.obj], fun v hv => ?_, fun v hv hd => ?_⟩
    · obtain ⟨a, b⟩ := e23.sound v hv
      have hbx := b.1.1 isn
      exact ⟨(e0.sound v a).1, hbx, _, b.1.2 hbx, b.2.2.1.1, b.2.2.2.symm⟩
    · obtain ⟨hbx, w, hw1, hw2, hw3⟩ := hd
      have lw : w.length = 4 := ((computeU_iff h _ _).1 hw1).1
      have q1 := map_upd_lt v m.n w x hx0
      have q2 := map_upd_lt v m.n w xn hxn0
      have q3 : u.map (upd v m.n w) = w := map_upd v m.n w 4 lw
      obtain ⟨v', f1, f2⟩ := e23.complete (upd v m.n w)
        ((s1.feas _).2 ⟨(hw.feas_congr fun i hi => upd_lt _ _ _ _ hi).2 hv, trivial⟩)
        (by rw [hD]; simp only; rw [q1, q2, q3]; exact ⟨hbx, hw1, hw2, hw3⟩)
      exact ⟨v', fun i hi => by rw [f1 i (hi.trans_le e0.n), upd_lt _ _ _ _ hi], f2⟩

/-- C105. One of the two methods is `IA`, or the controller is linear: the constraints of the parent class. On the box of states they are
exactly the closed loop, and a network controller confines the state to the box. -/
theorem C105_parent {S : Feedback K} {F : ExSys K} (h : S.Ok 12 4) (hF : ExOk F 12 4 10 9) (e1 : S.xLo = F.xLo)
    (e2 : S.xUp = F.xUp) (hc : (∃ l, S.ctrl = .lin l) ∨ (∃ N, S.ctrl = .net N .ia) ∨ F.method = .ia) (lp : Bool)
    (cb : Mip K × List ℕ → Vec K → Vec K → Opt K)
    (hm : ∀ m x u m' s g a b, S.addCtrl m x u = some (m', s, g, a, b) →
      MethodValid F.net (quadIn F.xLo (List.zipWith max F.uLo a)) (quadIn F.xUp (List.zipWith min F.uUp b)) F.method)
    (hx : ∃ x u, InBox S.xLo S.xUp x ∧ finVec (S.computeU x) = some u ∧ InBox F.uLo F.uUp u) :
    SysEnc (S.quadFbAdd F lp cb) 12 (ClosedLoop S F.uLo F.uUp F.quadStep) fun x y =>
      (S.isNet → InBox S.xLo S.xUp x) ∧ (∀ i ∈ [3, 4, 5, 9, 10, 11], InXAt F.xLo F.xUp x i) ∧
        (InBox S.xLo S.xUp x → ClosedLoop S F.uLo F.uUp F.quadStep x y) := by
  have ef : S.quadFbAdd F lp cb = S.addDynamics F.quadAdd := by
    unfold Feedback.quadFbAdd
    rcases hc with ⟨l, hl⟩ | ⟨N, hN⟩ | hm
    · rw [hl]
    · rw [hN]
    · rw [hm]
      cases S.ctrl with
      | lin l => rfl
      | net N me => cases me <;> rfl
  rw [ef]
  have key := feedback_enc_at h (C77_quadrotor hF)
    (Rel0 := fun x u y => (∀ i ∈ [3, 4, 5, 9, 10, 11], InXAt F.xLo F.xUp x i) ∧ InBox F.uLo F.uUp u ∧ F.quadStep x u = y)
    (Box := fun x => ∀ i ∈ [3, 4, 5, 9, 10, 11], InXAt F.xLo F.xUp x i)
    (by
      intro m x u m' s g lo up ha l1 l2 hb
      refine ⟨usable_fb hF l1 l2 hb hx, fun lo' up' t1 t2 => ?_⟩
      simp only [tightenU, l1, hF.ulo, if_true, Option.some.injEq] at t1
      simp only [tightenU, l2, hF.uup, if_true, Option.some.injEq] at t2
      rw [← t1, ← t2]
      exact hm m x u m' s g lo up ha)
    (by
      intro lo up l1 l2 x u y lu
      exact ⟨fun hb hh => ⟨hh.1, inU_of hh.2.1 hb, hh.2.2⟩, fun hh => ⟨⟨hh.1, hh.2.1.1, hh.2.2⟩, hh.1⟩⟩)
  intro m x xn a1 a2 a3 a4 a5 a6
  obtain ⟨m', s, g, h1, h2⟩ := key m x xn a1 a2 a3 a4 a5 a6
  refine ⟨m', s, g, h1, h2.weaken ?_ ?_⟩
  · rintro v - ⟨b1, u, b2, b3, b4⟩
    refine ⟨b1, u, b2, fun i hi => ?_, b3, b4.symm⟩
    rw [e1, e2] at b1
    refine b1.2.2 i ?_
    simp only [List.length_map, a2]
    simp only [List.mem_cons, List.not_mem_nil, or_false] at hi
    omega
  · rintro v - ⟨b1, b2, b3⟩
    refine ⟨b1, b2, fun hb => ?_⟩
    obtain ⟨u, c1, c2, c3, c4⟩ := b3 hb
    exact ⟨hb, u, c1, c3, c4.symm⟩

/-- C105. `IA_MIP` for one of the networks, and no `IA`: the call fails. -/
theorem C105_rejects {S : Feedback K} {F : ExSys K} {N : Net K} {o o' : Opt K} {f f' : Bool}
    (hc : S.ctrl = .net N (.opt o f)) (hm : F.method = .opt o' f') (hf : f = true ∨ f' = true) (lp : Bool)
    (cb : Mip K × List ℕ → Vec K → Vec K → Opt K) (m : Mip K) (x xn : List ℕ) : S.quadFbAdd F lp cb m x xn = none := by
  unfold Feedback.quadFbAdd
  rw [hc, hm]
  cases f <;> cases f' <;> simp_all

/-- C105. Answers of the solver as assumed in `C105_joint` exist for all networks. -/
theorem C105_solver_exists (S : Feedback K) {F : ExSys K} (hF : ExOk F 12 4 10 9) (N : Net K) (method : Method K) (lp : Bool) :
    ∃ cb, QuadSolver S F N method lp cb := by
  classical
  have : ∀ lo up : Vec K, ∃ o : Opt K, lo.length = 10 → up.length = 10 → OptValid false F.net lo up o := fun lo up => by
    by_cases hl : lo.length = 10 ∧ up.length = 10
    · obtain ⟨o, ho⟩ := C11_mip_oracle_exists F.net 10 lo up hF.net hl.1 hl.2
      exact ⟨o, fun _ _ => ho⟩
    · exact ⟨fun _ _ _ _ _ => (0, 0), fun h1 h2 => absurd ⟨h1, h2⟩ hl⟩
  choose f hf using this
  refine ⟨fun _ lo up => f lo up, false, ?_⟩
  intro c p m x u m' s g a b _ _ hp done preLo preUp l j v zs bs out h1 h2 _ h4 h5
  obtain ⟨q1, q2⟩ : (List.zipWith max F.uLo a).length = 4 ∧ (List.zipWith min F.uUp b).length = 4 := by
    unfold Feedback.quadProg at hp
    simp only [Option.bind_eq_bind] at hp
    obtain ⟨_, -, hp⟩ := Option.bind_eq_some_iff.1 hp
    obtain ⟨_, hp, -⟩ := Option.bind_eq_some_iff.1 hp
    obtain ⟨i1, i2, -⟩ := addVars_inv hp
    exact ⟨by simpa using i1, by simpa using i2⟩
  exact hf _ _ (by rw [quadIn, List.length_append, List.length_append, length_seg _ _ _ (by simp [hF.lo]),
    length_seg _ _ _ (by simp [hF.lo]), q1])
    (by rw [quadIn, List.length_append, List.length_append, length_seg _ _ _ (by simp [hF.up]),
      length_seg _ _ _ (by simp [hF.up]), q2]) done preLo preUp l j _ zs bs out h1 h2 h4 h5

/-- A network controller saturated at `±1`, with bounds from a solver with the answers `o`. -/
def exQuadFb (o : Opt ℚ) : Feedback ℚ :=
  ⟨.net (exNetP 12 4) (.opt o false), List.replicate 12 (-1), List.replicate 12 1, 4, List.replicate 12 0,
    List.replicate 4 (1 / 2), List.replicate 4 (Ext.fin (-1)), List.replicate 4 (Ext.fin 1)⟩

/-- The quadrotor with bounds from a solver. -/
def exQuadSys : ExSys ℚ := { exSysP 12 4 10 9 with method := .opt (fun _ _ _ _ _ => (0, 0)) false }

theorem getD_rep {α : Type*} {n i : ℕ} (hi : i < n) (a b : α) : (List.replicate n a).getD i b = a := by
  simp [List.getD, hi]

theorem exQuadFb_ok {o : Opt ℚ} (ho : OptValid false (exNetP 12 4) (List.replicate 12 (-1)) (List.replicate 12 1) o) :
    (exQuadFb o).Ok 12 4 := by
  have hn : (exNetP 12 4).Ok 12 := (exSysP_ok 12 4 12 4).net
  have le : ∀ i, i < 12 → (List.replicate 12 (-1 : ℚ)).getD i 0 ≤ (List.replicate 12 (1 : ℚ)).getD i 0 :=
    (exSysP_ok 12 4 12 4).le
  refine ⟨by simp [exQuadFb], by simp [exQuadFb], le, rfl, by simp [exQuadFb], by simp [exQuadFb], by simp [exQuadFb],
    by simp [exQuadFb], fun i hi => ?_, fun x => ?_, fun N me hN => ?_, fun l hl => by simp [exQuadFb] at hl⟩
  · have : ∀ a b : Ext ℚ, (List.replicate 4 a).getD i b = a := getD_rep hi
    simp only [exQuadFb, this]
    exact Or.inr ⟨-1, 1, rfl, rfl, by norm_num⟩
  · exact net_len hn x
  · simp only [exQuadFb, Controller.net.injEq] at hN
    obtain ⟨rfl, rfl⟩ := hN
    refine ⟨hn, by simp [exNetP], ⟨false, ho⟩, ?_⟩
    obtain ⟨r, hr⟩ := outputConstraint_isSome (.opt o false) hn (by simp [exNetP]) (lo := List.replicate 12 (-1))
      (up := List.replicate 12 1) (by simp) (by simp) le
    exact Option.isSome_iff_exists.2 ⟨r, hr⟩

theorem exQuadSys_ok : ExOk exQuadSys 12 4 10 9 := by
  obtain ⟨a, b, c, d, e, f, g, h, i⟩ := exSysP_ok 12 4 10 9
  exact ⟨a, b, c, d, e, f, g, h, i⟩

/-- At the equilibrium the control is within the bounds of the quadrotor. -/
theorem exQuad_inside {o : Opt ℚ} (ho : OptValid false (exNetP 12 4) (List.replicate 12 (-1)) (List.replicate 12 1) o) :
    ∃ x u, InBox (exQuadFb o).xLo (exQuadFb o).xUp x ∧ finVec ((exQuadFb o).computeU x) = some u ∧
      InBox exQuadSys.uLo exQuadSys.uUp u := by
  have g : ∀ (n i : ℕ) (a b : ℚ), i < n → (List.replicate n a).getD i b = a := fun n i a b hi => by simp [List.getD, hi]
  refine ⟨List.replicate 12 0, List.replicate 4 (1 / 2), ⟨by simp [exQuadFb], by simp [exQuadFb], fun i hi => ?_⟩, ?_,
    ⟨by simp [exQuadSys, exSysP], by simp [exQuadSys, exSysP], fun i hi => ?_⟩⟩
  · have hi : i < 12 := by simpa using hi
    simp only [exQuadFb, g _ _ _ _ hi]
    norm_num
  · refine (computeU_iff (exQuadFb_ok ho) _ _).2 ⟨by simp, fun i hi => ?_⟩
    have e : ((exQuadFb o).preSat (List.replicate 12 0)).getD i 0 = 1 / 2 := by
      rw [getD_preSat (exQuadFb_ok ho)]
      have : (exQuadFb o).xEq = List.replicate 12 0 := rfl
      rw [this, sub_self, zero_add]
      exact g _ _ _ _ hi
    have e2 : ∀ a b : Ext ℚ, (List.replicate 4 a).getD i b = a := getD_rep hi
    refine Or.inr ⟨-1, 1, e2 _ _, e2 _ _, ?_⟩
    rw [e, g _ _ _ _ hi]
    norm_num [clamp]
  · have hi : i < 4 := by simpa using hi
    simp only [exQuadSys, exSysP, g _ _ _ _ hi]
    norm_num

example : ∃ o cb, (exQuadFb o).Ok 12 4 ∧ ExOk exQuadSys 12 4 10 9 ∧
    SysEnc ((exQuadFb o).quadFbAdd exQuadSys true cb) 12
      (ClosedLoop (exQuadFb o) exQuadSys.uLo exQuadSys.uUp exQuadSys.quadStep)
      (ClosedLoop (exQuadFb o) exQuadSys.uLo exQuadSys.uUp exQuadSys.quadStep) := by
  obtain ⟨o, ho⟩ := C11_mip_oracle_exists (exNetP 12 4) 12 (List.replicate 12 (-1)) (List.replicate 12 1)
    (exSysP_ok 12 4 12 4).net (by simp) (by simp)
  obtain ⟨cb, hcb⟩ := C105_solver_exists (exQuadFb o) exQuadSys_ok (exNetP 12 4) (.opt o false) true
  exact ⟨o, cb, exQuadFb_ok ho, exQuadSys_ok, C105_joint (exQuadFb_ok ho) exQuadSys_ok rfl rfl rfl rfl true cb hcb
    (exQuad_inside ho)⟩

/-- The same controller with the quadrotor of interval bounds. -/
example : ∃ o, SysEnc ((exQuadFb o).quadFbAdd (exSysP 12 4 10 9) true fun _ _ _ => o) 12
    (ClosedLoop (exQuadFb o) (exSysP 12 4 10 9).uLo (exSysP 12 4 10 9).uUp (exSysP 12 4 10 9).quadStep) fun x y =>
      ((exQuadFb o).isNet → InBox (exQuadFb o).xLo (exQuadFb o).xUp x) ∧
        (∀ i ∈ [3, 4, 5, 9, 10, 11], InXAt (exSysP 12 4 10 9).xLo (exSysP 12 4 10 9).xUp x i) ∧
        (InBox (exQuadFb o).xLo (exQuadFb o).xUp x → ClosedLoop (exQuadFb o) (exSysP 12 4 10 9).uLo (exSysP 12 4 10 9).uUp
          (exSysP 12 4 10 9).quadStep x y) := by
  obtain ⟨o, ho⟩ := C11_mip_oracle_exists (exNetP 12 4) 12 (List.replicate 12 (-1)) (List.replicate 12 1)
    (exSysP_ok 12 4 12 4).net (by simp) (by simp)
  exact ⟨o, C105_parent (exQuadFb_ok ho) (exSysP_ok 12 4 10 9) rfl rfl (Or.inr (Or.inr rfl)) true _
    (fun _ _ _ _ _ _ _ _ _ => trivial) (exQuad_inside ho)⟩

example (m : Mip ℚ) (x xn : List ℕ) : (exQuadFb fun _ _ _ _ _ => (0, 0)).quadFbAdd
    { exQuadSys with method := .opt (fun _ _ _ _ _ => (0, 0)) true } false (fun _ _ _ _ _ _ _ _ => (0, 0)) m x xn = none :=
  C105_rejects rfl rfl (Or.inr rfl) _ _ _ _ _

end NNL.Props
