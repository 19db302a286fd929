import Verif.Lemmas.StrengthenSys
import Verif.Props.ReluSystem

/-!
# C81: the strengthened derivative program
-/

set_option linter.unusedSectionVars false

namespace NNL.Props

open NNL NNL.Spec NNL.Model

variable {K : Type*} [Field K] [LinearOrder K] [IsStrictOrderedRing K]

/-- What `strengthen_lyapunov_derivative_as_milp` needs of a system whose dynamics constraint is `sys` (with its
binaries or with relaxed binaries) and which `lyapunov_derivative_as_milp` describes by `base`. -/
structure Strengthens (sys : VType → SysNets K) (base : SysConstr K) (n : ℕ) : Prop where
  com : SysCom sys
  hold : NetsHold (sys .binary) n
  same : SameSys (sys .binary).constr base n

/-- The derivative program with relaxed binaries (lyapunov.py 890-899). -/
def relaxedProgram (L : Lyap K) (sys : VType → SysNets K) (xe : Vec K) (lam eps : K) (et : EpsType)
    (R : Option (Tensor2 K)) (lower upper : Option K) : Option (DerivRet K × List (NetAt K)) :=
  L.derivativeNets (sys .relax) xe lam eps et R lower upper .relax

theorem strengthen_aux (L : Lyap K) (hL : L.NetOk) {R : Option (Tensor2 K)} {R' : Mat K} {xe : Vec K}
    (h : L.EqOk R R' xe) (lam eps : K) (et : EpsType) (lower upper : Option K) {sys : VType → SysNets K}
    {base : SysConstr K} (hs : Strengthens sys base L.dim) {Dom Rel : Vec K → Vec K → Prop}
    (hsys : SysEnc base L.dim Dom Rel) :
    ∃ T nets, relaxedProgram L sys xe lam eps et R lower upper = some (T, nets) ∧
      L.derivative base xe lam eps et R lower upper .binary = some { T with m := T.m.removeRelaxation } ∧
      (∀ a ∈ L.lyapNets T ++ nets, a.Fits T.m.n) ∧
      ∀ v, T.m.removeRelaxation.Feas v → ∀ a ∈ L.lyapNets T ++ nets, a.Holds v := by
  obtain ⟨D, nets, h1, h2, h3⟩ := derivativeNets_hold L hL h lam eps et lower upper (hsys.same hs.same) hs.hold
  obtain ⟨c, -⟩ := com_derivativeNets L hs.com xe lam eps et R lower upper
  rw [h1] at c
  obtain ⟨⟨T, nets'⟩, c1, c2⟩ := Option.map_eq_some_iff.1 c.symm
  have c2 : (({ T with m := T.m.removeRelaxation } : DerivRet K), nets') = (D, nets) := c2
  simp only [Prod.mk.injEq] at c2
  obtain ⟨rfl, rfl⟩ := c2
  rw [derivative_congr L hs.same] at h2
  refine ⟨T, nets', c1, h2, fun a ha => ?_, fun v hv a ha => (h3 a ha).2 v hv⟩
  have := (h3 a ha).1
  rwa [show (T.m.removeRelaxation).n = T.m.n from rr_len _] at this

/-- **C81**: whenever the strengthened program is built it has the variables, the binary variables and the objective
of `lyapunov_derivative_as_milp`, and the same feasible points. -/
theorem C81_same_program (L : Lyap K) (hL : L.NetOk) {R : Option (Tensor2 K)} {R' : Mat K} {xe : Vec K}
    (h : L.EqOk R R' xe) (lam eps : K) (et : EpsType) (lower upper : Option K) {sys : VType → SysNets K}
    {base : SysConstr K} (hs : Strengthens sys base L.dim) {Dom Rel : Vec K → Vec K → Prop}
    (hsys : SysEnc base L.dim Dom Rel) (solve : Mip K → Option (ℕ → K)) (num : ℕ) {D : DerivRet K}
    (hD : L.strengthenMilp sys xe lam eps et solve num R lower upper = some D) :
    ∃ D0, L.derivative base xe lam eps et R lower upper .binary = some D0 ∧ D = { D0 with m := D.m } ∧
      D.m.vars = D0.m.vars ∧ D.m.r = D0.m.r ∧ D.m.zeta = D0.m.zeta ∧ D.m.obj = D0.m.obj ∧
      (∀ v, D.m.objVal v = D0.m.objVal v) ∧ ∀ v, D.m.Feas v ↔ D0.m.Feas v := by
  obtain ⟨T, nets, h1, h2, h3, h4⟩ := strengthen_aux L hL h lam eps et lower upper hs hsys
  unfold relaxedProgram at h1
  unfold Lyap.strengthenMilp at hD
  rw [h1] at hD
  simp only [Option.bind_eq_bind, Option.bind_some, Option.bind_eq_some_iff, Option.some.injEq] at hD
  obtain ⟨m, hm, rfl⟩ := hD
  have A := strengthenPts_adds solve _ num T.m m h3 hm
  have hz : m.removeRelaxation.zeta = T.m.removeRelaxation.zeta := A.zeta
  have hr : m.removeRelaxation.r = T.m.removeRelaxation.r := A.r
  have ho : m.removeRelaxation.obj = T.m.removeRelaxation.obj := A.obj
  refine ⟨_, h2, rfl, feas_vars A.vars A.zeta, hr, hz, ho, fun v => ?_,
    fun v => ⟨A.rfeas v, fun hv => A.rkeep v (h4 v hv) hv⟩⟩
  simp only [Mip.objVal, ho, hr, hz]

/-- **C81**: the verdict of the strengthened program is the decrease condition. -/
theorem C81_verdict (L : Lyap K) (hL : L.NetOk) {R : Option (Tensor2 K)} {R' : Mat K} {xe : Vec K}
    (h : L.EqOk R R' xe) (lam eps : K) (et : EpsType) (lower upper : Option K) {sys : VType → SysNets K}
    {base : SysConstr K} (hs : Strengthens sys base L.dim) {Rel : Vec K → Vec K → Prop}
    (hsys : SysEnc base L.dim Rel Rel) (solve : Mip K → Option (ℕ → K)) (num : ℕ) {D : DerivRet K}
    (hD : L.strengthenMilp sys xe lam eps et solve num R lower upper = some D) :
    (∀ v, D.m.Feas v → D.m.objVal v ≤ 0) ↔
      ∀ y yn, InBox L.xLo L.xUp y → InBox L.xLo L.xUp yn → Rel y yn →
        Between lower upper (lyapV L.net R' lam xe y) →
        decrease et eps (lyapV L.net R' lam xe yn) (lyapV L.net R' lam xe y) (err R' xe y) ≤ 0 := by
  obtain ⟨D0, h1, -, -, -, -, -, h2, h3⟩ := C81_same_program L hL h lam eps et lower upper hs hsys solve num hD
  rw [← C33_verdict L hL h lam eps et lower upper hsys h1]
  simp only [h2, h3]

/-- A network in the program whose activations have slopes in `[0, 1)`. -/
def AllSlopesOk (nets : List (NetAt K)) : Prop := ∀ a ∈ nets, SlopesOk a.net.hidden

/-- **C81**: the program is built if the solver finds an optimal solution of every program that it is given: each has
the variables and the objective of the relaxed program, is at most as large, and keeps the feasible points of the
derivative program. -/
theorem C81_accepts (L : Lyap K) (hL : L.NetOk) {R : Option (Tensor2 K)} {R' : Mat K} {xe : Vec K}
    (h : L.EqOk R R' xe) (lam eps : K) (et : EpsType) (lower upper : Option K) {sys : VType → SysNets K}
    {base : SysConstr K} (hs : Strengthens sys base L.dim) {Dom Rel : Vec K → Vec K → Prop}
    (hsys : SysEnc base L.dim Dom Rel) :
    ∃ T nets, relaxedProgram L sys xe lam eps et R lower upper = some (T, nets) ∧
      ∀ (_ : SlopesOk L.net.hidden) (_ : AllSlopesOk nets) (solve : Mip K → Option (ℕ → K)) (num : ℕ),
        (∀ m, m.vars = T.m.vars → m.r = T.m.r → m.zeta = T.m.zeta → m.obj = T.m.obj → (∀ v, m.Feas v → T.m.Feas v) →
          (∀ D0 v, L.derivative base xe lam eps et R lower upper .binary = some D0 → D0.m.Feas v → m.Feas v) →
          ∃ p, solve m = some p) →
        ∃ D, L.strengthenMilp sys xe lam eps et solve num R lower upper = some D := by
  obtain ⟨T, nets, h1, h2, h3, h4⟩ := strengthen_aux L hL h lam eps et lower upper hs hsys
  refine ⟨T, nets, h1, fun s1 s2 solve num hsol => ?_⟩
  unfold relaxedProgram at h1
  obtain ⟨m, hm⟩ := strengthenPts_isSome solve (L.lyapNets T ++ nets) num T.m (fun a ha => ⟨h3 a ha, by
    rcases List.mem_append.1 ha with ha' | ha'
    · simp only [Lyap.lyapNets, List.mem_cons, List.not_mem_nil, or_false] at ha'
      rcases ha' with rfl | rfl <;> exact s1
    · exact s2 a ha'⟩) fun m1 A => hsol m1 A.vars A.r A.zeta A.obj A.feas fun D0 v hD0 hv => by
      rw [h2] at hD0
      cases hD0
      exact A.keep v (h4 v hv) (feas_of_rr hv)
  unfold Lyap.strengthenMilp
  rw [h1]
  simp only [Option.bind_eq_bind, Option.bind_some, hm]
  exact ⟨_, rfl⟩

/-- **C81**: one turn of the loop at a solution `p`. Rows are added only when they cut `p` off; if `p` is still
feasible, no cut of the ideal formulation of any network, for any index set, is violated at `p`; the program never
grows; and the feasible points of the derivative program stay. -/
theorem C81_turn (L : Lyap K) (hL : L.NetOk) {R : Option (Tensor2 K)} {R' : Mat K} {xe : Vec K}
    (h : L.EqOk R R' xe) (lam eps : K) (et : EpsType) (lower upper : Option K) {sys : VType → SysNets K}
    {base : SysConstr K} (hs : Strengthens sys base L.dim) {Dom Rel : Vec K → Vec K → Prop}
    (hsys : SysEnc base L.dim Dom Rel) {T : DerivRet K} {nets : List (NetAt K)}
    (hT : relaxedProgram L sys xe lam eps et R lower upper = some (T, nets)) (m m' : Mip K) (hm : m.vars = T.m.vars)
    (p : ℕ → K) (ht : Mip.strengthenNets p (L.lyapNets T ++ nets) m = some m') :
    (m' = m ∨ ¬ m'.Feas p) ∧
      (m'.Feas p → ∀ a ∈ L.lyapNets T ++ nets,
        IdealSat a.net.hidden (a.x.map p) (a.s.map p) (a.z.map p) a.lo a.up) ∧ (∀ v, m'.Feas v → m.Feas v) ∧
      ∀ D0 v, L.derivative base xe lam eps et R lower upper .binary = some D0 → D0.m.Feas v → m.Feas v →
        m'.Feas v := by
  obtain ⟨T', nets', h1, h2, h3, h4⟩ := strengthen_aux L hL h lam eps et lower upper hs hsys
  rw [h1] at hT
  cases hT
  have hF : ∀ a ∈ L.lyapNets T ++ nets, a.Fits m.n := by
    rw [Mip.n, hm]
    exact h3
  have A := strengthenNets_adds p _ m m' hF ht
  refine ⟨strengthenNets_cut p _ m m' hF ht, strengthenNets_ideal p _ m m' hF ht, A.feas, fun D0 v hD0 hv hf => ?_⟩
  rw [h2] at hD0
  cases hD0
  exact A.keep v (h4 v hv) hf

/-- **C81**: without a turn the program is that of `lyapunov_derivative_as_milp`, whatever the solver answers. -/
theorem C81_zero_turns (L : Lyap K) (hL : L.NetOk) {R : Option (Tensor2 K)} {R' : Mat K} {xe : Vec K}
    (h : L.EqOk R R' xe) (lam eps : K) (et : EpsType) (lower upper : Option K) {sys : VType → SysNets K}
    {base : SysConstr K} (hs : Strengthens sys base L.dim) {Dom Rel : Vec K → Vec K → Prop}
    (hsys : SysEnc base L.dim Dom Rel) (solve : Mip K → Option (ℕ → K)) :
    L.strengthenMilp sys xe lam eps et solve 0 R lower upper =
      L.derivative base xe lam eps et R lower upper .binary := by
  obtain ⟨T, nets, h1, h2, -⟩ := strengthen_aux L hL h lam eps et lower upper hs hsys
  unfold relaxedProgram at h1
  rw [h2]
  unfold Lyap.strengthenMilp
  rw [h1]
  rfl

/-- **C81**: if the LP solver answers that a program has no optimal solution, an assertion fails. -/
theorem C81_not_optimal (L : Lyap K) (sys : VType → SysNets K) (xe : Vec K) (lam eps : K) (et : EpsType)
    (R : Option (Tensor2 K)) (lower upper : Option K) (solve : Mip K → Option (ℕ → K)) (num : ℕ)
    {T : DerivRet K} {nets : List (NetAt K)}
    (hT : relaxedProgram L sys xe lam eps et R lower upper = some (T, nets)) (hn : solve T.m = none) :
    L.strengthenMilp sys xe lam eps et solve (num + 1) R lower upper = none := by
  unfold relaxedProgram at hT
  unfold Lyap.strengthenMilp
  rw [hT]
  simp [strengthenPts, hn]

/-! ### Systems -/

/-- A network system without input is not a `FeedbackSystem`: only the Lyapunov network is strengthened. -/
theorem C81_auto (c : Option (ReluMIC K)) (n : ℕ) :
    Strengthens (fun bt => plainSys (addAuto c bt)) (addAuto c) n :=
  ⟨com_plain fun m x xn hz => com_addAuto c m x xn hz, netsHold_plain _ _, fun m x xn _ _ _ _ _ _ => by
    rw [constr_plain]⟩

theorem C81_auto_hybrid (S : AutoHybrid K) (n : ℕ) :
    Strengthens (fun bt => plainSys (S.addDynamics bt)) S.addDynamics n :=
  ⟨com_plain fun m x xn hz => com_autoHybrid S m x xn hz, netsHold_plain _ _, fun m x xn _ _ _ _ _ _ => by
    rw [constr_plain]⟩

theorem usable_box {S : Feedback K} {k : ℕ} {uLo uUp : Vec K} (l1 : uLo.length = k) (l2 : uUp.length = k)
    (hx : ∃ x u, InBox S.xLo S.xUp x ∧ finVec (S.computeU x) = some u ∧ InBox uLo uUp u) :
    ∀ lo up : Vec K, lo.length = k → up.length = k →
      (∀ y w, InBox S.xLo S.xUp y → finVec (S.computeU y) = some w → InBox lo up w) →
      UsableU uLo uUp (some lo) (some up) := by
  intro lo up e1 e2 hb
  refine ⟨fun l hl => ?_, fun l hl => ?_, ?_⟩
  · simp only [Option.some.injEq] at hl
    rw [← hl, e1, l1]
  · simp only [Option.some.injEq] at hl
    rw [← hl, e2, l2]
  · obtain ⟨x, u, hx1, hx2, hx3⟩ := hx
    have := hb x u hx1 hx2
    refine ⟨u, hx3, fun l hl i hi => ?_, fun l hl i hi => ?_⟩
    · simp only [Option.some.injEq] at hl
      rw [← hl]
      exact (this.2.2 i hi).1
    · simp only [Option.some.injEq] at hl
      rw [← hl]
      exact (this.2.2 i hi).2

/-- Feedback systems with a `ReLUSystem`: the forward network and the controller network are strengthened. -/
theorem C81_relu {S : Feedback K} {F : CtrlRelu K} {n k : ℕ} (h : S.Ok n k) (hF : CtrlRelu.Ok F n k)
    (hh : F.net.hidden ≠ [])
    (hx : ∃ x u, InBox S.xLo S.xUp x ∧ finVec (S.computeU x) = some u ∧ InBox F.uLo F.uUp u) :
    Strengthens (S.addDynamicsNets (fun bt => addCtrl F.uLo F.uUp F.mic bt) (ctrlNets F.net F.uLo F.uUp F.mic))
      (S.addDynamics (addCtrl F.uLo F.uUp F.mic)) n := by
  obtain ⟨a, b⟩ := feedback_nets h (fwd := fun bt => addCtrl F.uLo F.uUp F.mic bt) (C50_controlled hF hh) (fwd_relu hF hh)
    (usable_box hF.ulo hF.uup hx)
  exact ⟨com_feedback S (com_addCtrl _ _ _) _, a, b⟩

theorem C81_relu_equilibrium {S : Feedback K} {F : CtrlRelu K} {n k : ℕ} (h : S.Ok n k) (hF : CtrlRelu.Ok F n k)
    (hh : F.net.hidden ≠ [])
    (hx : ∃ x u, InBox S.xLo S.xUp x ∧ finVec (S.computeU x) = some u ∧ InBox F.uLo F.uUp u) :
    Strengthens (S.addDynamicsNets (fun bt => addCtrl F.uLo F.uUp F.micEq bt) (ctrlNets F.net F.uLo F.uUp F.micEq))
      (S.addDynamics (addCtrl F.uLo F.uUp F.micEq)) n := by
  obtain ⟨a, b⟩ := feedback_nets h (fwd := fun bt => addCtrl F.uLo F.uUp F.micEq bt) (C50_controlled_equilibrium hF hh)
    (fwd_relu_eq hF hh) (usable_box hF.ulo hF.uup hx)
  exact ⟨com_feedback S (com_addCtrl _ _ _) _, a, b⟩

theorem C81_second_order {S : Feedback K} {F : SecondRelu K} {n k : ℕ} (h : S.Ok (n + n) k)
    (hF : SecondRelu.Ok F n k) (hn : F.net.Ok (n + n + k)) (hh : F.net.hidden ≠ [])
    (hx : ∃ x u, InBox S.xLo S.xUp x ∧ finVec (S.computeU x) = some u ∧ InBox F.uLo F.uUp u) :
    Strengthens (S.addDynamicsNets (fun bt => addCtrl F.uLo F.uUp F.mic bt) (ctrlNets F.net F.uLo F.uUp F.mic))
      (S.addDynamics (addCtrl F.uLo F.uUp F.mic)) (n + n) := by
  obtain ⟨a, b⟩ := feedback_nets h (fwd := fun bt => addCtrl F.uLo F.uUp F.mic bt) (C50_second_order hF hn hh)
    (fwd_second hF hn hh) (usable_box hF.ulo hF.uup hx)
  exact ⟨com_feedback S (com_addCtrl _ _ _) _, a, b⟩

theorem C81_residue {S : Feedback K} {F : SecondRelu K} {n k : ℕ} (h : S.Ok (n + n) k) (hF : SecondRelu.Ok F n k)
    (hn : F.net.Ok (F.idx.length + k)) (hi : ∀ i ∈ F.idx, i < n + n) (hh : F.net.hidden ≠ []) (hm : F.method = .ia)
    (hx : ∃ x u, InBox S.xLo S.xUp x ∧ finVec (S.computeU x) = some u ∧ InBox F.uLo F.uUp u) :
    Strengthens (S.addDynamicsNets (fun bt => F.addResidue bt) F.residueNets) (S.addDynamics F.addResidue) (n + n) := by
  obtain ⟨a, b⟩ := feedback_nets h (fwd := fun bt => F.addResidue bt) (C50_residue hF hn hi hh hm)
    (fwd_residue hF hn hi hm) (usable_box hF.ulo hF.uup hx)
  exact ⟨com_feedback S (com_addResidue F) _, a, b⟩

/-- A hybrid linear forward system has no network: the controller network is strengthened. -/
theorem C81_hybrid {lp : LpSolver K} (ht : lp.Truthful) {S : Feedback K} {F : Hybrid K} {n k : ℕ} (h : S.Ok n k)
    (hB : Built lp n k F) (hc : (F.mic none none none none).isSome) :
    Strengthens (S.addDynamicsNets (fun bt => F.asForward bt) noNets) (S.addDynamics F.asForward) n := by
  have hF : CtrlEnc F.asForward n k (fun _ _ => True) fun _ _ x u y => x.length = n ∧ HStep F.modes x u y := by
    intro m x xn u aLo aUp a1 a2 a3 a4 a5 a6 a7 _
    obtain ⟨m', s, g, h1, -, -, h2⟩ := C42_dynamics ht hB hc m a1 x xn u a2 a3 a4 a5 a6 a7
    exact ⟨m', s, g, h1, h2.weaken (fun v _ hh => hh.2) fun v _ hh => ⟨by simpa using a2, hh.1⟩⟩
  obtain ⟨a, b⟩ := feedback_nets h (fwd := fun bt => F.asForward bt) hF (fwd_none _ _ _ _) fun _ _ _ _ _ => trivial
  exact ⟨com_feedback S (com_asForward F) _, a, b⟩

/-! ### Slopes -/

/-- The networks of a system that are strengthened have slopes in `[0, 1)`. -/
def SysSlopes (sys : SysNets K) : Prop := ∀ m x xn t, sys m x xn = some t → AllSlopesOk t.2.2.2

theorem slopes_program (L : Lyap K) {sys : VType → SysNets K} (hs : SysSlopes (sys .relax)) {R : Option (Tensor2 K)}
    {xe : Vec K} {lam eps : K} {et : EpsType} {lower upper : Option K} {T : DerivRet K} {nets : List (NetAt K)}
    (hT : relaxedProgram L sys xe lam eps et R lower upper = some (T, nets)) : AllSlopesOk nets := by
  unfold relaxedProgram Lyap.derivativeNets at hT
  split_ifs at hT
  simp only [Option.bind_eq_bind, Option.bind_eq_some_iff, Option.some.injEq, Prod.mk.injEq] at hT
  obtain ⟨R2, -, tn, -, tx, -, d, hd, t, -, q, -, qn, -, m, -, u, -, m', -, -, rfl⟩ := hT
  exact hs _ _ _ d hd

theorem slopes_plain (sys : SysConstr K) : SysSlopes (plainSys sys) := by
  intro m x xn t ht
  simp only [plainSys, Option.map_eq_some_iff] at ht
  obtain ⟨q, -, rfl⟩ := ht
  simp [AllSlopesOk]

theorem slopes_feedback (S : Feedback K) (fwd : VType → CtrlConstr K) {nets : FwdNets K} (bt : VType)
    (hf : ∀ x u aLo aUp s z l, nets x u aLo aUp s z = some l → AllSlopesOk l)
    (hc : ∀ N me, S.ctrl = .net N me → SlopesOk N.hidden) : SysSlopes (S.addDynamicsNets fwd nets bt) := by
  intro m x xn t ht
  simp only [Feedback.addDynamicsNets, Option.bind_eq_bind, Option.bind_eq_some_iff, Option.some.injEq] at ht
  obtain ⟨u, -, c, -, f, -, a, ha, b, hb, rfl⟩ := ht
  intro q hq
  rcases List.mem_append.1 hq with hq | hq
  · exact hf _ _ _ _ _ _ _ ha q hq
  · unfold Feedback.ctrlNets at hb
    cases hS : S.ctrl with
    | lin l =>
      simp only [hS, Option.some.injEq] at hb
      subst hb
      simp at hq
    | net N me =>
      simp only [hS, Option.bind_eq_bind, Option.bind_eq_some_iff, Option.some.injEq] at hb
      obtain ⟨r, -, rfl⟩ := hb
      simp only [List.mem_singleton] at hq
      subst hq
      exact hc N me hS

theorem slopes_ctrl (N : Net K) (uLo uUp : Vec K) (c : Option (Vec K) → Option (Vec K) → Option (ReluMIC K))
    (h : SlopesOk N.hidden) : ∀ x u aLo aUp s z l, ctrlNets N uLo uUp c x u aLo aUp s z = some l → AllSlopesOk l := by
  intro x u aLo aUp s z l hl
  simp only [ctrlNets, Option.bind_eq_bind, Option.bind_eq_some_iff, Option.some.injEq] at hl
  obtain ⟨_, -, _, -, r, -, rfl⟩ := hl
  intro q hq
  simp only [List.mem_singleton] at hq
  subst hq
  exact h

/-- **C81** for a feedback system with a `ReLUSystem`: the strengthened program is built when the solver answers, has
the feasible points and the objective of the derivative program, and its verdict is the decrease condition of the
closed loop. -/
theorem C81_relu_closed_loop (L : Lyap K) (hL : L.NetOk) {R : Option (Tensor2 K)} {R' : Mat K} {xe : Vec K}
    (h : L.EqOk R R' xe) (lam eps : K) (et : EpsType) (lower upper : Option K) {S : Feedback K} {F : CtrlRelu K}
    {k : ℕ} (hS : S.Ok L.dim k) (hF : CtrlRelu.Ok F L.dim k) (hh : F.net.hidden ≠ []) (e1 : S.xLo = F.xLo)
    (e2 : S.xUp = F.xUp) (hx : ∃ x u, InBox S.xLo S.xUp x ∧ finVec (S.computeU x) = some u ∧ InBox F.uLo F.uUp u)
    (s1 : SlopesOk L.net.hidden) (s2 : SlopesOk F.net.hidden)
    (s3 : ∀ N me, S.ctrl = .net N me → SlopesOk N.hidden) (solve : Mip K → Option (ℕ → K))
    (hsol : ∀ m, ∃ p, solve m = some p) (num : ℕ) :
    ∃ D D0, L.strengthenMilp (S.addDynamicsNets (fun bt => addCtrl F.uLo F.uUp F.mic bt)
          (ctrlNets F.net F.uLo F.uUp F.mic)) xe lam eps et solve num R lower upper = some D ∧
      L.derivative (S.addDynamics (addCtrl F.uLo F.uUp F.mic)) xe lam eps et R lower upper .binary = some D0 ∧
      D = { D0 with m := D.m } ∧ (∀ v, D.m.Feas v ↔ D0.m.Feas v) ∧ (∀ v, D.m.objVal v = D0.m.objVal v) ∧
      ((∀ v, D.m.Feas v → D.m.objVal v ≤ 0) ↔
        ∀ y yn, InBox L.xLo L.xUp y → InBox L.xLo L.xUp yn → ClosedLoop S F.uLo F.uUp F.step y yn →
          Between lower upper (lyapV L.net R' lam xe y) →
          decrease et eps (lyapV L.net R' lam xe yn) (lyapV L.net R' lam xe y) (err R' xe y) ≤ 0) := by
  have hs := C81_relu hS hF hh hx
  have hsys := C48_relu hS hF hh e1 e2 hx
  obtain ⟨T, nets, h1, h2⟩ := C81_accepts L hL h lam eps et lower upper hs hsys
  obtain ⟨D, hD⟩ := h2 s1 (slopes_program L (slopes_feedback S _ _ (slopes_ctrl _ _ _ _ s2) s3) h1) solve num
    fun m _ _ _ _ _ _ => hsol m
  obtain ⟨D0, a1, a2, -, -, -, -, a3, a4⟩ := C81_same_program L hL h lam eps et lower upper hs hsys solve num hD
  exact ⟨D, D0, hD, a1, a2, a4, a3, C81_verdict L hL h lam eps et lower upper hs hsys solve num hD⟩

/-! ### Examples -/

/-- `φ(x) = -relu(x) + relu(-x)/2`. -/
def exStrLyap : Lyap ℚ :=
  { xLo := [-1], xUp := [1]
    net := { hidden := [(⟨1, [[1], [-1]], none⟩, .relu)], last := ⟨2, [[-1, 1 / 2]], none⟩ } }

theorem exStrLyap_ok : exStrLyap.NetOk := by
  refine Lyap.netOk_ia rfl rfl ?_ ?_ rfl (by decide)
  · intro i hi
    have : i < 1 := hi
    interval_cases i
    norm_num [exStrLyap]
  · simp [exStrLyap, Net.Ok, HidOk, Lin.Ok, HasCols, Lin.b, Lyap.dim]

theorem exStrLyap_eq : exStrLyap.EqOk (some ⟨1, [[1], [2]]⟩) [[1], [2]] [1 / 4] := by
  refine ⟨rfl, by simp [getR, exStrLyap, Lyap.dim], by simp [HasCols, exStrLyap, Lyap.dim], by decide, rfl, rfl, ?_⟩
  intro i hi
  have : i < 1 := hi
  interval_cases i
  norm_num [exStrLyap]

theorem exCtrl_slopes : SlopesOk exCtrl.net.hidden := by
  simp only [SlopesOk, exCtrl, exNet, List.mem_cons, List.not_mem_nil, or_false, forall_eq_or_imp, forall_eq]
  norm_num [actSlope]

theorem exFbNet_u : finVec (exFbNet.computeU [1 / 4]) = some [0] := by
  have : exFbNet.computeU [1 / 4] = [Ext.fin 0] := by
    norm_num [Feedback.computeU, Feedback.preSat, exFbNet, Controller.eval, Net.eval, hiddenOut, Lin.eval, Lin.b, matVec,
      vadd, vsub, dot, Act.f, relu, leaky, zeros, Props.fin_min, Props.fin_max]
  rw [this]
  rfl

/-- The closed loop of a controller network and a forward network, strengthened three times. -/
example := C81_relu_closed_loop exStrLyap exStrLyap_ok exStrLyap_eq (1 / 2) (1 / 10) .expLower none (some 3) exFbNet_ok
  exCtrl_ok (by simp [exCtrl, exNet]) rfl rfl
  ⟨[1 / 4], [0], box1 (by norm_num) (by norm_num), exFbNet_u, box1 (by norm_num) (by norm_num)⟩
  (by
    intro p hp
    simp only [exStrLyap, List.mem_singleton] at hp
    subst hp
    norm_num [actSlope])
  exCtrl_slopes
  (by
    intro N me hN
    simp only [exFbNet, Controller.net.injEq] at hN
    obtain ⟨rfl, -⟩ := hN
    simp only [SlopesOk, List.mem_cons, List.not_mem_nil, or_false, forall_eq_or_imp, forall_eq]
    norm_num [actSlope])
  (fun _ => some fun _ => 1 / 2) (fun _ => ⟨_, rfl⟩) 3

/-- A unit `y = relu(x₁ + x₂)` with inputs in `[-1, 1]`, at a fractional point: the cut of the index set `{1}` is
violated, so that this point does not satisfy the ideal formulation, although it satisfies the constraints
`y ≤ x₁ + x₂ + 2 (1 - β)` and `y ≤ 2 β`. -/
example : ¬ IdealSat [((⟨2, [[1, 1]], none⟩ : Lin ℚ), .relu)] [1, -1] [1] [1 / 2] [-1, -1, 0] [1, 1, 2] ∧
    (1 : ℚ) ≤ 1 + -1 + 2 * (1 - 1 / 2) ∧ (1 : ℚ) ≤ 2 * (1 / 2) := by
  refine ⟨fun h => ?_, by norm_num, by norm_num⟩
  have := h.1 0 (by decide) [1] _ (by decide) rfl
  norm_num [cutIn, cutOut, Cut.rhs, dot, zeros, actSlope, Lin.b, List.range_succ, List.replicate] at this

end NNL.Props
