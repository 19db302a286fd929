import Verif.Spec.Adversarial
import Verif.Props.Lyapunov
import Verif.Props.Barrier
import Verif.Props.Hybrid
import Verif.Props.MaxBox
import Verif.Props.Trainer
import Verif.Props.Roa

/-!
# Adversarial states, boundary gap, barrier losses

C65: the adversarial states that are added violate the condition. C70: the barrier derivative program. C71: the boundary
gap. C72: the parts of the total loss. C73: the barrier losses.
-/

set_option linter.unusedSectionVars false

namespace NNL.Props

open NNL NNL.Spec NNL.Model

variable {K : Type} [Field K] [LinearOrder K] [IsStrictOrderedRing K] {W : Type}

/-! ### C65 -/

theorem mem_keptSols {n : ℕ} {s : Solve K} {p : PoolSol K} :
    p ∈ keptSols n true s ↔ p ∈ s.pool.take n ∧ 0 < p.obj := by
  simp [keptSols, keepSol, List.mem_filter]

theorem keptSols_all (n : ℕ) (s : Solve K) : keptSols n false s = s.pool.take n := by
  simp [keptSols, keepSol]

/-- C65. With `add_adversarial_state_only`, the states returned by `solve_positivity_mip` are states of the box at which
the positivity condition fails, and all of the first `n` solutions of this kind are returned. -/
theorem C65_positivity (L : Lyap K) (hL : L.NetOk) {R : Option (Tensor2 K)} {R' : Mat K} {xe : Vec K}
    (h : L.EqOk R R' xe) (lam eps : K) {m : Mip K} {x : List ℕ} (hp : L.positivity xe lam eps R = some (m, x))
    {g : List ℕ} {s : Solve K} (hs : PoolOf m x g s) (n : ℕ) :
    (∀ y ∈ posAdversarial n true s, InBox L.xLo L.xUp y ∧ lyapV L.net R' lam xe y < eps * err R' xe y) ∧
    ∀ p ∈ s.pool.take n, lyapV L.net R' lam xe p.x < eps * err R' xe p.x → p.x ∈ posAdversarial n true s := by
  obtain ⟨m', x', e, -, -, sd, -⟩ := C32_program L hL h lam eps
  rw [e] at hp
  simp only [Option.some.injEq, Prod.mk.injEq] at hp
  obtain ⟨rfl, rfl⟩ := hp
  constructor
  · intro y hy
    obtain ⟨p, hp, rfl⟩ := List.mem_map.1 hy
    obtain ⟨h1, h2⟩ := mem_keptSols.1 hp
    obtain ⟨v, hv, e1, -, e2⟩ := hs p (List.mem_of_mem_take h1)
    obtain ⟨b1, b2⟩ := sd v hv
    rw [e1]
    refine ⟨b1, ?_⟩
    rw [e2, b2] at h2
    linarith
  · intro p hp hlt
    refine List.mem_map.2 ⟨p, mem_keptSols.2 ⟨hp, ?_⟩, rfl⟩
    obtain ⟨v, hv, e1, -, e2⟩ := hs p (List.mem_of_mem_take hp)
    rw [e2, (sd v hv).2, ← e1]
    linarith

/-- The successor that `solve_lyap_derivative_mip` computes for a solution. -/
def succOf (sys : TrainSys W K) (w : W) (x gamma : Vec K) : Option (Vec K) :=
  match sys.stepMode with
  | some f => (activeMode gamma).bind (f w x)
  | none => sys.step w x

theorem derNext_eq (sys : TrainSys W K) (w : W) (ss : List (PoolSol K)) :
    derNext sys w ss = ss.mapM fun p => succOf sys w p.x p.gamma := by
  unfold derNext succOf
  cases sys.stepMode with
  | some f => rfl
  | none =>
    simp only [TrainSys.stepAll]
    induction ss with
    | nil => rfl
    | cons p ss ih => simp [List.mapM_cons, ih]

theorem mapM_zip {α : Type} (f : α → Option (Vec K)) (st : α → Vec K) : ∀ (l : List α),
    (∀ p ∈ l, ∃ y, f p = some y) → ∃ next, l.mapM f = some next ∧ next.length = l.length ∧
      (∀ t ∈ (l.map st).zip next, ∃ p ∈ l, t.1 = st p ∧ f p = some t.2) ∧
      ∀ p ∈ l, ∀ y, f p = some y → (st p, y) ∈ (l.map st).zip next
  | [], _ => ⟨[], by simp⟩
  | a :: l, h => by
    obtain ⟨next, h1, h2, h3, h4⟩ := mapM_zip f st l fun p hp => h p (by simp [hp])
    obtain ⟨y, hy⟩ := h a (by simp)
    refine ⟨y :: next, by simp [List.mapM_cons, hy, h1], by simp [h2], ?_, ?_⟩
    · intro t ht
      simp only [List.map_cons, List.zip_cons_cons, List.mem_cons] at ht
      rcases ht with rfl | ht
      · exact ⟨a, by simp, rfl, hy⟩
      · obtain ⟨p, hp, e⟩ := h3 t ht
        exact ⟨p, by simp [hp], e⟩
    · intro p hp z hz
      simp only [List.map_cons, List.zip_cons_cons, List.mem_cons]
      rcases List.mem_cons.1 hp with rfl | hp
      · rw [hy] at hz
        cases hz
        exact Or.inl rfl
      · exact Or.inr (h4 p hp z hz)

/-- What C65 says about the states and successors returned for the derivative condition: they are as many, each pair is
a step of the dynamics within the box at which the condition fails, and each of the first `n` solutions at which it fails
is among them. -/
def Violating (L : Lyap K) (R' : Mat K) (xe : Vec K) (lam eps : K) (et : EpsType) (lower upper : Option K)
    (Rel : Vec K → Vec K → Prop) (succ : Vec K → Vec K → Option (Vec K)) (n : ℕ) (s : Solve K) (states next : Mat K) : Prop :=
  next.length = states.length ∧
  (∀ t ∈ states.zip next, InBox L.xLo L.xUp t.1 ∧ InBox L.xLo L.xUp t.2 ∧ Rel t.1 t.2 ∧
    Between lower upper (lyapV L.net R' lam xe t.1) ∧
    0 < decrease et eps (lyapV L.net R' lam xe t.2) (lyapV L.net R' lam xe t.1) (err R' xe t.1)) ∧
  ∀ p ∈ s.pool.take n, ∀ y, succ p.x p.gamma = some y →
    0 < decrease et eps (lyapV L.net R' lam xe y) (lyapV L.net R' lam xe p.x) (err R' xe p.x) →
    (p.x, y) ∈ states.zip next

/-- C65. With `add_adversarial_state_only`, the same for `solve_lyap_derivative_mip`, for every system whose successor is
the one of the program. -/
theorem C65_derivative (L : Lyap K) (hL : L.NetOk) {R : Option (Tensor2 K)} {R' : Mat K} {xe : Vec K}
    (h : L.EqOk R R' xe) (lam eps : K) (et : EpsType) (lower upper : Option K) {sys : SysConstr K}
    {Dom Rel : Vec K → Vec K → Prop} (hsys : SysEnc sys L.dim Dom Rel) {D : DerivRet K}
    (hd : L.derivative sys xe lam eps et R lower upper .binary = some D) (ts : TrainSys W K) (w : W)
    (hstep : ∀ v, D.m.Feas v → succOf ts w (D.x.map v) (D.gamma.map v) = some (D.xNext.map v))
    {s : Solve K} (hs : PoolOf D.m D.x D.gamma s) (n : ℕ) :
    ∃ states next, derAdversarial ts w n true s = some (states, next) ∧
      Violating L R' xe lam eps et lower upper Rel (succOf ts w) n s states next := by
  obtain ⟨D', e, -, -, -, sd, -⟩ := C33_program L hL h lam eps et lower upper hsys
  rw [e] at hd
  cases hd
  have hall : ∀ p ∈ keptSols n true s, ∃ y, succOf ts w p.x p.gamma = some y := by
    intro p hp
    obtain ⟨v, hv, e1, e2, -⟩ := hs p (List.mem_of_mem_take (mem_keptSols.1 hp).1)
    exact ⟨_, by rw [e1, e2]; exact hstep v hv⟩
  obtain ⟨next, k1, k2, k3, k4⟩ := mapM_zip (fun p : PoolSol K => succOf ts w p.x p.gamma) PoolSol.x _ hall
  refine ⟨(keptSols n true s).map PoolSol.x, next, by rw [derAdversarial, derNext_eq, k1]; rfl, by simp [k2], ?_, ?_⟩
  · intro t ht
    obtain ⟨p, hp, e1, e2⟩ := k3 t ht
    obtain ⟨hp1, hp2⟩ := mem_keptSols.1 hp
    obtain ⟨v, hv, e3, e4, e5⟩ := hs p (List.mem_of_mem_take hp1)
    have e6 := hstep v hv
    rw [← e3, ← e4, e2] at e6
    have e6 : t.2 = D.xNext.map v := Option.some.inj e6
    obtain ⟨a1, a2, a3, a4, -, -, a5⟩ := sd v hv
    rw [e5, a5] at hp2
    rw [e1, e3, e6]
    exact ⟨a1, a2, a3, a4, hp2⟩
  · intro p hp y hy hlt
    obtain ⟨v, hv, e3, e4, e5⟩ := hs p (List.mem_of_mem_take hp)
    have e6 := hstep v hv
    rw [← e3, ← e4, hy] at e6
    have e6 : y = D.xNext.map v := Option.some.inj e6
    refine k4 p (mem_keptSols.2 ⟨hp, ?_⟩) y hy
    rw [e5, (sd v hv).2.2.2.2.2.2, ← e3, ← e6]
    exact hlt

/-- C65, for a system with a single successor that is not an `AutonomousHybridLinearSystem` (ReLU and feedback
systems). -/
theorem C65_deterministic (L : Lyap K) (hL : L.NetOk) {R : Option (Tensor2 K)} {R' : Mat K} {xe : Vec K}
    (h : L.EqOk R R' xe) (lam eps : K) (et : EpsType) (lower upper : Option K) {sys : SysConstr K}
    {Dom Rel : Vec K → Vec K → Prop} (hsys : SysEnc sys L.dim Dom Rel) {D : DerivRet K}
    (hd : L.derivative sys xe lam eps et R lower upper .binary = some D) (ts : TrainSys W K) (w : W)
    (hm : ts.stepMode = none) (hstep : ∀ y yn, Rel y yn → ts.step w y = some yn)
    {s : Solve K} (hs : PoolOf D.m D.x D.gamma s) (n : ℕ) :
    ∃ states next, derAdversarial ts w n true s = some (states, next) ∧
      Violating L R' xe lam eps et lower upper Rel (fun x _ => ts.step w x) n s states next := by
  have e : succOf ts w = fun x _ => ts.step w x := by
    funext x g
    simp [succOf, hm]
  rw [← e]
  refine C65_derivative L hL h lam eps et lower upper hsys hd ts w ?_ hs n
  intro v hv
  obtain ⟨D', e', -, -, -, sd, -⟩ := C33_program L hL h lam eps et lower upper hsys
  rw [e'] at hd
  cases hd
  rw [e]
  exact hstep _ _ (sd v hv).2.2.1

theorem activeMode_eyeRow {k i : ℕ} (hi : i < k) : activeMode (eyeRow k i : Vec K) = some i := by
  unfold activeMode
  rw [List.findIdx?_eq_some_iff_getElem]
  have hlen : (eyeRow k i : Vec K).length = k := by simp
  have hg : ∀ j (hj : j < (eyeRow k i : Vec K).length), (eyeRow k i : Vec K)[j] = if j = i then 1 else 0 := by
    intro j hj
    have := getD_eyeRow (K := K) k i j (by omega)
    rw [List.getD, List.getElem?_eq_getElem hj, Option.getD_some] at this
    rw [this]
  refine ⟨by omega, ?_, ?_⟩
  · rw [hg _ (by omega)]
    norm_num
  · intro j hj
    rw [hg _ (by omega), if_neg (by omega)]
    norm_num

/-- The dynamics constraints of an autonomous hybrid system: the binaries are those of a mode that contains the state,
and the successor is that of this mode. -/
theorem auto_active {lp : LpSolver K} (ht : lp.Truthful) {n : ℕ} {S : AutoHybrid K} (hS : ABuilt lp n S) {m m' : Mip K}
    (hw : m.WF) {x xn sl g : List ℕ} (lx : x.length = n) (lxn : xn.length = n) (hx : ∀ i ∈ x, i < m.n)
    (hxn : ∀ i ∈ xn, i < m.n) (ha : S.addDynamics .binary m x xn = some (m', sl, g)) (v : ℕ → K) (hv : m'.Feas v) :
    ∃ j, activeMode (g.map v) = some j ∧ S.stepForward (x.map v) (some j) = some (xn.map v) := by
  have R := C44_auto_recorded ht hS
  cases hc : S.mic none none with
  | none => simp [AutoHybrid.addDynamics, hc] at ha
  | some c =>
  obtain ⟨a, b, lo, up, ha', hb', hlo, hup, hM⟩ := auto_parts hc
  have lla := (tighten_max ha').1
  have llb := (tighten_min hb').1
  rw [R.lenLo] at lla
  rw [R.lenUp] at llb
  have l1 := congrArg List.length (finVec_some hlo)
  have l2 := congrArg List.length (finVec_some hup)
  simp only [List.length_map] at l1 l2
  rw [R.xdim] at hM
  have hok : ∀ md ∈ S.modes.map AMode.toH, md.Ok n 0 := by simpa using R.ok
  have hr := hybrid_ready hM hok
  obtain ⟨n1, n2, n3, -⟩ := hybrid_num hM
  obtain ⟨mip', h1, -, h3⟩ := mic_out_enc m hw c x xn (by simpa [lx] using hr) hx (by omega) hxn
  simp only [AutoHybrid.addDynamics, hc, Option.bind_eq_bind, Option.bind_some, h1, Option.some.injEq, Prod.mk.injEq] at ha
  obtain ⟨rfl, rfl, rfl⟩ := ha
  obtain ⟨-, hf, ho⟩ := h3.sound v hv
  have lxv : (x.map v).length = n := by simp [lx]
  have e0 : x.map v = x.map v ++ [] := (List.append_nil _).symm
  rw [e0] at hf ho
  obtain ⟨-, i, hi, -, ez, es⟩ := (hybrid_feas hM hok lxv (u := []) rfl (by omega) (by omega)).1 hf
  have hi' : i < S.modes.length := by simpa using hi
  refine ⟨i, by rw [ez]; exact activeMode_eyeRow hi, ?_⟩
  rw [es, ez, hybrid_out hM hok lxv (u := []) rfl hi] at ho
  rw [← ho, List.getElem_map]
  unfold AutoHybrid.stepForward
  rw [if_pos (by rw [R.xdim]; exact lxv)]
  simp only [List.getElem?_eq_getElem hi', Option.map_some]
  rw [AMode.next_toH _ (R.ok _ (List.getElem_mem hi'))]

/-- C65, for an `AutonomousHybridLinearSystem`: the successor is taken with the mode read off `gamma`. -/
theorem C65_hybrid (L : Lyap K) (hL : L.NetOk) {R : Option (Tensor2 K)} {R' : Mat K} {xe : Vec K}
    (h : L.EqOk R R' xe) (lam eps : K) (et : EpsType) (lower upper : Option K) {lp : LpSolver K} (ht : lp.Truthful)
    {S : AutoHybrid K} (hS : ABuilt lp L.dim S) (hc : (S.mic none none).isSome) {D : DerivRet K}
    (hd : L.derivative S.addDynamics xe lam eps et R lower upper .binary = some D) (ts : TrainSys W K) (w : W)
    (hm : ts.stepMode = some fun _ x j => S.stepForward x (some j))
    {s : Solve K} (hs : PoolOf D.m D.x D.gamma s) (n : ℕ) :
    ∃ states next, derAdversarial ts w n true s = some (states, next) ∧
      Violating L R' xe lam eps et lower upper (AStep S.modes) (succOf ts w) n s states next := by
  have hsys := C42_auto_dynamics ht hS hc
  refine C65_derivative L hL h lam eps et lower upper hsys hd ts w ?_ hs n
  obtain ⟨D', e', lx, lxn, -, -, -, m0, m1, hw, hx, hxn, ha, hf, -⟩ :=
    derivative_program L hL h lam eps et lower upper hsys
  rw [e'] at hd
  cases hd
  intro v hv
  obtain ⟨j, hj, hj2⟩ := auto_active ht hS hw lx lxn hx hxn ha v (hf v hv)
  simp only [succOf, hm, hj, Option.bind_some, hj2]

/-! ### C70 -/

/-- C70, the failure. `solve_barrier_derivative_mip` raises exactly when no solution is kept. -/
theorem C70_raises_iff (n : ℕ) (only : Bool) (s : Solve K) :
    barrierDerAdversarial n only s = none ↔ ∀ p ∈ s.pool.take n, only = true ∧ p.obj ≤ 0 := by
  unfold barrierDerAdversarial posAdversarial keptSols
  split_ifs with h
  · simp only [true_iff]
    rw [List.map_eq_nil_iff, List.filter_eq_nil_iff] at h
    intro p hp
    have := h p hp
    cases only <;> simp [keepSol] at this ⊢
    exact this
  · simp only [reduceCtorEq, false_iff]
    intro hc
    apply h
    rw [List.map_eq_nil_iff, List.filter_eq_nil_iff]
    intro p hp
    obtain ⟨rfl, h2⟩ := hc p hp
    simp [keepSol, h2]

/-- C70, the failure. With `add_adversarial_state_only` the call raises whenever the derivative condition of the barrier
function is verified, whatever solutions Gurobi returns. -/
theorem C70_verified_raises {m : Mip K} {x g : List ℕ} {s : Solve K} (hs : PoolOf m x g s)
    (hv : ∀ v, m.Feas v → m.objVal v ≤ 0) (n : ℕ) : barrierDerAdversarial n true s = none := by
  rw [C70_raises_iff]
  intro p hp
  obtain ⟨v, hf, -, -, e⟩ := hs p (List.mem_of_mem_take hp)
  exact ⟨rfl, by rw [e]; exact hv v hf⟩

/-- C70. So does `compute_barrier_loss`, for all samples and weights, if the weight of the derivative program is not
`None`. -/
theorem C70_loss_raises (env : BarrierEnv W K) (cfg : BarrierCfg K) {c : K} (hc : cfg.derMipW = some c)
    (ho : cfg.only = true) (hd : ∀ w s w', env.solveDer w = some (s, w') → ∀ p ∈ s.pool, p.obj ≤ 0) (w : W)
    (safe unsafe_ der : Mat K) : env.barrierLoss cfg w safe unsafe_ der = none := by
  rw [Option.eq_none_iff_forall_not_mem]
  intro r hr
  simp only [Option.mem_def, BarrierEnv.barrierLoss, Option.bind_eq_bind, Option.bind_eq_some_iff] at hr
  obtain ⟨s, -, u, -, d, hd', -⟩ := hr
  simp only [BarrierEnv.derPart, hc, Option.bind_eq_bind, Option.bind_eq_some_iff] at hd'
  obtain ⟨sd, h1, a, h2, -⟩ := hd'
  rw [ho, (C70_raises_iff _ _ _).2 fun p hp => ⟨rfl, hd _ _ _ h1 p (List.mem_of_mem_take hp)⟩] at h2
  cases h2

/-- C70, what does hold: without `add_adversarial_state_only` all of the first `n` solutions are returned, and the call
raises only if there are none. -/
theorem C70_partial (n : ℕ) (s : Solve K) (hne : s.pool.take n ≠ []) :
    barrierDerAdversarial n false s = some ((s.pool.take n).map PoolSol.x) := by
  unfold barrierDerAdversarial posAdversarial
  rw [keptSols_all, if_neg (by simpa using hne)]

/-- C70. When it does not raise, the states with `add_adversarial_state_only` are exactly the violating ones. -/
theorem C70_kept {n : ℕ} {s : Solve K} {a : Mat K} (h : barrierDerAdversarial n true s = some a) :
    a ≠ [] ∧ ∀ y, y ∈ a ↔ ∃ p ∈ s.pool.take n, p.x = y ∧ 0 < p.obj := by
  unfold barrierDerAdversarial at h
  split_ifs at h with h0
  cases h
  refine ⟨h0, fun y => ?_⟩
  simp only [posAdversarial, List.mem_map]
  constructor
  · rintro ⟨p, hp, rfl⟩
    exact ⟨p, (mem_keptSols.1 hp).1, rfl, (mem_keptSols.1 hp).2⟩
  · rintro ⟨p, hp, rfl, h1⟩
    exact ⟨p, mem_keptSols.2 ⟨hp, h1⟩, rfl⟩

/-! ### C71 -/

theorem boxBoundary_ready {lo up : Vec K} {c : MIC K} (h : boxBoundary lo up = some c) : c.Ready lo.length := by
  unfold boxBoundary at h
  simp only at h
  split_ifs at h with hl
  cases h
  have hw : (vsub up lo).length = lo.length := by simp [hl]
  have hd := diagM_ok (vsub up lo)
  rw [hw] at hd
  have hb := blockDiag_ok _ _ hd hd
  refine ⟨⟨⟨?_, ?_, ?_, ?_, ?_, ?_, ?_, ?_, ?_, ?_, ?_, ?_⟩, rfl, rfl, rfl⟩, ⟨?_, ?_, ?_, ?_, ?_, ?_⟩, ⟨?_, ?_⟩⟩
  all_goals try (intro M hM; cases hM)
  · refine ⟨by simp [MIC.numIneq, hl], rfl, ?_⟩
    intro r hr
    rcases List.mem_append.1 hr with hr | hr
    · rw [negEye, List.mem_map] at hr
      obtain ⟨r', hr', rfl⟩ := hr
      simpa using eye_hasCols _ r' hr'
    · exact eye_hasCols _ r hr
  · refine ⟨by simp [MIC.numIneq, hl, blockDiag], ?_, ?_⟩
    · simp [MIC.numBinary, numVar, blockDiag]
    · simpa [MIC.numBinary, numVar, blockDiag] using hb
  · simp
  · refine ⟨by simp [MIC.numEq], ?_, ?_⟩
    · simp [MIC.numBinary, numVar, blockDiag, two_mul]
    · intro r hr
      simp only [List.mem_singleton] at hr
      subst hr
      simp [MIC.numBinary, numVar, blockDiag, two_mul]
  · simp
  · simp
  · simp

/-- C71. Both programs are built. Their points have a state on the boundary of the box and the objective `V(x)`; every
state on the boundary is represented; the first is a maximisation, the second a minimisation. -/
theorem C71_program (L : Lyap K) (hL : L.NetOk) {R : Option (Tensor2 K)} {R' : Mat K} {xe : Vec K}
    (h : L.EqOk R R' xe) (lam : K) :
    ∃ mmax mmin x, L.boundaryGap xe lam R = some (mmax, mmin, x) ∧ x.length = L.dim ∧
      mmax.obj.map MilpObj.maximize = some true ∧ mmin.obj.map MilpObj.maximize = some false ∧
      (∀ m, m = mmax ∨ m = mmin → (∀ v, m.Feas v → OnBoundary L.xLo L.xUp (x.map v) ∧
          m.objVal v = lyapV L.net R' lam xe (x.map v)) ∧
        ∀ y, OnBoundary L.xLo L.xUp y → ∃ v, m.Feas v ∧ x.map v = y) := by
  obtain ⟨m1, h1, w1, n1, f1⟩ := start_free (Mip.empty : Mip K) Mip.WF.empty feas_empty L.dim
  have e0 : (Mip.empty : Mip K).n = 0 := rfl
  rw [e0] at h1 n1
  rw [zero_add] at n1
  set x := List.range' 0 L.dim with hx
  have lx : x.length = L.dim := by simp [hx]
  have bx : ∀ i ∈ x, i < m1.n := fun i hi => mem_range'_lt (by omega) i hi
  obtain ⟨c, hc⟩ : ∃ c, boxBoundary L.xLo L.xUp = some c := by
    unfold boxBoundary
    simp only
    rw [if_pos (show L.xUp.length = L.xLo.length from h.up)]
    exact ⟨_, rfl⟩
  have hlu : ∀ i, i < L.xLo.length → L.xLo.getD i 0 ≤ L.xUp.getD i 0 := fun i hi => by
    have := h.xe.2.2 i (by rw [h.xe.1]; exact hi)
    exact this.1.trans this.2
  have hbd : ∀ y : Vec K, y.length = L.dim → ((∃ s z, c.Feas y s z) ↔ OnBoundary L.xLo L.xUp y) := fun y hy =>
    C10_box_boundary L.xLo L.xUp y c hc hlu hy
  obtain ⟨m2, h2, n2, E2'⟩ := mic_enc m1 w1 c x (by rw [lx]; exact boxBoundary_ready hc) bx
  have E2 : Enc m1 m2 (fun v => OnBoundary L.xLo L.xUp (x.map v)) fun v => OnBoundary L.xLo L.xUp (x.map v) :=
    E2'.weaken (fun v _ hv => (hbd _ (by simp [lx])).2 hv) (fun v _ hv => (hbd _ (by simp [lx])).1 ⟨_, _, hv⟩)
  obtain ⟨t, h3, tz, tb, tn, ta, tbb, -, E3⟩ := relu_enc L hL m2 E2.wf x lx
    (fun i hi => lt_of_lt_of_le (bx i hi) E2.n)
  have q3 := E2.n.trans E3.n
  obtain ⟨m4, s, al, h4, ls, nds, hs, E4⟩ := l1_enc L h t.m E3.wf x lx
    (fun i hi => lt_of_lt_of_le (bx i hi) q3) false
  have hD : DepsBelow m1.n fun v => OnBoundary L.xLo L.xUp (x.map v) := depsBelow_map x bx _
  have C1 := E2.seq E3 hD (fun v h _ => h.1)
  have C2 := C1.seq E4 hD (fun v h _ => h.1)
  have htz : ∀ i ∈ t.z, i < t.m.n := fun i hi => by
    rw [tz, List.mem_range'_1] at hi
    omega
  have hlen : [t.a, fullVec s.length lam].map List.length = [t.z, s].map List.length := by
    simp [ta, tz, length_aOut L hL, fullVec]
  have hnd : ([t.z, s] : List (List ℕ)).flatten.Nodup := by
    simp only [List.flatten_cons, List.flatten_nil, List.append_nil]
    refine List.Nodup.append (by rw [tz]; exact List.nodup_range') nds ?_
    intro i hi hi'
    have := htz i hi
    have := (hs i hi').1
    omega
  have hlt : ∀ i ∈ ([t.z, s] : List (List ℕ)).flatten, i < m4.n := by
    simp only [List.flatten_cons, List.flatten_nil, List.append_nil, List.mem_append]
    rintro i (hi | hi)
    · have := htz i hi
      have := E4.n
      omega
    · exact (hs i hi).2
  obtain ⟨m5, h5, f5, o5, v5⟩ := obj_set m4 C2.wf [t.a, fullVec s.length lam] [t.z, s] (t.b - L.phi xe) true hlen hnd hlt
  obtain ⟨m6, h6, f6, o6, v6⟩ := obj_set m5 (setObjective_wf h5 C2.wf) [t.a, fullVec s.length lam] [t.z, s]
    (t.b - L.phi xe) false hlen hnd (by rw [setObjective_n h5]; exact hlt)
  have hfeas : ∀ m, m = m5 ∨ m = m6 → (∀ v, m.Feas v ↔ m4.Feas v) ∧
      ∀ v, m.objVal v = objExpr [t.a, fullVec s.length lam] [t.z, s] v + (t.b - L.phi xe) := by
    rintro m (rfl | rfl)
    · exact ⟨f5, v5⟩
    · exact ⟨fun v => (f6 v).trans (f5 v), v6⟩
  refine ⟨m5, m6, x, ?_, lx, o5, o6, fun m hm => ⟨fun v hv => ?_, fun y hy => ?_⟩⟩
  · unfold Lyap.boundaryGap Lyap.valueMilp
    simp only [Option.bind_eq_bind, Option.bind_some, h1, hc, h2, lx, if_true, h3, h4, h5, h6]
  · rw [(hfeas m hm).1] at hv
    obtain ⟨-, ⟨r2, r3⟩, r4, -⟩ := C2.sound v hv
    refine ⟨r2, ?_⟩
    have := l1_sum r4 lam
    rw [List.length_map] at this
    rw [(hfeas m hm).2]
    simp only [objExpr, List.zipWith_cons_cons, List.zipWith_nil_left, List.sum_cons, List.sum_nil]
    rw [this]
    have hphi : dot t.a (t.z.map v) = L.phi (x.map v) - t.b := by rw [← r3.2.2]; ring
    rw [hphi]
    show _ = L.phi (x.map v) - L.phi xe + lam * l1err R' xe (x.map v)
    ring
  · have hyx : x.map (upd (fun _ => 0) 0 y) = y := map_upd _ _ _ _ hy.1.1
    obtain ⟨v', hv', hf'⟩ := C2.complete (upd (fun _ => 0) 0 y) (f1 _) (by rw [hyx]; exact hy)
    refine ⟨v', ((hfeas m hm).1 v').2 hf', ?_⟩
    conv_rhs => rw [← hyx]
    exact List.map_congr_left fun i hi => hv' i (bx i hi)

theorem optimum_of_program {S : Vec K → Prop} {f : Vec K → K} {m : Mip K} {x : List ℕ}
    (hs : ∀ v, m.Feas v → S (x.map v) ∧ m.objVal v = f (x.map v)) (hc : ∀ y, S y → ∃ v, m.Feas v ∧ x.map v = y) (a : K) :
    (IsMaxOf m a ↔ MaxOn S f a) ∧ (IsMinOf m a ↔ MinOn S f a) := by
  have ex : (∃ v, m.Feas v ∧ m.objVal v = a) ↔ ∃ y, S y ∧ f y = a := by
    constructor
    · rintro ⟨v, hv, e⟩
      exact ⟨_, (hs v hv).1, by rw [← (hs v hv).2, e]⟩
    · rintro ⟨y, hy, e⟩
      obtain ⟨v, hv, rfl⟩ := hc y hy
      exact ⟨v, hv, by rw [(hs v hv).2, e]⟩
  have all : ∀ P : K → Prop, (∀ v, m.Feas v → P (m.objVal v)) ↔ ∀ y, S y → P (f y) := by
    intro P
    constructor
    · intro h y hy
      obtain ⟨v, hv, rfl⟩ := hc y hy
      rw [← (hs v hv).2]
      exact h v hv
    · intro h v hv
      rw [(hs v hv).2]
      exact h _ (hs v hv).1
  exact ⟨and_congr ex (all (· ≤ a)), and_congr ex (all (a ≤ ·))⟩

/-- C71. The two optima are the largest and the smallest value of `V` on the boundary of the box; the gap is not
negative, bounds the difference of the values at any two states of the boundary, and is zero exactly if `V` is constant
there. -/
theorem C71_gap (L : Lyap K) (hL : L.NetOk) {R : Option (Tensor2 K)} {R' : Mat K} {xe : Vec K}
    (h : L.EqOk R R' xe) (lam : K) {mmax mmin : Mip K} {x : List ℕ} (hp : L.boundaryGap xe lam R = some (mmax, mmin, x))
    {a b : K} (ha : IsMaxOf mmax a) (hb : IsMinOf mmin b) :
    MaxOn (OnBoundary L.xLo L.xUp) (lyapV L.net R' lam xe) a ∧ MinOn (OnBoundary L.xLo L.xUp) (lyapV L.net R' lam xe) b ∧
      0 ≤ a - b ∧
      (∀ y y', OnBoundary L.xLo L.xUp y → OnBoundary L.xLo L.xUp y' →
        lyapV L.net R' lam xe y - lyapV L.net R' lam xe y' ≤ a - b) ∧
      (a - b = 0 ↔ ∀ y y', OnBoundary L.xLo L.xUp y → OnBoundary L.xLo L.xUp y' →
        lyapV L.net R' lam xe y = lyapV L.net R' lam xe y') := by
  obtain ⟨m1, m2, x', e, -, -, -, hall⟩ := C71_program L hL h lam
  rw [e] at hp
  simp only [Option.some.injEq, Prod.mk.injEq] at hp
  obtain ⟨rfl, rfl, rfl⟩ := hp
  have h1 := (optimum_of_program (hall m1 (Or.inl rfl)).1 (hall m1 (Or.inl rfl)).2 a).1.1 ha
  have h2 := (optimum_of_program (hall m2 (Or.inr rfl)).1 (hall m2 (Or.inr rfl)).2 b).2.1 hb
  obtain ⟨⟨ya, hya, ea⟩, ma⟩ := h1
  obtain ⟨⟨yb, hyb, eb⟩, mb⟩ := h2
  have hle : b ≤ a := by rw [← ea]; exact mb _ hya
  refine ⟨⟨⟨ya, hya, ea⟩, ma⟩, ⟨⟨yb, hyb, eb⟩, mb⟩, sub_nonneg.2 hle, fun y y' hy hy' => by linarith [ma y hy, mb y' hy'],
    fun h0 y y' hy hy' => ?_, fun hc => ?_⟩
  · have := ma y hy; have := ma y' hy'; have := mb y hy; have := mb y' hy'
    linarith
  · rw [← ea, ← eb, hc ya yb hya hyb, sub_self]

/-! ### C72 -/

/-- The most recent states in the pool: all of them for `max_sample_pool_size = 0`. -/
def recent {α : Type*} (n : ℕ) (l : List α) : List α := if n = 0 then l else lastN n l

theorem inPool_recent {α : Type*} (n : ℕ) (l : List α) : inPool n l = recent n l := by
  unfold recent
  split_ifs with h
  · rw [h, inPool_zero]
  · exact inPool_pos h l

theorem pySuffix_recent {α : Type*} (n : ℕ) (l : List α) : pySuffix n l = recent n l := by
  unfold recent
  split_ifs with h
  · simp [pySuffix, h]
  · exact pySuffix_pos h l

theorem nextInPool_recent (n : ℕ) (der next : Mat K) (h : next.length = der.length) :
    nextInPool n der next = recent n next := by
  rw [← inPool_recent]
  unfold nextInPool inPool
  rw [h]

/-- C72. `total_loss` returns the sum of its five parts. The sample parts are computed on the most recent states; the
states of the derivative condition and their successors stay aligned. -/
theorem C72_total_loss {env : Env W K} {cfg : TrainCfg K} {w w' : W} {pos der next : Mat K} {t : LossRet K}
    (hl : next.length = der.length) (h : env.totalLoss cfg w pos der next = some (t, w')) :
    t.loss = t.posSample + t.derSample + t.posMip + t.derMip + t.gapLoss ∧
      t.next.length = t.der.length ∧
      t.posSample = (if cfg.posW ≠ 0 ∧ 0 < t.pos.length then cfg.posW * env.posLoss w' (recent cfg.maxPool t.pos) else 0) ∧
      t.derSample = (if cfg.derW ≠ 0 ∧ 0 < t.der.length then
        cfg.derW * env.derLoss w' (recent cfg.maxPool t.der) (recent cfg.maxPool t.next) else 0) ∧
      (∃ p, t.pos = pos ++ p) ∧ (∃ d n, t.der = der ++ d ∧ t.next = next ++ n ∧ n.length = d.length) := by
  obtain ⟨sp, w1, sd, h1, h2, h3, h4, h5, h6, h7, h8, h9, h10, h11⟩ := totalLoss_inv h
  have hpos : ∀ {α : Type} (l : List α), (0 < (inPool cfg.maxPool l).length ↔ 0 < l.length) := by
    intro α l
    rw [inPool_recent]
    unfold recent
    split_ifs with h0
    · rfl
    · simp only [lastN, List.length_drop]
      omega
  have hal : ∃ d n, t.der = der ++ d ∧ t.next = next ++ n ∧ n.length = d.length := by
    cases sd with
    | none =>
      simp only [enlargeDer, Option.some.injEq, Prod.mk.injEq] at h6
      exact ⟨[], [], by simp [h6.1], by simp [h6.2], rfl⟩
    | some s =>
      simp only [enlargeDer, Option.map_eq_some_iff] at h6
      obtain ⟨a, ha, he⟩ := h6
      by_cases hadd : cfg.addDer = true
      · rw [if_pos hadd, Prod.mk.injEq] at he
        refine ⟨a.1, a.2, he.1.symm, he.2.symm, ?_⟩
        simp only [derAdversarial, Option.map_eq_some_iff, derNext_eq] at ha
        obtain ⟨n, hn, rfl⟩ := ha
        have : ∀ (l : List (PoolSol K)) (n : Mat K),
            (l.mapM fun p => succOf env.sys w' p.x p.gamma) = some n → n.length = l.length := by
          intro l
          induction l with
          | nil => intro n hn; simp at hn; simp [← hn]
          | cons p l ih =>
            intro n hn
            simp only [List.mapM_cons, Option.bind_eq_bind, Option.bind_eq_some_iff] at hn
            obtain ⟨y, -, ys, hys, e⟩ := hn
            cases e
            simp [ih _ hys]
        simp [this _ _ hn]
      · rw [if_neg hadd, Prod.mk.injEq] at he
        exact ⟨[], [], by simp [he.1], by simp [he.2], rfl⟩
  have hlen : t.next.length = t.der.length := by
    obtain ⟨d, n, e1, e2, e3⟩ := hal
    rw [e1, e2, List.length_append, List.length_append, hl, e3]
  simp only [Env.sampleLoss, Prod.mk.injEq] at h10
  refine ⟨h11, hlen, ?_, ?_, ?_, hal⟩
  · rw [h10.1, inPool_recent]
    have := hpos t.pos
    rw [inPool_recent] at this
    simp only [gt_iff_lt, this]
  · rw [h10.2, inPool_recent, nextInPool_recent _ _ _ hlen]
    have := hpos t.der
    rw [inPool_recent] at this
    simp only [gt_iff_lt, this]
  · rw [h5]
    cases sp with
    | none => exact ⟨[], by simp [enlargePos]⟩
    | some s =>
      unfold enlargePos
      simp only
      split_ifs
      · exact ⟨_, rfl⟩
      · exact ⟨[], by simp⟩

/-! ### C73 -/

theorem mapM_barrier (L : Lyap K) (xs : Vec K) {c : K} : ∀ (states : Mat K) (vals : Vec K),
    states.mapM (fun x => L.barrier x xs c) = some vals → vals = states.map fun x => barrierH L.net xs c x := by
  intro states
  induction states with
  | nil => intro vals h; simp at h; simp [h]
  | cons x states ih =>
    intro vals h
    simp only [List.mapM_cons, Option.bind_eq_bind, Option.bind_eq_some_iff] at h
    obtain ⟨y, hy, ys, hys, e⟩ := h
    cases e
    rw [List.map_cons, ih _ hys]
    unfold Lyap.barrier at hy
    split_ifs at hy
    cases hy
    rfl

/-- C73. With a positive weight, the loss on the samples of the safe (unsafe) regions is not negative, and zero exactly
if `h ≥ 0` (`h ≤ 0`) at all of them. -/
theorem C73_value_loss (L : Lyap K) (xs : Vec K) (c : K) {weight : K} (hw : 0 < weight) (red : Reduction) (safe : Bool)
    (states : Mat K) (l : K) (h : L.ValueLoss xs c weight red safe states l) :
    0 ≤ l ∧ (l = 0 ↔ ∀ x ∈ states, if safe then 0 ≤ barrierH L.net xs c x else barrierH L.net xs c x ≤ 0) := by
  unfold Lyap.ValueLoss at h
  by_cases hc : weight ≠ 0 ∧ states.length > 0
  · rw [if_pos hc] at h
    obtain ⟨vals, r, hv, hr, rfl⟩ := h
    have hn : ∀ a ∈ vals.map (fun h => max (if safe then -h else h) 0), 0 ≤ a := by
      intro a ha
      obtain ⟨b, -, rfl⟩ := List.mem_map.1 ha
      exact le_max_right _ _
    obtain ⟨h1, h2⟩ := reduces_spec hr (by intro w hw; cases hw) hn
    refine ⟨mul_nonneg hw.le h1, ?_⟩
    rw [mul_eq_zero, or_iff_right hw.ne', h2, mapM_barrier L xs _ _ hv]
    simp only [List.mem_map, forall_exists_index, and_imp, forall_apply_eq_imp_iff₂, max_eq_right_iff]
    cases safe <;> simp
  · rw [if_neg hc] at h
    have he : states = [] := by
      by_contra hne
      exact hc ⟨hw.ne', List.length_pos_iff.2 hne⟩
    simp [h, he]

/-- C73. The same for the derivative condition `h(x⁺) ≥ (1 - ε) h(x)`. -/
theorem C73_derivative_loss (L : Lyap K) (step : Vec K → Option (Vec K)) (xs : Vec K) (c eps : K) {weight : K}
    (hw : 0 < weight) (red : Reduction) (states : Mat K) (l : K) (h : L.DerLoss step xs c eps weight red states l) :
    0 ≤ l ∧ (l = 0 ↔ ∀ x ∈ states, ∃ xn, step x = some xn ∧
      (1 - eps) * barrierH L.net xs c x ≤ barrierH L.net xs c xn) := by
  unfold Lyap.DerLoss at h
  split_ifs at h with hc
  · obtain ⟨next, r, hv, ⟨hh, hb, hr⟩, rfl⟩ := h
    unfold Lyap.barrierHinge at hb
    split_ifs at hb with hcl
    cases hb
    obtain ⟨h1, h2⟩ := reduces_spec hr (by intro w hw; cases hw) (map_hinge_nonneg _ _)
    refine ⟨mul_nonneg hw.le h1, ?_⟩
    rw [mul_eq_zero, or_iff_right hw.ne', h2, map_hinge_zero]
    have key : ∀ (states next : Mat K), states.mapM step = some next →
        ((∀ a ∈ List.zipWith (fun x x' => -(-(L.phi x' - L.phi xs + c) + (1 - eps) * (L.phi x - L.phi xs + c))) states next,
          0 ≤ a) ↔ ∀ x ∈ states, ∃ xn, step x = some xn ∧ (1 - eps) * barrierH L.net xs c x ≤ barrierH L.net xs c xn) := by
      intro states
      induction states with
      | nil => intro next _; simp
      | cons x states ih =>
        intro next hn
        simp only [List.mapM_cons, Option.bind_eq_bind, Option.bind_eq_some_iff] at hn
        obtain ⟨y, hy, ys, hys, e⟩ := hn
        cases e
        simp only [List.zipWith_cons_cons, List.forall_mem_cons]
        refine and_congr ?_ (ih _ hys)
        have e1 : barrierH L.net xs c x = L.phi x - L.phi xs + c := rfl
        have e2 : barrierH L.net xs c y = L.phi y - L.phi xs + c := rfl
        constructor
        · intro hle
          refine ⟨y, hy, ?_⟩
          rw [e1, e2]
          linarith
        · rintro ⟨y', hy', hle⟩
          rw [hy] at hy'
          cases hy'
          rw [e1, e2] at hle
          linarith
    exact key _ _ hv
  · have he : states = [] := by
      by_contra hne
      exact hc ⟨hw.ne', List.length_pos_iff.2 hne⟩
    simp [h, he]

theorem solveVals_length (env : BarrierEnv W K) (safe : Bool) : ∀ (is : List ℕ) (w w' : W) (ss : List (Solve K)),
    env.solveVals safe is w = some (ss, w') → ss.length = is.length
  | [], w, w', ss, h => by
    simp only [BarrierEnv.solveVals, Option.some.injEq, Prod.mk.injEq] at h
    simp [← h.1]
  | i :: is, w, w', ss, h => by
    simp only [BarrierEnv.solveVals, Option.bind_eq_bind, Option.bind_eq_some_iff] at h
    obtain ⟨s, -, t, ht, e⟩ := h
    cases e
    simp [solveVals_length env safe is _ _ _ ht]

/-- C73. The sets returned by `compute_barrier_loss`: for each set whose program has a weight, the given states followed
by the first `n` solutions of every region, in order (also those that do not violate the condition), one objective for
each region; otherwise the given states and no objective. The sample losses are computed on the most recent states. -/
theorem C73_value_sets {env : BarrierEnv W K} {cfg : BarrierCfg K} {w w' : W} {safe unsafe_ der : Mat K}
    {t : BarrierLossRet K} (h : env.barrierLoss cfg w safe unsafe_ der = some (t, w')) :
    ∃ wu wd, (match cfg.safeMipW with
      | none => t.safe = safe ∧ t.safeObj = none ∧ t.safeMip = none ∧ wu = w
      | some _ => ∃ ss, env.solveVals true (List.range env.nSafe) w = some (ss, wu) ∧ ss.length = env.nSafe ∧
          t.safe = safe ++ ss.flatMap (fun s => (s.pool.take cfg.valPool).map PoolSol.x) ∧
          t.safeObj = some (ss.map Solve.objVal)) ∧
      (match cfg.unsafeMipW with
      | none => t.unsafe_ = unsafe_ ∧ t.unsafeObj = none ∧ t.unsafeMip = none ∧ wd = wu
      | some _ => ∃ ss, env.solveVals false (List.range env.nUnsafe) wu = some (ss, wd) ∧ ss.length = env.nUnsafe ∧
          t.unsafe_ = unsafe_ ++ ss.flatMap (fun s => (s.pool.take cfg.valPool).map PoolSol.x) ∧
          t.unsafeObj = some (ss.map Solve.objVal)) ∧
      (match cfg.derMipW with
      | none => t.der = der ∧ t.derObj = none ∧ t.derMip = none ∧ w' = wd
      | some _ => ∃ s, env.solveDer wd = some (s, w') ∧ t.derObj = some s.objVal ∧
          ∃ a, barrierDerAdversarial cfg.derPool cfg.only s = some a ∧ t.der = der ++ a) ∧
      env.safeLoss w' (recent cfg.maxPool t.safe) = some t.safeSample ∧
      env.unsafeLoss w' (recent cfg.maxPool t.unsafe_) = some t.unsafeSample ∧
      env.derLoss w' (recent cfg.maxPool t.der) = some t.derSample := by
  simp only [BarrierEnv.barrierLoss, Option.bind_eq_bind, Option.bind_eq_some_iff, pySuffix_recent] at h
  obtain ⟨⟨s, wu⟩, h1, ⟨u, wd⟩, h2, ⟨d, wl⟩, h3, l1, k1, l2, k2, l3, k3, e⟩ := h
  cases e
  have vp : ∀ {pool : ℕ} {fl : Bool} {n : ℕ} {wt : Option K} {w w' : W} {samples : Mat K}
      {r : Option (Vec K) × Option (Vec K) × Option (List (Mat K))},
      env.valuePart pool fl n wt w = some (r, w') → (match wt with
        | none => withRegions samples r.2.2 = samples ∧ r.1 = none ∧ r.2.1 = none ∧ w' = w
        | some _ => ∃ ss, env.solveVals fl (List.range n) w = some (ss, w') ∧ ss.length = n ∧
            withRegions samples r.2.2 = samples ++ ss.flatMap (fun s => (s.pool.take pool).map PoolSol.x) ∧
            r.1 = some (ss.map Solve.objVal)) := by
    intro pool fl n wt w w' samples r hr
    cases wt with
    | none =>
      simp only [BarrierEnv.valuePart, Option.some.injEq, Prod.mk.injEq] at hr
      obtain ⟨rfl, rfl⟩ := hr
      exact ⟨rfl, rfl, rfl, rfl⟩
    | some c =>
      simp only [BarrierEnv.valuePart, Option.bind_eq_bind, Option.bind_eq_some_iff] at hr
      obtain ⟨⟨ss, w2⟩, hs, l, -, e⟩ := hr
      cases e
      have := solveVals_length env fl _ _ _ _ hs
      rw [List.length_range] at this
      exact ⟨ss, hs, this, by simp only [withRegions, List.flatMap_def]; rfl, rfl⟩
  refine ⟨wu, wd, vp h1, vp h2, ?_, k1, k2, k3⟩
  unfold BarrierEnv.derPart at h3
  cases hd : cfg.derMipW with
  | none =>
    rw [hd] at h3
    simp only [Option.some.injEq, Prod.mk.injEq] at h3
    obtain ⟨rfl, rfl⟩ := h3
    exact ⟨rfl, rfl, rfl, rfl⟩
  | some c =>
    rw [hd] at h3
    simp only [Option.bind_eq_bind, Option.bind_eq_some_iff] at h3
    obtain ⟨⟨s, w2⟩, hs, a, ha, l, -, e⟩ := h3
    cases e
    exact ⟨s, hs, rfl, a, ha, rfl⟩

/-! ### Concrete cases: `V = |x|₁` on `[-1, 1]²` -/

theorem corner_err (a b : ℚ) : err (eye 2) [0, 0] [a, b] = |a| + |b| := by
  have e : eye 2 = ([[1, 0], [0, 1]] : Mat ℚ) := by simp [eye, eyeRow, List.range_succ]
  simp [err, e, norm1, matVec, vsub, dot]

/-- `V ≥ 2 |x|₁` fails at `(1, 0)`; a pool with this state and the origin gives the first only. -/
example : ∃ m x s, cornerL.positivity [0, 0] 1 2 none = some (m, x) ∧ PoolOf m x [] s ∧
    posAdversarial 5 true s = [[1, 0]] ∧ posAdversarial 5 false s = [[1, 0], [0, 0]] := by
  obtain ⟨m, x, e, -, -, sd, c⟩ := C32_program cornerL cornerL_ok cornerEq_ok 1 2
  obtain ⟨v, hv, hx⟩ := c [1, 0] ((corner_box _).2 ⟨1, 0, rfl, by norm_num⟩)
  obtain ⟨u, hu, hy⟩ := c [0, 0] ((corner_box _).2 ⟨0, 0, rfl, by norm_num⟩)
  have o1 : m.objVal v = 1 := by
    rw [(sd v hv).2, hx, corner_V, corner_err]
    norm_num
  have o2 : m.objVal u = 0 := by
    rw [(sd u hu).2, hy, corner_V, corner_err]
    norm_num
  refine ⟨m, x, ⟨1, [⟨[1, 0], [], 1⟩, ⟨[0, 0], [], 0⟩]⟩, e, ?_, by decide, by decide⟩
  intro p hp
  simp only [List.mem_cons, List.not_mem_nil, or_false] at hp
  rcases hp with rfl | rfl
  · exact ⟨v, hv, hx.symm, rfl, o1.symm⟩
  · exact ⟨u, hu, hy.symm, rfl, o2.symm⟩

/-- The hybrid system of `C37_corner_counterexample` with `ε = 9/10`: `V` is halved only, so `(1/2, 0) ↦ (1/4, 0)` is
an adversarial pair; the mode is read off the binaries. -/
example (ts : TrainSys Unit ℚ) (hm : ts.stepMode = some fun _ x j => cornerSys.stepForward x (some j)) :
    ∃ D s, cornerL.derivative cornerSys.addDynamics [0, 0] 1 (9 / 10) .expLower none none none .binary = some D ∧
      PoolOf D.m D.x D.gamma s ∧ derAdversarial ts () 1 true s = some ([[1 / 2, 0]], [[1 / 4, 0]]) := by
  obtain ⟨D, e, -, -, -, sd, c⟩ := C33_program cornerL cornerL_ok cornerEq_ok 1 (9 / 10) .expLower none none
    (sys := cornerSys.addDynamics) cornerSys_enc
  obtain ⟨v, hv, hx, hn⟩ := c [1 / 2, 0] [1 / 4, 0] ((corner_box _).2 ⟨1 / 2, 0, rfl, by norm_num⟩)
    ((corner_box _).2 ⟨1 / 4, 0, rfl, by norm_num⟩) ((corner_step _ _ _).2 (Or.inl (by norm_num)))
    ⟨by simp, by simp⟩
  have ho : D.m.objVal v = 1 / 5 := by
    rw [(sd v hv).2.2.2.2.2.2, hx, hn, corner_V, corner_V]
    norm_num [decrease, abs_of_pos]
  have hp : PoolOf D.m D.x D.gamma ⟨1 / 5, [⟨[1 / 2, 0], D.gamma.map v, 1 / 5⟩]⟩ := by
    intro p hp
    simp only [List.mem_singleton] at hp
    subst hp
    exact ⟨v, hv, hx.symm, rfl, ho.symm⟩
  refine ⟨D, _, e, hp, ?_⟩
  obtain ⟨D', e', lx, lxn, -, -, -, m0, m1, hw, hx', hxn, ha, hf, -⟩ :=
    derivative_program cornerL cornerL_ok cornerEq_ok 1 (9 / 10) .expLower none none (sys := cornerSys.addDynamics) cornerSys_enc
  rw [e] at e'
  cases e'
  obtain ⟨j, hj, hj2⟩ := auto_active exactLp_truthful cornerSys_built hw lx lxn hx' hxn ha v (hf v hv)
  rw [hx, hn] at hj2
  have hk : keptSols 1 true (⟨1 / 5, [⟨[1 / 2, 0], D.gamma.map v, 1 / 5⟩]⟩ : Solve ℚ)
      = [⟨[1 / 2, 0], D.gamma.map v, 1 / 5⟩] := by
    simp [keptSols, keepSol]
  rw [derAdversarial, derNext_eq, hk]
  have hs : succOf ts () [1 / 2, 0] (D.gamma.map v) = some [1 / 4, 0] := by simp only [succOf, hm, hj, Option.bind_some, hj2]
  simp only [List.mapM_cons, List.mapM_nil, hs, Option.bind_eq_bind, Option.bind_some, Option.pure_def, Option.map_some, List.map_cons, List.map_nil]

/-- The gap of `|x|₁` on the boundary of `[-1, 1]²` is `2 - 1`. -/
example {mmax mmin : Mip ℚ} {x : List ℕ} (hp : cornerL.boundaryGap [0, 0] 1 none = some (mmax, mmin, x)) :
    IsMaxOf mmax 2 ∧ IsMinOf mmin 1 := by
  obtain ⟨m1, m2, x', e, -, -, -, hall⟩ := C71_program cornerL cornerL_ok cornerEq_ok 1
  rw [e] at hp
  simp only [Option.some.injEq, Prod.mk.injEq] at hp
  obtain ⟨rfl, rfl, rfl⟩ := hp
  refine ⟨(optimum_of_program (hall m1 (Or.inl rfl)).1 (hall m1 (Or.inl rfl)).2 2).1.2 ⟨⟨[1, 1], ?_, ?_⟩, ?_⟩,
    (optimum_of_program (hall m2 (Or.inr rfl)).1 (hall m2 (Or.inr rfl)).2 1).2.2 ⟨⟨[1, 0], ?_, ?_⟩, ?_⟩⟩
  · exact ⟨(corner_box _).2 ⟨1, 1, rfl, by norm_num⟩, 0, by simp, Or.inr rfl⟩
  · rw [corner_V]
    norm_num
  · rintro y ⟨hb, -⟩
    obtain ⟨a, b, rfl, h1, h2, h3, h4⟩ := (corner_box y).1 hb
    rw [corner_V]
    linarith [abs_le.2 ⟨h1, h2⟩, abs_le.2 ⟨h3, h4⟩]
  · exact ⟨(corner_box _).2 ⟨1, 0, rfl, by norm_num⟩, 0, by simp, Or.inr rfl⟩
  · rw [corner_V]
    norm_num
  · rintro y ⟨hb, i, hi, hface⟩
    obtain ⟨a, b, rfl, h1, h2, h3, h4⟩ := (corner_box y).1 hb
    rw [corner_V]
    have : i < 2 := hi
    interval_cases i
    · simp only [cornerL, List.getD_cons_zero] at hface
      rcases hface with rfl | rfl <;> norm_num
    · simp only [cornerL, List.getD_cons_succ, List.getD_cons_zero] at hface
      rcases hface with rfl | rfl <;> norm_num

/-- C70 is not vacuous: one solution with objective 0 is enough. -/
theorem C70_raises_counterexample : ∃ (env : BarrierEnv Unit ℚ) (cfg : BarrierCfg ℚ),
    env.barrierLoss cfg () [[0]] [[1]] [[0]] = none ∧
    (env.barrierLoss { cfg with only := false } () [[0]] [[1]] [[0]]).isSome := by
  refine ⟨⟨1, 1, fun _ _ w => some (⟨0, [⟨[0], [], 0⟩]⟩, w), fun w => some (⟨0, [⟨[0], [], 0⟩]⟩, w), fun _ _ _ => some 0,
    fun _ => some 0, fun _ _ => some 0, fun _ _ => some 0, fun _ _ => some 0⟩,
    ⟨1, 1, true, 10, some 1, some 1, some 1⟩, ?_, ?_⟩
  · refine C70_loss_raises _ _ rfl rfl ?_ _ _ _ _
    rintro w s w' h p hp
    cases h
    simp only [List.mem_singleton] at hp
    subst hp
    exact le_rfl
  · decide +kernel

/-- A loss of the barrier `1/2 - relu(x)` on the unsafe samples 1 (fine) and 0 (violating): the mean. -/
example : exBar.ValueLoss [0] (1 / 2) 4 .mean false [[1], [0]] 1 := by
  unfold Lyap.ValueLoss
  rw [if_pos (by norm_num)]
  refine ⟨[-1 / 2, 1 / 2], 1 / 4, ?_, ⟨by simp, ?_⟩, by norm_num⟩
  · decide +kernel
  · norm_num [vmean]

end NNL.Props
