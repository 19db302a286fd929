import Verif.Model.FeedbackBound
import Verif.Props.BoundProgRun
import Verif.Props.Feedback

/-!
# C137 for closed loops
-/

set_option linter.unusedSectionVars false

namespace NNL.Props

open NNL NNL.Spec NNL.Model

variable {K : Type} [Field K] [LinearOrder K] [IsStrictOrderedRing K]

theorem loose_addLinCtrl (S : Feedback K) (l : Lin K) {a b : Mip K} (h : Loose a b) (x u : List ℕ) {t t' : VType}
    (ht : t' = t ∨ t' = .continuous ∧ t = .binary) :
    LooseP (S.addLinCtrl l a x u t) (S.addLinCtrl l b x u t') := by
  unfold Feedback.addLinCtrl
  refine (loose_addVars h _ _ _ (Or.inl rfl)).bindP fun a1 b1 p _ h1 => ?_
  refine (loose_addMConstr h1 _ _ _ _).bindP fun a2 b2 h2 => LooseP.opt _ fun o => ?_
  exact (loose_addInputSat h2 _ _ _ _ _ _ ht).bindP fun a3 b3 r _ h3 => LooseP.some h3 _

theorem loose_fbCtrl (S : Feedback K) {a b : Mip K} (h : Loose a b) (x u : List ℕ) {t t' : VType}
    (ht : t' = t ∨ t' = .continuous ∧ t = .binary) (hx : ∀ i ∈ x, i < a.n) :
    LooseP (S.addCtrl a x u t) (S.addCtrl b x u t') := by
  unfold Feedback.addCtrl
  cases S.ctrl with
  | net N method =>
    simp only [Feedback.addNetCtrl]
    exact LooseP.opt _ fun r => loose_addNetCtrl S N _ _ _ h x u ht hx
  | lin l => exact loose_addLinCtrl S l h x u ht

/-- The program `U` with states and inputs contains every pair related by `Dom`. -/
structure InputProgOk (U : Mip K × List ℕ × List ℕ) (n k : ℕ) (Dom : Vec K → Vec K → Prop) : Prop where
  wf : U.1.WF
  lx : U.2.1.length = n
  lu : U.2.2.length = k
  x : ∀ i ∈ U.2.1, i < U.1.n
  u : ∀ i ∈ U.2.2, i < U.1.n
  complete : ∀ x u, x.length = n → u.length = k → Dom x u → ∃ v, U.1.Feas v ∧ U.2.1.map v = x ∧ U.2.2.map v = u

theorem free_pair (n k : ℕ) : ∃ (m1 m2 : Mip K),
    (Mip.empty : Mip K).addVars n (noBound n) (noBound n) .continuous = some (m1, List.range' 0 n) ∧
    m1.addVars k (noBound k) (noBound k) .continuous = some (m2, List.range' n k) ∧
    InputProgOk (m2, List.range' 0 n, List.range' n k) n k (fun _ _ => True) := by
  obtain ⟨m1, h1, w1, n1, f1⟩ := start_free (Mip.empty : Mip K) Mip.WF.empty feas_empty n
  have e0 : (Mip.empty : Mip K).n = 0 := rfl
  rw [e0] at h1 n1
  rw [zero_add] at n1
  obtain ⟨m2, h2, w2, n2, f2⟩ := start_free m1 w1 f1 k
  rw [n1] at h2 n2
  refine ⟨m1, m2, h1, h2, w2, by simp, by simp, ?_, ?_, ?_⟩
  · intro i hi
    simp only [List.mem_range'_1] at hi
    show i < m2.n
    omega
  · intro i hi
    simp only [List.mem_range'_1] at hi
    show i < m2.n
    omega
  · intro y a hy ha _
    refine ⟨fun i => (y ++ a).getD i 0, f2 _, ?_, ?_⟩
    · apply vec_ext (by simp [hy])
      intro i hi
      have hi' : i < n := by simpa using hi
      have : i < y.length := by omega
      simp [List.getD, hi', List.getElem?_append_left this]
    · apply vec_ext (by simp [ha])
      intro i hi
      have hi' : i < k := by simpa using hi
      have e : (y ++ a)[n + i]? = a[i]? := by
        rw [List.getElem?_append_right (by omega)]
        congr 1
        omega
      simp [List.getD, hi', e]

/-- C137: the program without constraints contains every state with every input. -/
theorem C137_open_program (n k : ℕ) :
    ∃ U, (openBoundProg n k : Option (Mip K × List ℕ × List ℕ)) = some U ∧ InputProgOk U n k fun _ _ => True := by
  obtain ⟨m1, m2, h1, h2, hok⟩ := free_pair (K := K) n k
  exact ⟨_, by simp only [openBoundProg, Option.bind_eq_bind, h1, Option.bind_some, h2], hok⟩

/-- C137: the control bound program contains every state of the box with its saturated control, whatever the method of
the controller; with binaries it relates no other control to a state of the box. -/
theorem C137_control_program {S : Feedback K} {n k : ℕ} (h : S.Ok n k) (lc : Option Bool) :
    ∃ U, S.ctrlBoundProg lc = some U ∧
      InputProgOk U n k (fun x u => InBox S.xLo S.xUp x ∧ finVec (S.computeU x) = some u) ∧
      (lc = some false → ∀ v, U.1.Feas v → (S.isNet → InBox S.xLo S.xUp (U.2.1.map v)) ∧
        (InBox S.xLo S.xUp (U.2.1.map v) → finVec (S.computeU (U.2.1.map v)) = some (U.2.2.map v))) := by
  obtain ⟨m1, m2, h1, h2, hok⟩ := free_pair (K := K) n k
  cases lc with
  | none =>
    refine ⟨_, ?_, ⟨hok.wf, hok.lx, hok.lu, hok.x, hok.u, fun x u a b _ => hok.complete x u a b trivial⟩, by simp⟩
    simp only [Feedback.ctrlBoundProg, Option.bind_eq_bind, h.lo, h.udim, h1, Option.bind_some, h2]
  | some lp =>
    obtain ⟨m3, s, g, lo, up, h3, -, -, -, E⟩ := addCtrl_fb h m2 hok.wf (List.range' 0 n) (List.range' n k)
      (by simp) (by simp) hok.x hok.u
    obtain ⟨m4, h4, l4⟩ := loose_fbCtrl S (Loose.refl hok.wf) (List.range' 0 n) (List.range' n k) (boundType_loose lp)
      hok.x _ _ h3
    have hn : m2.n ≤ m4.n := E.n.trans l4.n.le
    refine ⟨(m4, List.range' 0 n, List.range' n k), ?_, ⟨l4.wfb, by simp, by simp,
      fun i hi => (hok.x i hi).trans_le hn, fun i hi => (hok.u i hi).trans_le hn, ?_⟩, ?_⟩
    · simp only [Feedback.ctrlBoundProg, Option.bind_eq_bind, h.lo, h.udim, h1, Option.bind_some, h2, h4]
    · intro x u a b hd
      obtain ⟨v, f, ex, eu⟩ := hok.complete x u a b trivial
      simp only at ex eu
      obtain ⟨v', hv, f'⟩ := E.complete v f (by rw [ex, eu]; exact hd)
      refine ⟨v', l4.feas v' f', ?_, ?_⟩
      · rw [← ex]
        exact List.map_congr_left fun i hi => hv i (hok.x i hi)
      · rw [← eu]
        exact List.map_congr_left fun i hi => hv i (hok.u i hi)
    · intro e v hv
      obtain rfl : lp = false := by simpa using e
      have e : m4 = m3 := congrArg Prod.fst (Option.some.inj (h4.symm.trans h3))
      have hv : m4.Feas v := hv
      rw [e] at hv
      exact (E.sound v hv).2

/-- C137: adding the forward dynamics to a program with states and inputs gives a bound program which contains every
state with the successor (or velocity) under every input that the first program relates to it. With binaries it
contains nothing else. -/
theorem C137_forward_program {uLo uUp : Vec K} {c : Option (Vec K) → Option (Vec K) → Option (ReluMIC K)} {n k : ℕ}
    {P : Option (Vec K) → Option (Vec K) → Prop}
    {Rel : Option (Vec K) → Option (Vec K) → Vec K → Vec K → Vec K → Prop}
    (hF : CtrlEnc (addCtrl uLo uUp c) n k P Rel) {aLo aUp : Option (Vec K)} (hP : P aLo aUp)
    {U : Mip K × List ℕ × List ℕ} {Dom : Vec K → Vec K → Prop} (hU : InputProgOk U n k Dom) (lp : Bool) :
    ∃ Q, fwdBoundProg uLo uUp c n U aLo aUp lp = some Q ∧
      BoundProgOk Q n (fun x y => ∃ u, u.length = k ∧ Dom x u ∧ Rel aLo aUp x u y) ∧
      (lp = false → ∀ v, Q.m.Feas v → U.1.Feas v ∧ Q.x = U.2.1 ∧ Rel aLo aUp (Q.x.map v) (U.2.2.map v) (Q.xn.map v)) := by
  obtain ⟨mU, x, u⟩ := U
  obtain ⟨m3, h3, s3⟩ := free_addVars mU hU.wf n
  set xn := List.range' mU.n n with hxn
  have n3 := s3.n
  have bx : ∀ i ∈ x, i < m3.n := fun i hi => by have := hU.x i hi; simp only at this; omega
  have bu : ∀ i ∈ u, i < m3.n := fun i hi => by have := hU.u i hi; simp only at this; omega
  have bn : ∀ i ∈ xn, i < m3.n := fun i hi => by rw [hxn, List.mem_range'_1] at hi; omega
  obtain ⟨m4, s, g, h4, E⟩ := hF m3 x xn u aLo aUp s3.wf hU.lx (by simp [hxn]) hU.lu bx bn bu hP
  have h40 := h4
  unfold addCtrl at h4
  obtain ⟨lo, hlo, h4⟩ := Option.bind_eq_some_iff.1 h4
  obtain ⟨up, hup, h4⟩ := Option.bind_eq_some_iff.1 h4
  obtain ⟨r, hr, h4⟩ := Option.bind_eq_some_iff.1 h4
  obtain ⟨m5, h5, l5⟩ := loose_addMIC_out (Loose.refl s3.wf) r.mic (x ++ u) xn (boundType_loose lp)
    (fun i hi => (List.mem_append.1 hi).elim (bx i) (bu i)) _ _ h4
  have hn : m3.n ≤ m5.n := E.n.trans l5.n.le
  refine ⟨⟨m5, x, xn⟩, ?_, ⟨l5.wfb, hU.lx, by simp [hxn], List.nodup_range', fun i hi => (bx i hi).trans_le hn,
    fun i hi => (bn i hi).trans_le hn, ?_⟩, ?_⟩
  · simp only [fwdBoundProg, Option.bind_eq_bind, h3, Option.bind_some, addCtrl, hlo, hup, hr, h5]
  · rintro a y ha hy ⟨w, lw, hd, hrel⟩
    obtain ⟨v, f, ex, eu⟩ := hU.complete a w ha lw hd
    simp only at ex eu f
    have q1 : x.map (upd v mU.n y) = a := by rw [map_upd_lt v mU.n y x hU.x, ex]
    have q2 : u.map (upd v mU.n y) = w := by rw [map_upd_lt v mU.n y u hU.u, eu]
    have q3 : xn.map (upd v mU.n y) = y := map_upd v mU.n y n hy
    obtain ⟨v', hv, f'⟩ := E.complete (upd v mU.n y)
      ((s3.feas _).2 ⟨(hU.wf.feas_congr fun i hi => upd_lt _ _ _ _ hi).2 f, trivial⟩)
      (by rw [q1, q2, q3]; exact hrel)
    refine ⟨v', l5.feas v' f', ?_, ?_⟩
    · rw [← q1]
      exact List.map_congr_left fun i hi => hv i (bx i hi)
    · rw [← q3]
      exact List.map_congr_left fun i hi => hv i (bn i hi)
  · rintro rfl v hv
    have e : m5 = m4 := congrArg Prod.fst (Option.some.inj (h5.symm.trans h4))
    have hv : m5.Feas v := hv
    rw [e] at hv
    obtain ⟨a, b⟩ := E.sound v hv
    exact ⟨((s3.feas v).1 a).1, rfl, b⟩

/-- C137: the bound program of a closed loop (the forward dynamics with the bounds `lo`, `up` of the control that the
controller constraint returns, added to the control bound program) contains every state of the box with its velocity,
whatever the methods of the controller and of the forward system. -/
theorem C137_feedback_program {S : Feedback K} {n k : ℕ} (h : S.Ok n k) {uLo uUp : Vec K} (l1 : uLo.length = k)
    (l2 : uUp.length = k) {c : Option (Vec K) → Option (Vec K) → Option (ReluMIC K)} {step : Vec K → Vec K → Vec K}
    (hF : CtrlEnc (addCtrl uLo uUp c) n k (UsableU uLo uUp) fun aLo aUp x u y =>
      InBox S.xLo S.xUp x ∧ InU uLo uUp aLo aUp u ∧ y = step x u)
    (hx : ∃ x u, InBox S.xLo S.xUp x ∧ finVec (S.computeU x) = some u ∧ InBox uLo uUp u)
    {m m' : Mip K} (hw : m.WF) {x u s g : List ℕ} (lx : x.length = n) (lu : u.length = k) (bx : ∀ i ∈ x, i < m.n)
    (bu : ∀ i ∈ u, i < m.n) {lo up : Vec K} (hc : S.addCtrl m x u = some (m', s, g, lo, up)) (lc : Option Bool)
    (lp : Bool) :
    ∃ U Q, S.ctrlBoundProg lc = some U ∧ fwdBoundProg uLo uUp c n U (some lo) (some up) lp = some Q ∧
      BoundProgOk Q n (ClosedLoop S uLo uUp step) ∧
      (lc = some false → lp = false → ∀ v, Q.m.Feas v → ClosedLoop S uLo uUp step (Q.x.map v) (Q.xn.map v)) := by
  obtain ⟨m'', s', g', lo', up', h1, e1, e2, hb, -⟩ := addCtrl_fb h m hw x u lx lu bx bu
  rw [hc] at h1
  simp only [Option.some.injEq, Prod.mk.injEq] at h1
  obtain ⟨-, -, -, rfl, rfl⟩ := h1
  obtain ⟨U, hU, hok, hex⟩ := C137_control_program h lc
  have hus : UsableU uLo uUp (some lo) (some up) := by
    refine ⟨fun l hl => ?_, fun l hl => ?_, ?_⟩
    · simp only [Option.some.injEq] at hl
      rw [← hl, e1, l1]
    · simp only [Option.some.injEq] at hl
      rw [← hl, e2, l2]
    · obtain ⟨x, u, hx1, hx2, hx3⟩ := hx
      have := hb x u hx1 hx2
      refine ⟨u, hx3, fun l hl i hi => ?_, fun l hl i hi => ?_⟩
      · simp only [Option.some.injEq] at hl
        rw [← hl]
        exact (this.2.2 i hi).1
      · simp only [Option.some.injEq] at hl
        rw [← hl]
        exact (this.2.2 i hi).2
  obtain ⟨Q, hQ, hq, hqe⟩ := C137_forward_program hF hus hok lp
  refine ⟨U, Q, hU, hQ, ⟨hq.wf, hq.lx, hq.lxn, hq.nodup, hq.x, hq.xn, ?_⟩, ?_⟩
  · rintro a y ha hy ⟨b1, w, b2, b3, b4⟩
    refine hq.complete a y ha hy ⟨w, by rw [b3.1, l1], ⟨b1, b2⟩, b1, ⟨b3, fun l hl i hi => ?_, fun l hl i hi => ?_⟩, b4⟩
    · simp only [Option.some.injEq] at hl
      rw [← hl]
      exact ((hb a w b1 b2).2.2 i hi).1
    · simp only [Option.some.injEq] at hl
      rw [← hl]
      exact ((hb a w b1 b2).2.2 i hi).2
  · intro hl hp v hv
    obtain ⟨f, ex, b1, b2, b3⟩ := hqe hp v hv
    rw [ex] at b1 b3 ⊢
    exact ⟨b1, _, (hex hl v f).2 b1, b2.1, b3⟩

/-- C137: a non-positive optimum of the derivative program of a closed loop with a network as forward system, built
with bounds that the solver computed from the bound program of the closed loop, certifies the decrease. -/
theorem C137_feedback_verdict (L : Lyap K) (hL : L.NetOk) {R : Option (Tensor2 K)} {R' : Mat K} {xe : Vec K}
    (h : L.EqOk R R' xe) (lam eps : K) (lower upper : Option K) {S : Feedback K} {F : CtrlRelu K} {k : ℕ}
    (hS : S.Ok L.dim k) (hF : CtrlRelu.Ok F L.dim k) (hh : F.net.hidden ≠ []) (e1 : S.xLo = F.xLo) (e2 : S.xUp = F.xUp)
    {m m' : Mip K} (hw : m.WF) {xs us s g : List ℕ} (lx : xs.length = L.dim) (lu : us.length = k)
    (bx : ∀ i ∈ xs, i < m.n) (bu : ∀ i ∈ us, i < m.n) {lo up : Vec K}
    (hc : S.addCtrl m xs us = some (m', s, g, lo, up)) {lc : Option Bool} {lp : Bool} {U : Mip K × List ℕ × List ℕ}
    (hU : S.ctrlBoundProg lc = some U) {P : BoundProg K}
    (hP : fwdBoundProg F.uLo F.uUp F.micEq L.dim U (some lo) (some up) lp = some P) {solve : Solver K}
    (hs : SolverBounds solve) {B : RateBounds K} (hB : L.optBounds solve P R' lp = some B) {D : RateRet K}
    (hD : L.rate (S.addDynamics (addCtrl F.uLo F.uUp F.micEq)) B xe lam eps .expLower R lower upper .binary = some D)
    (hle : ∀ v, D.m.Feas v → D.m.objVal v ≤ 0) {x xd : Vec K} (hx : InBox L.xLo L.xUp x)
    (hxd : xd.length = L.dim) (hd : ClosedLoop S F.uLo F.uUp F.stepEq x xd)
    (hbet : Between lower upper (lyapV L.net R' lam xe x)) {T : K} (hT : 0 < T)
    (hray : InBox L.xLo L.xUp (vadd x (vsmul T xd))) :
    ∃ d, HasSlope (lyapV L.net R' lam xe) x xd d ∧ d ≤ -eps * lyapV L.net R' lam xe x := by
  have hne : ∃ x u, InBox S.xLo S.xUp x ∧ finVec (S.computeU x) = some u ∧ InBox F.uLo F.uUp u := by
    obtain ⟨b1, w, b2, b3, -⟩ := hd
    exact ⟨x, w, b1, b2, b3⟩
  obtain ⟨U', P', hU', hP', hok, -⟩ := C137_feedback_program hS hF.ulo hF.uup
    (by rw [e1, e2]; exact C50_controlled_equilibrium hF hh) hne hw lx lu bx bu hc lc lp
  obtain rfl : U' = U := Option.some.inj (hU'.symm.trans hU)
  obtain rfl : P' = P := Option.some.inj (hP'.symm.trans hP)
  exact C137_verdict L hL h lam eps lower upper (C48_relu_equilibrium hS hF hh e1 e2 hne) hok hs hB hD hle hx hxd hd
    hbet hT hray

/-- The next states (or velocities) of a network system with input are bounded on its box. -/
theorem step_bdd {F : CtrlRelu K} {n k : ℕ} (hF : CtrlRelu.Ok F n k) (hh : F.net.hidden ≠ []) {x0 u0 : Vec K}
    (hx0 : InBox F.xLo F.xUp x0) (hu0 : InBox F.uLo F.uUp u0) (i : ℕ) (hi : i < n) :
    ∃ b, ∀ x u, InBox F.xLo F.xUp x → InBox F.uLo F.uUp u → |(F.stepEq x u).getD i 0| ≤ b := by
  have app : ∀ {x u : Vec K}, InBox F.xLo F.xUp x → InBox F.uLo F.uUp u →
      InBox (F.xLo ++ F.uLo) (F.xUp ++ F.uUp) (x ++ u) := fun hx hu =>
    (InBox_append hx.1 hx.2.1 hu.1 hu.2.1).2 ⟨hx, hu⟩
  have h0 := (app hx0 hu0).2.2
  have l0 : (x0 ++ u0).length = n + k := by rw [List.length_append, hx0.1, hu0.1, hF.lo, hF.ulo]
  obtain ⟨r, hr⟩ := outputConstraint_isSome (.ia : Method K) hF.net hh (lo := F.xLo ++ F.uLo) (up := F.xUp ++ F.uUp)
    (by rw [List.length_append, hF.lo, hF.ulo]) (by rw [List.length_append, hF.up, hF.uup])
    (fun j hj => by have := h0 j (by omega); exact this.1.trans this.2)
  set d := -(F.net.eval (F.xEq ++ F.uEq)).getD i 0 + (if F.discrete then F.xEq.getD i 0 else 0) with hd
  refine ⟨max |r.nnOutputLo.getD i 0 + d| |r.nnOutputUp.getD i 0 + d|, fun x u hx hu => ?_⟩
  have hb := (C11_bounds_sound hr hF.net trivial (app hx hu)).2.2
  have ln : (F.net.eval (x ++ u)).length = n := by rw [net_len hF.net, hF.out]
  have := hb.2.2 i (by omega)
  rw [C50_controlled_equilibrium_step hF x u i hi]
  refine abs_le_max_abs_abs ?_ ?_ <;> linarith [this.1, this.2]

/-- C137: with binaries in both programs, the bounds of a closed loop are computed and its derivative program is
built as soon as one state of the box has an admissible control. -/
theorem C137_feedback_accepts (L : Lyap K) (hL : L.NetOk) {o : Opt K} (hmL : L.method = .opt o false)
    {R : Option (Tensor2 K)} {R' : Mat K} {xe : Vec K} (h : L.EqOk R R' xe) (lam eps : K) (lower upper : Option K)
    {S : Feedback K} {F : CtrlRelu K} {k : ℕ} (hS : S.Ok L.dim k) (hF : CtrlRelu.Ok F L.dim k)
    (hh : F.net.hidden ≠ []) (e1 : S.xLo = F.xLo) (e2 : S.xUp = F.xUp) {m m' : Mip K} (hw : m.WF)
    {xs us s g : List ℕ} (lx : xs.length = L.dim) (lu : us.length = k) (bx : ∀ i ∈ xs, i < m.n)
    (bu : ∀ i ∈ us, i < m.n) {lo up : Vec K} (hc : S.addCtrl m xs us = some (m', s, g, lo, up)) {solve : Solver K}
    (hs : SolverBounds solve) (hT : SolverTotal solve) {x xd : Vec K} (hx : InBox L.xLo L.xUp x)
    (hxd : xd.length = L.dim) (hd : ClosedLoop S F.uLo F.uUp F.stepEq x xd) :
    ∃ U P B D, S.ctrlBoundProg (some false) = some U ∧
      fwdBoundProg F.uLo F.uUp F.micEq L.dim U (some lo) (some up) false = some P ∧
      L.optBounds solve P R' false = some B ∧
      L.rate (S.addDynamics (addCtrl F.uLo F.uUp F.micEq)) B xe lam eps .expLower R lower upper .binary = some D := by
  obtain ⟨b1, w, b2, b3, -⟩ := id hd
  have hne : ∃ x u, InBox S.xLo S.xUp x ∧ finVec (S.computeU x) = some u ∧ InBox F.uLo F.uUp u := ⟨x, w, b1, b2, b3⟩
  obtain ⟨U, P, hU, hP, hok, hrel⟩ := C137_feedback_program hS hF.ulo hF.uup
    (by rw [e1, e2]; exact C50_controlled_equilibrium hF hh) hne hw lx lu bx bu hc (some false) false
  have hbd : ∀ i ∈ P.xn, VarBdd P.m i := by
    intro i hi
    obtain ⟨j, hj, rfl⟩ := List.getElem_of_mem hi
    obtain ⟨b, hb⟩ := step_bdd hF hh (by rw [← e1, ← e2]; exact b1) b3 j (by rw [← hok.lxn]; exact hj)
    refine ⟨b, fun v hv => ?_⟩
    obtain ⟨c1, u, -, c3, c4⟩ := hrel rfl rfl v hv
    have := hb _ u (by rw [← e1, ← e2]; exact c1) c3
    rw [← c4] at this
    have e : (P.xn.map v).getD j 0 = v P.xn[j] := by simp [List.getD_eq_getElem?_getD, hj]
    rwa [e] at this
  obtain ⟨B, D, hB, hD⟩ := C137_accepts L hL hmL h lam eps lower upper (C48_relu_equilibrium hS hF hh e1 e2 hne) hok hs hT
    hbd hx hxd hd
  exact ⟨U, P, B, D, hU, hP, hB, hD⟩

/-! ### A concrete case -/

/-- The control bound program and the bound program of the closed loop of `exCtrl` under the linear controller
`exFbLin`, with binaries and relaxed. -/
example (lc : Option Bool) (lp : Bool) : ∃ (lo up : Vec ℚ) (U : Mip ℚ × List ℕ × List ℕ) (Q : BoundProg ℚ),
    exFbLin.ctrlBoundProg lc = some U ∧
      fwdBoundProg exCtrl.uLo exCtrl.uUp exCtrl.micEq 1 U (some lo) (some up) lp = some Q ∧
      BoundProgOk Q 1 (ClosedLoop exFbLin exCtrl.uLo exCtrl.uUp exCtrl.stepEq) ∧
      ∃ y, ClosedLoop exFbLin exCtrl.uLo exCtrl.uUp exCtrl.stepEq [1 / 4] y := by
  obtain ⟨m1, m2, -, -, hok⟩ := free_pair (K := ℚ) 1 1
  obtain ⟨m', s, g, lo, up, hc, -⟩ := addCtrl_fb exFbLin_ok m2 hok.wf _ _ hok.lx hok.lu hok.x hok.u
  have hb : InBox exFbLin.xLo exFbLin.xUp [1 / 4] := by
    refine ⟨rfl, rfl, fun i hi => ?_⟩
    have : i = 0 := by simpa using hi
    subst this
    norm_num [exFbLin]
  have hu : finVec (exFbLin.computeU [1 / 4]) = some [0] := by
    rw [exFbLin_u]
    norm_num
  have hb' : InBox exCtrl.uLo exCtrl.uUp [0] := by
    refine ⟨rfl, rfl, fun i hi => ?_⟩
    have : i = 0 := by simpa using hi
    subst this
    norm_num [exCtrl]
  obtain ⟨U, Q, h1, h2, h3, -⟩ := C137_feedback_program exFbLin_ok (uLo := exCtrl.uLo) (uUp := exCtrl.uUp) rfl rfl
    (C50_controlled_equilibrium exCtrl_ok (by simp [exCtrl, exNet])) ⟨_, _, hb, hu, hb'⟩ hok.wf hok.lx hok.lu hok.x hok.u
    hc lc lp
  exact ⟨lo, up, U, Q, h1, h2, h3, _, hb, _, hu, hb', rfl⟩

end NNL.Props
