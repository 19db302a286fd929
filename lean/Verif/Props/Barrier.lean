import Verif.Props.Losses

/-!
# C40, C41: barrier functions
-/

set_option linter.unusedSectionVars false

namespace NNL.Props

open NNL NNL.Model NNL.Spec

variable {K : Type*} [Field K] [LinearOrder K] [IsStrictOrderedRing K]

/-- A barrier whose network has consistent shapes and one output, with valid bounds. -/
structure BarrierOk (L : Lyap K) : Prop where
  up : L.xUp.length = L.dim
  net : L.net.Ok L.dim
  out : L.net.last.W.length = 1
  method : MethodValid L.net L.xLo L.xUp L.method
  accepts : ∃ r, outputConstraint L.net L.dim L.xLo L.xUp L.method = some r

theorem barrierOk_ia {L : Lyap K} (hm : L.method = .ia) (hu : L.xUp.length = L.dim)
    (hb : ∀ i, i < L.dim → L.xLo.getD i 0 ≤ L.xUp.getD i 0) (hn : L.net.Ok L.dim)
    (ho : L.net.last.W.length = 1) (h2 : L.net.hidden ≠ []) : BarrierOk L := by
  refine ⟨hu, hn, ho, by rw [hm]; exact trivial, ?_⟩
  rw [hm]
  apply Option.isSome_iff_exists.1
  rw [C12_accepts L.net L.dim L.xLo L.xUp hn rfl hu hb]
  exact h2

theorem length_aOut' (L : Lyap K) (hL : BarrierOk L) : L.aOut.length = numUnits L.net.hidden := by
  obtain ⟨r, hr⟩ := hL.accepts
  obtain ⟨-, -, h3, -⟩ := outputConstraint_some hr
  obtain ⟨hrdy, n1, n2, n3, hA, hC, hAi, hAb⟩ := outputCons_ready h3 hL.net
  have := hrdy.sized.shaped.aout_s _ hA
  obtain ⟨w, hW⟩ : ∃ w, L.net.last.W = [w] := by
    match h : L.net.last.W, hL.out with
    | [w], _ => exact ⟨w, rfl⟩
  have := this.2.2 (setSlice (zeros (numUnits L.net.hidden)) (lastOff L.net.hidden) w) (by simp [hW])
  simpa [Lyap.aOut, hW] using this

theorem net_enc (L : Lyap K) (hL : BarrierOk L) (m : Mip K) (hw : m.WF) (x : List ℕ)
    (hl : x.length = L.dim) (hx : ∀ i ∈ x, i < m.n) :
    ∃ t, L.addNet m x .binary = some t ∧ t.z = List.range' m.n (numUnits L.net.hidden) ∧
      t.beta = List.range' (m.n + numUnits L.net.hidden) (numUnits L.net.hidden) ∧
      t.m.n = m.n + (numUnits L.net.hidden + numUnits L.net.hidden) ∧
      t.a = L.aOut ∧ t.b = L.bOut ∧
      Enc m t.m (fun v => InBox L.xLo L.xUp (x.map v)) fun v =>
        InBox L.xLo L.xUp (x.map v) ∧ IsBin (t.beta.map v) ∧
          dot t.a (t.z.map v) + t.b = L.phi (x.map v) := by
  obtain ⟨r, hr⟩ := hL.accepts
  obtain ⟨-, -, h3, -⟩ := outputConstraint_some hr
  obtain ⟨hrdy, n1, n2, n3, hA, hC, hAi, hAb⟩ := outputCons_ready h3 hL.net
  obtain ⟨m', hm', hn', henc⟩ := mic_enc m hw r.mic x (by rw [hl]; exact hrdy) hx
  obtain ⟨w, hW⟩ : ∃ w, L.net.last.W = [w] := by
    match h : L.net.last.W, hL.out with
    | [w], _ => exact ⟨w, rfl⟩
  obtain ⟨b, hB⟩ : ∃ b, L.net.last.b = [b] := by
    have := hL.net.2.2
    rw [hL.out] at this
    match h : L.net.last.b, this with
    | [b], _ => exact ⟨b, rfl⟩
  have sA : squeezeRow0 r.mic.Aout_slack = some L.aOut := by
    rw [hA, hW]
    simp [squeezeRow0, Lyap.aOut, hW]
  have sB : squeezeScalar r.mic.Cout = some L.bOut := by
    rw [hC, hB]
    simp [squeezeScalar, Lyap.bOut, hB]
  rw [n1, n2] at hm' hn' henc
  refine ⟨⟨m', List.range' m.n (numUnits L.net.hidden),
    List.range' (m.n + numUnits L.net.hidden) (numUnits L.net.hidden), L.aOut, L.bOut, r⟩,
    by simp [Lyap.addNet, hr, hm', sA, sB], rfl, rfl, hn', rfl, rfl, ?_⟩
  refine henc.weaken ?_ ?_
  · intro v _ hb
    exact C12_complete h3 hL.net rfl hL.up hb (C11_bounds_sound hr hL.net hL.method hb).1
  · intro v _ hf
    obtain ⟨b1, b2, b3⟩ := C12_sound h3 hL.net (by simp [hl]) rfl hL.up hf
    refine ⟨b1, hf.bin, ?_⟩
    simp only
    rw [Lyap.phi, ← b3, MIC.out, n3, hL.out, hAi, hAb, hA, hC, hW, hB]
    simp [mrow, Lyap.aOut, Lyap.bOut, hW, hB]

/-! ### C41 -/

/-- What the value program maximises: `-h` on a safe region, `h` on an unsafe one. -/
def barrierGoal (safe : Bool) (h : K) : K := if safe then -h else h

/-- **C41**, `value_as_milp`: the points of the program are the states of the box that lie in the region, and
the objective is `-h(x)` (safe) or `h(x)` (unsafe). -/
theorem C41_value_program (L : Lyap K) (hL : BarrierOk L) (xs : Vec K) (c : K) (region : MIC K)
    (hr : region.Ready L.dim) (safe : Bool) :
    ∃ m x, L.barrierValueMilp xs c region safe = some (m, x) ∧ x.length = L.dim ∧
      m.obj.map MilpObj.maximize = some true ∧
      (∀ v, m.Feas v → InBox L.xLo L.xUp (x.map v) ∧ (∃ s z, region.Feas (x.map v) s z) ∧
        m.objVal v = barrierGoal safe (barrierH L.net xs c (x.map v))) ∧
      ∀ y, InBox L.xLo L.xUp y → (∃ s z, region.Feas y s z) → ∃ v, m.Feas v ∧ x.map v = y := by
  obtain ⟨m1, h1, w1, n1, f1⟩ := start_free (Mip.empty : Mip K) Mip.WF.empty feas_empty L.dim
  have e0 : (Mip.empty : Mip K).n = 0 := rfl
  rw [e0] at h1 n1
  rw [zero_add] at n1
  set x := List.range' 0 L.dim with hx
  have lx : x.length = L.dim := by simp [hx]
  have bx : ∀ i ∈ x, i < m1.n := fun i hi => mem_range'_lt (by omega) i hi
  obtain ⟨m2, h2, n2, E2⟩ := mic_enc m1 w1 region x (by rw [lx]; exact hr) bx
  obtain ⟨t, h3, tz, tb, tn, ta, tbb, E3⟩ := net_enc L hL m2 E2.wf x lx
    (fun i hi => lt_of_lt_of_le (bx i hi) E2.n)
  have htz : ∀ i ∈ t.z, i < t.m.n := fun i hi => by
    rw [tz, List.mem_range'_1] at hi
    omega
  have hD : DepsBelow m1.n fun v => (∃ s z, region.Feas (x.map v) s z) ∧ InBox L.xLo L.xUp (x.map v) :=
    depsBelow_map x bx fun y => (∃ s z, region.Feas y s z) ∧ InBox L.xLo L.xUp y
  have C1 := (E2.weaken (fun v _ h => h.1) (fun _ _ h => h)).seq E3 hD (fun v h _ => h.2)
  have len : (barrierObj safe t.a (t.b - L.phi xs + c)).1.length = t.z.length := by
    cases safe <;> simp [barrierObj, ta, tz, length_aOut' L hL]
  obtain ⟨m4, h4, f4, o4, v4⟩ := obj_set t.m C1.wf [(barrierObj safe t.a (t.b - L.phi xs + c)).1] [t.z]
    (barrierObj safe t.a (t.b - L.phi xs + c)).2 true (by simp [len])
    (by simp only [List.flatten_cons, List.flatten_nil, List.append_nil, tz]; exact List.nodup_range')
    (by simpa using htz)
  refine ⟨m4, x, by simp [Lyap.barrierValueMilp, h1, h2, h3, h4], lx, o4, ?_, ?_⟩
  · intro v hv
    rw [f4] at hv
    obtain ⟨-, r1, r2⟩ := C1.sound v hv
    refine ⟨r2.1, ⟨_, _, r1⟩, ?_⟩
    rw [v4]
    have hp := r2.2.2
    cases safe
    · simp only [barrierObj, objExpr, barrierGoal, List.zipWith_cons_cons, List.zipWith_nil_right,
        List.sum_cons, List.sum_nil, if_false, Bool.false_eq_true, barrierH]
      change _ = L.phi (x.map v) - L.phi xs + c
      rw [← hp]
      ring
    · simp only [barrierObj, objExpr, barrierGoal, List.zipWith_cons_cons, List.zipWith_nil_right,
        List.sum_cons, List.sum_nil, if_true, barrierH, dot_vneg_left]
      change _ = -(L.phi (x.map v) - L.phi xs + c)
      rw [← hp]
      ring
  · intro y hy hyr
    have ly : y.length = L.dim := hy.1
    have ex : x.map (upd (fun _ => 0) 0 y) = y := map_upd _ _ _ _ ly
    obtain ⟨v', hv', hf'⟩ := C1.complete _ (f1 (upd (fun _ => 0) 0 y)) (by
      rw [ex]
      exact ⟨hyr, hy⟩)
    refine ⟨v', (f4 v').2 hf', ?_⟩
    conv_rhs => rw [← ex]
    exact List.map_congr_left fun i hi => hv' i (bx i hi)

/-- **C41**: the verdict of `value_as_milp` on a safe region: the optimum is at most zero iff `h >= 0` on the
region; on an unsafe region the optimum is at most zero iff `h <= 0` there, and below zero everywhere iff
`h < 0`. -/
theorem C41_value_verdict (L : Lyap K) (hL : BarrierOk L) (xs : Vec K) (c : K) (region : MIC K)
    (hr : region.Ready L.dim) (safe : Bool) {m : Mip K} {x : List ℕ}
    (h : L.barrierValueMilp xs c region safe = some (m, x)) (b : K) :
    (∀ v, m.Feas v → m.objVal v ≤ b) ↔
      ∀ y, InBox L.xLo L.xUp y → (∃ s z, region.Feas y s z) → barrierGoal safe (barrierH L.net xs c y) ≤ b := by
  obtain ⟨m', x', e, -, -, s, k⟩ := C41_value_program L hL xs c region hr safe
  rw [e] at h
  simp only [Option.some.injEq, Prod.mk.injEq] at h
  obtain ⟨rfl, rfl⟩ := h
  constructor
  · intro hall y h1 h2
    obtain ⟨v, hv, rfl⟩ := k y h1 h2
    have := hall v hv
    rwa [(s v hv).2.2] at this
  · intro hall v hv
    obtain ⟨a1, a2, a3⟩ := s v hv
    rw [a3]
    exact hall _ a1 a2

/-- **C41**, `derivative_as_milp`: the objective is `-h(x⁺) + (1 - ε) h(x)`. -/
theorem C41_derivative_program (L : Lyap K) (hL : BarrierOk L) (xs : Vec K) (c eps : K)
    {sys : SysConstr K} {Dom Rel : Vec K → Vec K → Prop} (hsys : SysEnc sys L.dim Dom Rel) :
    ∃ D, L.barrierDerivMilp sys xs c eps .binary = some D ∧
      D.x.length = L.dim ∧ D.xNext.length = L.dim ∧
      D.m.obj.map MilpObj.maximize = some true ∧
      (∀ v, D.m.Feas v → InBox L.xLo L.xUp (D.x.map v) ∧ InBox L.xLo L.xUp (D.xNext.map v) ∧
        Rel (D.x.map v) (D.xNext.map v) ∧
        D.m.objVal v = -(barrierH L.net xs c (D.xNext.map v))
          + (1 - eps) * barrierH L.net xs c (D.x.map v)) ∧
      ∀ y yn, InBox L.xLo L.xUp y → InBox L.xLo L.xUp yn → Dom y yn →
        ∃ v, D.m.Feas v ∧ D.x.map v = y ∧ D.xNext.map v = yn := by
  obtain ⟨m1, h1, w1, n1, f1⟩ := start_free (Mip.empty : Mip K) Mip.WF.empty feas_empty L.dim
  have e0 : (Mip.empty : Mip K).n = 0 := rfl
  rw [e0] at h1 n1
  rw [zero_add] at n1
  obtain ⟨m2, h2, w2, n2, f2⟩ := start_free m1 w1 f1 L.dim
  rw [n1] at h2 n2
  set x := List.range' 0 L.dim with hx
  set xn := List.range' L.dim L.dim with hxn
  have lx : x.length = L.dim := by simp [hx]
  have lxn : xn.length = L.dim := by simp [hxn]
  have bx0 : ∀ i ∈ x, i < L.dim := fun i hi => mem_range'_lt (by omega) i hi
  have bxn : ∀ i ∈ xn, L.dim ≤ i ∧ i < m2.n := fun i hi => by
    rw [hxn, List.mem_range'_1] at hi
    omega
  have b2 : ∀ i ∈ x, i < m2.n := fun i hi => by have := bx0 i hi; omega
  have b2n : ∀ i ∈ xn, i < m2.n := fun i hi => (bxn i hi).2
  have ndx : (x ++ xn).Nodup := by
    refine List.Nodup.append List.nodup_range' List.nodup_range' ?_
    intro i hi hi'
    have := bx0 i hi
    have := (bxn i hi').1
    omega
  obtain ⟨m3, ds, dg, h3, E3⟩ := hsys m2 x xn w2 lx lxn ndx b2 b2n
  obtain ⟨t, h4, tz, tb, tn, ta, tbb, E4⟩ := net_enc L hL m3 E3.wf x lx
    (fun i hi => lt_of_lt_of_le (b2 i hi) E3.n)
  obtain ⟨u, h5, uz, ub, un, ua, ubb, E5⟩ := net_enc L hL t.m E4.wf xn lxn
    (fun i hi => lt_of_lt_of_le (b2n i hi) (E3.n.trans E4.n))
  have hD : DepsBelow m2.n fun v => InBox L.xLo L.xUp (x.map v) ∧ InBox L.xLo L.xUp (xn.map v) ∧
      Dom (x.map v) (xn.map v) :=
    depsBelow_map2 x xn b2 b2n fun y yn => InBox L.xLo L.xUp y ∧ InBox L.xLo L.xUp yn ∧ Dom y yn
  have C1 := (E3.weaken (fun v _ h => h.2.2) (fun _ _ h => h)).seq E4 hD (fun v h _ => h.1)
  have C2 := C1.seq E5 hD (fun v h _ => h.2.1)
  have htz : ∀ i ∈ t.z, i < t.m.n := fun i hi => by
    rw [tz, List.mem_range'_1] at hi
    omega
  have huz : ∀ i ∈ u.z, t.m.n ≤ i ∧ i < u.m.n := fun i hi => by
    rw [uz, List.mem_range'_1] at hi
    omega
  obtain ⟨m6, h6, f6, o6, v6⟩ := obj_set u.m C2.wf [vsmul (1 - eps) t.a, vneg t.a] [t.z, u.z]
    (eps * (-t.b + L.phi xs - c)) true
    (by simp [ta, tz, uz, length_aOut' L hL])
    (by
      simp only [List.flatten_cons, List.flatten_nil, List.append_nil]
      refine List.Nodup.append (by rw [tz]; exact List.nodup_range') (by rw [uz]; exact List.nodup_range') ?_
      intro i hi hi'
      have := htz i hi
      have := (huz i hi').1
      omega)
    (by
      simp only [List.flatten_cons, List.flatten_nil, List.append_nil, List.mem_append]
      rintro i (hi | hi)
      · exact lt_of_lt_of_le (htz i hi) E5.n
      · exact (huz i hi).2)
  refine ⟨⟨m6, x, xn, ds, dg, t.z, u.z, t.beta, u.beta, t.ret, u.ret⟩, ?_, lx, lxn, o6, ?_, ?_⟩
  · simp [Lyap.barrierDerivMilp, h1, h2, h3, h4, h5, h6]
  · intro v hv
    simp only at hv ⊢
    rw [f6] at hv
    obtain ⟨-, ⟨r1, r2⟩, r3⟩ := C2.sound v hv
    refine ⟨r2.1, r3.1, r1, ?_⟩
    rw [v6]
    have hp := r2.2.2
    have hq : dot t.a (u.z.map v) + t.b = L.phi (xn.map v) := by
      rw [ta, tbb, ← ua, ← ubb]
      exact r3.2.2
    simp only [objExpr, List.zipWith_cons_cons, List.zipWith_nil_right,
      List.sum_cons, List.sum_nil, barrierH, dot_vneg_left, dot_vsmul_left]
    change _ = -(L.phi (xn.map v) - L.phi xs + c) + (1 - eps) * (L.phi (x.map v) - L.phi xs + c)
    rw [← hp, ← hq]
    ring
  · intro y yn hy hyn hdom
    have ly : y.length = L.dim := hy.1
    have lyn : yn.length = L.dim := hyn.1
    have exn : xn.map (upd (upd (fun _ => 0) L.dim yn) 0 y) = yn := by
      have : xn.map (upd (upd (fun _ => 0) L.dim yn) 0 y) = xn.map (upd (fun _ => 0) L.dim yn) := by
        refine List.map_congr_left fun i hi => ?_
        unfold upd
        rw [if_neg (by have := (bxn i hi).1; omega)]
      rw [this, hxn, map_upd _ _ _ _ lyn]
    have ex : x.map (upd (upd (fun _ => 0) L.dim yn) 0 y) = y := map_upd _ _ _ _ ly
    obtain ⟨v', hv', hf'⟩ := C2.complete _ (f2 (upd (upd (fun _ => 0) L.dim yn) 0 y)) (by
      rw [ex, exn]
      exact ⟨hy, hyn, hdom⟩)
    refine ⟨v', (f6 v').2 hf', ?_, ?_⟩
    · simp only
      conv_rhs => rw [← ex]
      exact List.map_congr_left fun i hi => hv' i (b2 i hi)
    · simp only
      conv_rhs => rw [← exn]
      exact List.map_congr_left fun i hi => hv' i (b2n i hi)

/-- **C41**: the verdict of `derivative_as_milp`. -/
theorem C41_derivative_verdict (L : Lyap K) (hL : BarrierOk L) (xs : Vec K) (c eps : K)
    {sys : SysConstr K} {Rel : Vec K → Vec K → Prop} (hsys : SysEnc sys L.dim Rel Rel) {D : DerivRet K}
    (hd : L.barrierDerivMilp sys xs c eps .binary = some D) :
    OptNonpos D.m ↔ ∀ y yn, InBox L.xLo L.xUp y → InBox L.xLo L.xUp yn → Rel y yn →
      (1 - eps) * barrierH L.net xs c y ≤ barrierH L.net xs c yn := by
  obtain ⟨D', e, -, -, -, s, k⟩ := C41_derivative_program L hL xs c eps hsys
  rw [e] at hd
  simp only [Option.some.injEq] at hd
  subst hd
  constructor
  · intro hall y yn h1 h2 h3
    obtain ⟨v, hv, rfl, rfl⟩ := k y yn h1 h2 h3
    have := hall v hv
    rw [(s v hv).2.2.2] at this
    linarith
  · intro hall v hv
    obtain ⟨a1, a2, a3, a4⟩ := s v hv
    rw [a4]
    linarith [hall _ _ a1 a2 a3]

/-! ### C40 -/

/-- **C40**: `value` is the barrier function (only for `c > 0`). -/
theorem C40_value (L : Lyap K) (x xs : Vec K) (c h : K) :
    L.barrier x xs c = some h ↔ 0 < c ∧ h = barrierH L.net xs c x := by
  unfold Lyap.barrier barrierH
  by_cases hc : c > 0
  · rw [if_pos hc]
    simp only [Option.some.injEq]
    exact ⟨fun e => ⟨hc, e.symm⟩, fun e => e.2.symm⟩
  · rw [if_neg hc]
    simp only [reduceCtorEq, false_iff, not_and]
    exact fun h => absurd h hc

/-- **C40**: at `x*` the barrier function is `c > 0`. -/
theorem C40_value_at_star (L : Lyap K) (xs : Vec K) (c h : K) (hv : L.barrier xs xs c = some h) :
    h = c ∧ 0 < h := by
  obtain ⟨h1, rfl⟩ := (C40_value L xs xs c h).1 hv
  unfold barrierH
  constructor
  · ring
  · linarith

/-- **C40**: `derivative` is `-h(x⁺) + (1 - ε) h(x)`. -/
theorem C40_derivative (L : Lyap K) (x xn xs : Vec K) (c eps d : K)
    (h : L.barrierDerivative x xn xs c eps = some d) :
    d = -(barrierH L.net xs c xn) + (1 - eps) * barrierH L.net xs c x := by
  unfold Lyap.barrierDerivative Lyap.barrier at h
  by_cases hc : c > 0
  · simp only [if_pos hc, Option.bind_eq_bind, Option.bind_some, Option.some.injEq] at h
    exact h.symm
  · simp [if_neg hc] at h

/-- **C40**: when the optimum of the derivative program is at most zero and `0 ≤ ε ≤ 1`, every trajectory in
the box satisfies `h(x_n) ≥ (1 - ε)^n h(x_0)`. -/
theorem C40_decay (L : Lyap K) (hL : BarrierOk L) (xs : Vec K) (c eps : K) {sys : SysConstr K}
    {Dom Rel : Vec K → Vec K → Prop} (hsys : SysEnc sys L.dim Dom Rel) {D : DerivRet K}
    (hd : L.barrierDerivMilp sys xs c eps .binary = some D) (ho : OptNonpos D.m) (he1 : eps ≤ 1)
    (x : ℕ → Vec K) (hx : Traj Dom x) (hbox : ∀ n, InBox L.xLo L.xUp (x n)) (n : ℕ) :
    (1 - eps) ^ n * barrierH L.net xs c (x 0) ≤ barrierH L.net xs c (x n) := by
  obtain ⟨D', e, -, -, -, s, k⟩ := C41_derivative_program L hL xs c eps hsys
  rw [e] at hd
  simp only [Option.some.injEq] at hd
  subst hd
  induction n with
  | zero => simp
  | succ n ih =>
    obtain ⟨v, hv, e1, e2⟩ := k (x n) (x (n + 1)) (hbox n) (hbox (n + 1)) (hx n)
    have hob := ho v hv
    rw [(s v hv).2.2.2, e1, e2] at hob
    have h1 := mul_le_mul_of_nonneg_left ih (by linarith : 0 ≤ 1 - eps)
    rw [pow_succ]
    linarith [mul_comm ((1 - eps) ^ n) (1 - eps),
      mul_assoc (1 - eps) ((1 - eps) ^ n) (barrierH L.net xs c (x 0))]

/-- **C40**, safety: a trajectory that stays in the box and starts in the safe region (where the value
program certified `h ≥ 0`) never enters the unsafe region (where it certified `h ≤ b` with `b < 0`). -/
theorem C40_safe (L : Lyap K) (hL : BarrierOk L) (xs : Vec K) (c eps : K) {sys : SysConstr K}
    {Dom Rel : Vec K → Vec K → Prop} (hsys : SysEnc sys L.dim Dom Rel) {D : DerivRet K}
    (hd : L.barrierDerivMilp sys xs c eps .binary = some D) (ho : OptNonpos D.m) (he1 : eps ≤ 1)
    {safeR unsafeR : MIC K} (hs : safeR.Ready L.dim) (hu : unsafeR.Ready L.dim)
    {ms mu : Mip K} {xs' xu : List ℕ}
    (hms : L.barrierValueMilp xs c safeR true = some (ms, xs')) (hso : OptNonpos ms)
    (hmu : L.barrierValueMilp xs c unsafeR false = some (mu, xu)) {b : K} (hb : b < 0)
    (huo : ∀ v, mu.Feas v → mu.objVal v ≤ b)
    (x : ℕ → Vec K) (hx : Traj Dom x) (hbox : ∀ n, InBox L.xLo L.xUp (x n))
    (h0 : ∃ s z, safeR.Feas (x 0) s z) (n : ℕ) : ¬ ∃ s z, unsafeR.Feas (x n) s z := by
  intro hn
  have k1 := (C41_value_verdict L hL xs c safeR hs true hms 0).1 hso (x 0) (hbox 0) h0
  have k2 := (C41_value_verdict L hL xs c unsafeR hu false hmu b).1 huo (x n) (hbox n) hn
  have k3 := C40_decay L hL xs c eps hsys hd ho he1 x hx hbox n
  simp only [barrierGoal, if_true, Bool.false_eq_true, if_false] at k1 k2
  have : 0 ≤ (1 - eps) ^ n * barrierH L.net xs c (x 0) :=
    mul_nonneg (pow_nonneg (by linarith) n) (by linarith)
  linarith

/-! ### A concrete case: `h(x) = 1/2 - relu(x)` on `[-1, 1]`, `x⁺ = x / 2`, safe `x ≤ 0`, unsafe `x ≥ 3/4` -/

/-- A region given by linear inequalities. -/
def polyMIC (n : ℕ) (P : Mat K) (q : Vec K) : MIC K := { Ain_input := some ⟨n, P⟩, rhs_in := some q }

theorem poly_ready (n : ℕ) (P : Mat K) (q : Vec K) (hP : HasCols P n) (hl : P.length = q.length) :
    (polyMIC n P q).Ready n := by
  refine ⟨⟨⟨?_, ?_, ?_, ?_, ?_, ?_, ?_, ?_, ?_, ?_, ?_, ?_⟩, rfl, rfl, rfl⟩, ⟨?_, ?_, ?_, ?_, ?_, ?_⟩, ⟨?_, ?_⟩⟩
  all_goals try (intro M hM; cases hM)
  · exact ⟨hl, rfl, hP⟩
  · simp [polyMIC]
  · simp [polyMIC]
  · simp [polyMIC]
  · simp [polyMIC, MIC.numEq]

theorem poly_feas (n : ℕ) (P : Mat K) (q y : Vec K) :
    (∃ s z, (polyMIC n P q).Feas y s z) ↔ ∀ i, i < q.length → dot (P.getD i []) y ≤ q.getD i 0 := by
  have hh : ∀ s z : Vec K, s = [] → z = [] → ((polyMIC n P q).Holds y s z ↔
      ∀ i, i < q.length → dot (P.getD i []) y ≤ q.getD i 0) := by
    rintro _ _ rfl rfl
    simp [MIC.Holds, MIC.ineqRows, MIC.eqRows, blockRows, polyMIC, LRow.val, mrow]
  constructor
  · rintro ⟨s, z, h⟩
    have l1 : s = [] := List.length_eq_zero_iff.1 h.len_s
    have l2 : z = [] := List.length_eq_zero_iff.1 h.len_z
    exact (hh s z l1 l2).1 h.rows
  · intro h
    refine ⟨[], [], rfl, rfl, by simp [IsBin], (hh _ _ rfl rfl).2 h, ?_⟩
    simp [MIC.BoundsHold, polyMIC, LoOk, UpOk]

/-- `φ(x) = -relu(x)`: a single unit. -/
def exBar : Lyap ℚ :=
  { xLo := [-1], xUp := [1]
    net := { hidden := [(⟨1, [[1]], none⟩, .relu)], last := ⟨1, [[-1]], none⟩ } }

theorem exBar_ok : BarrierOk exBar := by
  refine barrierOk_ia rfl rfl ?_ ?_ rfl (by simp [exBar])
  · intro i hi
    have : i < 1 := hi
    interval_cases i
    norm_num [exBar]
  · simp [exBar, Net.Ok, HidOk, Lin.Ok, HasCols, Lin.b, Lyap.dim]

theorem exBar_h (a : ℚ) : barrierH exBar.net [0] (1 / 2) [a] = 1 / 2 - max a 0 := by
  simp [barrierH, Net.val, Net.eval, exBar, hiddenOut, Lin.eval, Lin.b, matVec, vadd, dot, Act.f,
    Spec.relu, zeros, List.replicate]
  ring

theorem exBar_state {y : Vec ℚ} (h : InBox exBar.xLo exBar.xUp y) : ∃ a, y = [a] ∧ -1 ≤ a ∧ a ≤ 1 := by
  have : y.length = 1 := h.1
  match y, this with
  | [a], _ =>
    have := h.2.2 0 (by simp)
    simp only [exBar, List.getD_cons_zero] at this
    exact ⟨a, rfl, this⟩

/-- Every hypothesis of `C40_safe` holds in this case; its conclusion, for the trajectories from `x ≤ 0`. -/
example (x : ℕ → Vec ℚ) (hx : Traj (fun y yn => yn = matVec [[1 / 2]] y) x)
    (hbox : ∀ n, InBox exBar.xLo exBar.xUp (x n)) (h0 : (x 0).getD 0 0 ≤ 0) (n : ℕ) :
    ¬ 3 / 4 ≤ (x n).getD 0 0 := by
  have hsys : SysEnc (linSys 1 [[1 / 2]]) exBar.dim (fun y yn => yn = matVec [[(1 / 2 : ℚ)]] y)
      fun y yn => yn = matVec [[(1 / 2 : ℚ)]] y := linSys_enc 1 _ (by simp [HasCols]) rfl
  obtain ⟨D, hd, -⟩ := C41_derivative_program exBar exBar_ok [0] (1 / 2) (1 / 2) hsys
  have rs : (polyMIC 1 [[(1 : ℚ)]] [0]).Ready exBar.dim := poly_ready _ _ _ (by simp [HasCols]) rfl
  have ru : (polyMIC 1 [[(-1 : ℚ)]] [-(3 / 4)]).Ready exBar.dim := poly_ready _ _ _ (by simp [HasCols]) rfl
  obtain ⟨ms, xs, hms, -⟩ := C41_value_program exBar exBar_ok [0] (1 / 2) _ rs true
  obtain ⟨mu, xu, hmu, -⟩ := C41_value_program exBar exBar_ok [0] (1 / 2) _ ru false
  have key := C40_safe exBar exBar_ok [0] (1 / 2) (1 / 2) hsys hd
    ((C41_derivative_verdict exBar exBar_ok [0] (1 / 2) (1 / 2) hsys hd).2 ?_) (by norm_num) rs ru hms
    ((C41_value_verdict exBar exBar_ok [0] (1 / 2) _ rs true hms 0).2 ?_) hmu (b := -(1 / 4))
    (by norm_num) ((C41_value_verdict exBar exBar_ok [0] (1 / 2) _ ru false hmu _).2 ?_) x hx hbox ?_ n
  · obtain ⟨a, ha, -⟩ := exBar_state (hbox n)
    intro hc
    refine key ((poly_feas _ _ _ _).2 fun i hi => ?_)
    have : i < 1 := hi
    interval_cases i
    rw [ha] at hc ⊢
    simp only [List.getD_cons_zero, dot_cons, dot_nil_left] at hc ⊢
    linarith
  · rintro y _ hy - rfl
    obtain ⟨a, rfl, h1, h2⟩ := exBar_state hy
    have : matVec [[(1 / 2 : ℚ)]] [a] = [1 / 2 * a] := by simp [matVec, dot]
    rw [this, exBar_h, exBar_h]
    rcases le_total a 0 with h | h
    · rw [max_eq_right h, max_eq_right (by linarith)]
      norm_num
    · rw [max_eq_left h, max_eq_left (by linarith)]
      linarith
  · intro y hy hf
    obtain ⟨a, rfl, h1, h2⟩ := exBar_state hy
    have := (poly_feas _ _ _ _).1 hf 0 (by simp)
    simp only [List.getD_cons_zero, dot_cons, dot_nil_left] at this
    rw [exBar_h, max_eq_right (by linarith)]
    norm_num [barrierGoal]
  · intro y hy hf
    obtain ⟨a, rfl, h1, h2⟩ := exBar_state hy
    have := (poly_feas _ _ _ _).1 hf 0 (by simp)
    simp only [List.getD_cons_zero, dot_cons, dot_nil_left] at this
    rw [exBar_h, max_eq_left (by linarith)]
    simp only [barrierGoal, Bool.false_eq_true, if_false]
    linarith
  · obtain ⟨a, ha, -⟩ := exBar_state (hbox 0)
    rw [poly_feas]
    intro i hi
    have : i < 1 := hi
    interval_cases i
    rw [ha] at h0 ⊢
    simp only [List.getD_cons_zero, dot_cons, dot_nil_left] at h0 ⊢
    linarith

end NNL.Props

