import Verif.Lemmas.LyapEnc

/-!
# C31 - C33, C36: the Lyapunov programs

`lyapV net R λ x* x` is the value of the candidate function (Spec/Lyapunov).
-/

set_option linter.unusedSectionVars false

namespace NNL.Props

open NNL NNL.Model NNL.Spec

variable {K : Type*} [Field K] [LinearOrder K] [IsStrictOrderedRing K]

/-! ### C31 -/

theorem err_self (R : Mat K) (x : Vec K) : err R x x = 0 := by
  have h : ∀ r : Vec K, dot r (vsub x x) = 0 := by
    intro r
    rw [dot_vsub_right _ _ _ rfl, sub_self]
  unfold err norm1 matVec
  simp [h]

/-- **C31**: `lyapunov_value` is `φ(x) - φ(x*) + λ |R (x - x*)|_1`, for one state and for a batch. -/
theorem C31_value (L : Lyap K) (R : Option (Tensor2 K)) (R' : Mat K) (hR : getR R L.dim = some R')
    (lam : K) (x xe : Vec K) : L.value x xe lam R = some (lyapV L.net R' lam xe x) := by
  simp [Lyap.value, hR]
  rfl

theorem C31_values (L : Lyap K) (R : Option (Tensor2 K)) (R' : Mat K) (hR : getR R L.dim = some R')
    (lam : K) (xs : List (Vec K)) (xe : Vec K) :
    L.values xs xe lam R = some (xs.map (lyapV L.net R' lam xe)) := by
  simp only [Lyap.values, hR, Option.map_some]
  rfl

/-- **C31**: the candidate function is zero at the equilibrium. -/
theorem C31_zero_at_equilibrium (L : Lyap K) (R : Option (Tensor2 K)) (lam v : K) (xe : Vec K)
    (h : L.value xe xe lam R = some v) : v = 0 := by
  unfold Lyap.value at h
  cases hR : getR R L.dim with
  | none => simp [hR] at h
  | some R' =>
    simp only [hR, Option.map_some, Option.some.injEq, sub_self, zero_add] at h
    have := err_self R' xe
    unfold err norm1 at this
    rw [← h, l1err, this, mul_zero]

/-- **C31**: the call returns the slacks `s` and binaries; at every feasible point `s = |R (x - x*)|`
entry by entry, the binaries tell the signs, and every point of the program whose state is in the box
extends (only the new variables are chosen). -/
theorem C31_l1_encoding (L : Lyap K) {R : Option (Tensor2 K)} {R' : Mat K} {xe : Vec K}
    (h : L.EqOk R R' xe) (m : Mip K) (hw : m.WF) (x : List ℕ) (hl : x.length = L.dim)
    (hx : ∀ i ∈ x, i < m.n) (flag : Bool) :
    ∃ m' s al, L.addL1 m xe x R flag .binary = some (m', s, al) ∧ m'.WF ∧ m'.obj = m.obj ∧
      s.length = R'.length ∧
      (∀ v, m'.Feas v → m.Feas v ∧
        s.map v = (matVec R' (vsub (x.map v) xe)).map (fun a => |a|) ∧
        (s.map v).sum = err R' xe (x.map v) ∧
        ∀ i, i < R'.length → AbsSign flag ((matVec R' (vsub (x.map v) xe)).getD i 0)
          ((al.getD i []).map v)) ∧
      ∀ v, m.Feas v → InBox L.xLo L.xUp (x.map v) → ∃ v', (∀ i, i < m.n → v' i = v i) ∧ m'.Feas v' := by
  obtain ⟨m', s, al, e, ls, nd, hs, enc⟩ := l1_enc L h m hw x hl hx flag
  refine ⟨m', s, al, e, enc.wf, enc.obj, ls, fun v hv => ?_, enc.complete⟩
  obtain ⟨a, b, c, d⟩ := enc.sound v hv
  exact ⟨a, b, by rw [b]; rfl, d⟩

/-- **C31**: an equilibrium outside the box is rejected. -/
theorem C31_outside_rejected (L : Lyap K) (R : Option (Tensor2 K)) (xe : Vec K) (m : Mip K) (x : List ℕ)
    (flag : Bool) (bt : VType) (i : ℕ) (hi : i < L.dim)
    (h : xe.getD i 0 < L.xLo.getD i 0 ∨ L.xUp.getD i 0 < xe.getD i 0) :
    L.addL1 m xe x R flag bt = none := by
  unfold Lyap.addL1
  rw [if_neg]
  rintro ⟨h1, h2⟩
  rcases h with h | h
  · exact absurd (h1 i hi) (not_le.2 h)
  · exact absurd (h2 i hi) (not_le.2 h)

/-- **C31**: fewer rows than columns in `R` are rejected. -/
theorem C31_short_R_rejected (L : Lyap K) (R : Tensor2 K) (xe : Vec K) (m : Mip K) (x : List ℕ)
    (flag : Bool) (bt : VType) (h : R.rows.length < L.dim) : L.addL1 m xe x (some R) flag bt = none := by
  unfold Lyap.addL1
  split_ifs
  · by_cases hc : R.cols = L.dim
    · simp [getR, hc, h]
    · simp [getR, hc]
  · rfl

/-! ### C32 -/

/-- **C32**: the program is built; every feasible point has the objective
`ε |R (x - x*)|_1 - V(x)` and a state in the box; every state in the box is represented. -/
theorem C32_program (L : Lyap K) (hL : L.NetOk) {R : Option (Tensor2 K)} {R' : Mat K} {xe : Vec K}
    (h : L.EqOk R R' xe) (lam eps : K) :
    ∃ m x, L.positivity xe lam eps R = some (m, x) ∧ x.length = L.dim ∧
      m.obj.map MilpObj.maximize = some true ∧
      (∀ v, m.Feas v → InBox L.xLo L.xUp (x.map v) ∧
        m.objVal v = eps * err R' xe (x.map v) - lyapV L.net R' lam xe (x.map v)) ∧
      ∀ y, InBox L.xLo L.xUp y → ∃ v, m.Feas v ∧ x.map v = y := by
  obtain ⟨m1, h1, w1, n1, f1⟩ := start_free (Mip.empty : Mip K) Mip.WF.empty feas_empty L.dim
  have e0 : (Mip.empty : Mip K).n = 0 := rfl
  rw [e0] at h1 n1
  set x := List.range' 0 L.dim with hxdef
  have hx1 : ∀ i ∈ x, i < m1.n := fun i hi => by rw [n1]; exact mem_range'_lt le_rfl i hi
  have hxl : x.length = L.dim := by simp [hxdef]
  obtain ⟨t, ht, tz, tb, tn, ta, tbb, -, encR⟩ := relu_enc L hL m1 w1 x hxl hx1
  obtain ⟨m2, s, al, e2, ls, nd, hs, encL⟩ := l1_enc L h t.m encR.wf x hxl
    (fun i hi => lt_of_lt_of_le (hx1 i hi) encR.n) false
  have E := encR.trans encL (fun v v' hv hD _ hR => hR.1)
  have hz : ∀ i ∈ t.z, i < m2.n := fun i hi => by
    rw [tz] at hi
    have := mem_range'_lt le_rfl i hi
    have := encL.n
    omega
  obtain ⟨m3, e3, f3, o3, v3⟩ := obj_set m2 E.wf [vneg t.a, fullVec s.length (eps - lam)] [t.z, s]
    (-t.b + L.phi xe) true (by simp [ta, tz, length_aOut L hL, fullVec])
    (by
      simp only [List.flatten_cons, List.flatten_nil, List.append_nil]
      refine List.Nodup.append (by rw [tz]; exact List.nodup_range') nd ?_
      intro i hi hi'
      rw [tz] at hi
      have := mem_range'_lt le_rfl i hi
      have := (hs i hi').1
      omega)
    (by
      simp only [List.flatten_cons, List.flatten_nil, List.append_nil, List.mem_append]
      rintro i (hi | hi)
      · exact hz i hi
      · exact (hs i hi).2)
  refine ⟨m3, x, ?_, hxl, o3, fun v hv => ?_, fun y hy => ?_⟩
  · unfold Lyap.positivity
    have hxe : xe.length = L.dim := h.xe.1
    simp [hxe, h1, ht, e2, e3]
  · rw [f3] at hv
    obtain ⟨-, ⟨b1, -, b2⟩, b3, -⟩ := E.sound v hv
    refine ⟨b1, ?_⟩
    have := l1_sum b3 (eps - lam)
    rw [v3]
    simp only [objExpr, List.zipWith_cons_cons, List.zipWith_nil_left, List.sum_cons, List.sum_nil]
    simp only [List.length_map] at this
    rw [this, dot_vneg_left]
    have hphi : dot t.a (t.z.map v) = L.phi (x.map v) - t.b := by rw [← b2]; ring
    rw [hphi]
    show _ = eps * l1err R' xe (x.map v) -
      (L.phi (x.map v) - L.phi xe + lam * l1err R' xe (x.map v))
    ring
  · have hyx : x.map (upd (fun _ => 0) 0 y) = y := map_upd _ _ _ _ hy.1
    obtain ⟨v', hv', hf'⟩ := E.complete (upd (fun _ => 0) 0 y) (f1 _) (by rw [hyx]; exact hy)
    refine ⟨v', (f3 v').2 hf', ?_⟩
    rw [← hyx]
    exact List.map_congr_left fun i hi => hv' i (hx1 i hi)

/-- **C32**: the optimum is at most zero iff `V(x) >= ε |R (x - x*)|_1` on the whole box. -/
theorem C32_verdict (L : Lyap K) (hL : L.NetOk) {R : Option (Tensor2 K)} {R' : Mat K} {xe : Vec K}
    (h : L.EqOk R R' xe) (lam eps : K) {m : Mip K} {x : List ℕ}
    (hp : L.positivity xe lam eps R = some (m, x)) :
    (∀ v, m.Feas v → m.objVal v ≤ 0) ↔
      ∀ y, InBox L.xLo L.xUp y → eps * err R' xe y ≤ lyapV L.net R' lam xe y := by
  obtain ⟨m', x', e, -, -, s, c⟩ := C32_program L hL h lam eps
  rw [e] at hp
  simp only [Option.some.injEq, Prod.mk.injEq] at hp
  obtain ⟨rfl, rfl⟩ := hp
  constructor
  · intro hall y hy
    obtain ⟨v, hv, rfl⟩ := c y hy
    have := hall v hv
    rw [(s v hv).2] at this
    linarith
  · intro hall v hv
    rw [(s v hv).2]
    have := hall _ (s v hv).1
    linarith

/-- **C32**: the optimal value is never negative: the equilibrium itself is feasible with value zero. -/
theorem C32_equilibrium_feasible (L : Lyap K) (hL : L.NetOk) {R : Option (Tensor2 K)} {R' : Mat K}
    {xe : Vec K} (h : L.EqOk R R' xe) (lam eps : K) {m : Mip K} {x : List ℕ}
    (hp : L.positivity xe lam eps R = some (m, x)) : ∃ v, m.Feas v ∧ x.map v = xe ∧ m.objVal v = 0 := by
  obtain ⟨m', x', e, -, -, s, c⟩ := C32_program L hL h lam eps
  rw [e] at hp
  simp only [Option.some.injEq, Prod.mk.injEq] at hp
  obtain ⟨rfl, rfl⟩ := hp
  obtain ⟨v, hv, hx⟩ := c xe h.xe
  refine ⟨v, hv, hx, ?_⟩
  rw [(s v hv).2, hx, lyapV, err_self]
  ring

/-! ### C33 -/

/-- What the derivative program maximises (lyapunov.py 20-33), from `V(x⁺)`, `V(x)` and
`|R (x - x*)|_1`. -/
def decrease (et : EpsType) (eps vn v e : K) : K :=
  match et with
  | .expLower => vn - v + eps * v
  | .expUpper => -(vn - v + eps * v)
  | .asymp => vn - v + eps * e

theorem fullVec_length (n : ℕ) (c : K) : (fullVec n c).length = n := by simp [fullVec]

theorem vneg_fullVec (n : ℕ) (c : K) : vneg (fullVec n c) = fullVec n (-c) := by
  simp [vneg, fullVec]

theorem derivObj_value (et : EpsType) (a : Vec K) (b lam eps phiE : K) (sd : ℕ) (zn z sn s : List ℕ)
    (v : ℕ → K) (pn p en e : K) (h1 : dot a (zn.map v) + b = pn) (h2 : dot a (z.map v) + b = p)
    (h3 : ∀ c, dot (fullVec sd c) (sn.map v) = c * en) (h4 : ∀ c, dot (fullVec sd c) (s.map v) = c * e) :
    objExpr (derivObj et a b lam eps phiE sd).1 [zn, z, sn, s] v + (derivObj et a b lam eps phiE sd).2
      = decrease et eps (pn - phiE + lam * en) (p - phiE + lam * e) e := by
  have h1' : dot a (zn.map v) = pn - b := by rw [← h1]; ring
  have h2' : dot a (z.map v) = p - b := by rw [← h2]; ring
  cases et <;>
  · simp only [derivObj, objExpr, List.zipWith_cons_cons, List.zipWith_nil_left, List.sum_cons,
      List.sum_nil, decrease, vneg_fullVec, h3, h4, dot_vneg_left, dot_vsmul_left, h1', h2']
    ring

/-- The recorded objective has one coefficient for each continuous variable. -/
def ObjSized (m : Mip K) : Prop := ∀ o, m.obj = some o → o.c_r.length = m.r.length

theorem objLoop_length {rIdx zIdx : List (ℕ × ℕ)} :
    ∀ (l : List (K × ℕ)) (ur uz : List ℕ) (cr cz cr' cz' : Vec K),
      objLoop rIdx zIdx l ur uz cr cz = some (cr', cz') → cr'.length = cr.length := by
  intro l
  induction l with
  | nil =>
    intro ur uz cr cz cr' cz' h
    simp only [objLoop, Option.some.injEq, Prod.mk.injEq] at h
    rw [h.1]
  | cons t l ih =>
    obtain ⟨c, i⟩ := t
    intro ur uz cr cz cr' cz' h
    rw [objLoop] at h
    cases h1 : rIdx.lookup i with
    | some j =>
      simp only [h1] at h
      split_ifs at h
      rw [ih _ _ _ _ _ _ h]
      simp
    | none =>
      simp only [h1] at h
      cases h2 : zIdx.lookup i with
      | some j =>
        simp only [h2] at h
        split_ifs at h
        exact ih _ _ _ _ _ _ h
      | none =>
        simp only [h2] at h
        exact ih _ _ _ _ _ _ h

theorem objSized_setObjective {m m' : Mip K} {coeffs : List (Vec K)} {xs : List (List ℕ)} {const : K}
    {mx : Bool} (h : m.setObjective coeffs xs const mx = some m') : ObjSized m' := by
  obtain ⟨_, cr, cz, hl, rfl⟩ := setObjective_inv h
  intro o ho
  simp only [Option.some.injEq] at ho
  subst ho
  have := objLoop_length _ _ _ _ _ _ _ hl
  simpa using this

/-- What later passes need of the derivative program: a consistent program with an objective, and as many
binaries for `V(x)` as for `V(x_next)`, all different. -/
structure DerivOk (D : DerivRet K) : Prop where
  wf : D.m.WF
  obj : D.m.obj.map MilpObj.maximize = some true
  sized : ObjSized D.m
  len : D.beta.length = D.betaNext.length
  lt : ∀ i ∈ D.beta ++ D.betaNext, i < D.m.n
  disj : ∀ i ∈ D.beta, i ∉ D.betaNext

/-- The two networks in the program: their constraints hold at every point. -/
structure DerivNets (L : Lyap K) (D : DerivRet K) : Prop where
  ret : outputConstraint L.net L.dim L.xLo L.xUp L.method = some D.ret
  retNext : outputConstraint L.net L.dim L.xLo L.xUp L.method = some D.retNext
  feas : ∀ v, D.m.Feas v → D.ret.mic.Feas (D.x.map v) (D.z.map v) (D.beta.map v) ∧
    D.retNext.mic.Feas (D.xNext.map v) (D.zNext.map v) (D.betaNext.map v)
  lt : ∀ i ∈ D.x ++ D.xNext ++ D.z ++ D.zNext ++ D.beta ++ D.betaNext, i < D.m.n
  len : D.z.length = numUnits L.net.hidden ∧ D.zNext.length = numUnits L.net.hidden ∧
    D.beta.length = numUnits L.net.hidden ∧ D.betaNext.length = numUnits L.net.hidden

/-- C33, the program in which the dynamics were added, and the two networks. -/
theorem derivative_program (L : Lyap K) (hL : L.NetOk) {R : Option (Tensor2 K)} {R' : Mat K} {xe : Vec K}
    (h : L.EqOk R R' xe) (lam eps : K) (et : EpsType) (lower upper : Option K) {sys : SysConstr K}
    {Dom Rel : Vec K → Vec K → Prop} (hsys : SysEnc sys L.dim Dom Rel) :
    ∃ D, L.derivative sys xe lam eps et R lower upper .binary = some D ∧
      D.x.length = L.dim ∧ D.xNext.length = L.dim ∧ DerivOk D ∧
      (∀ v, D.m.Feas v → InBox L.xLo L.xUp (D.x.map v) ∧ InBox L.xLo L.xUp (D.xNext.map v) ∧
        Rel (D.x.map v) (D.xNext.map v) ∧
        Between lower upper (lyapV L.net R' lam xe (D.x.map v)) ∧
        IsBin (D.beta.map v) ∧ IsBin (D.betaNext.map v) ∧
        D.m.objVal v = decrease et eps (lyapV L.net R' lam xe (D.xNext.map v))
          (lyapV L.net R' lam xe (D.x.map v)) (err R' xe (D.x.map v))) ∧
      (∀ y yn, InBox L.xLo L.xUp y → InBox L.xLo L.xUp yn → Dom y yn →
        Between lower upper (lyapV L.net R' lam xe y) →
        ∃ v, D.m.Feas v ∧ D.x.map v = y ∧ D.xNext.map v = yn) ∧
      ∃ m0 m1, m0.WF ∧ (∀ i ∈ D.x, i < m0.n) ∧ (∀ i ∈ D.xNext, i < m0.n) ∧
        sys m0 D.x D.xNext = some (m1, D.s, D.gamma) ∧ (∀ v, D.m.Feas v → m1.Feas v) ∧
        DerivNets L D ∧ (D.x ++ D.xNext).Nodup ∧ m1.n ≤ D.m.n ∧
        ∃ mn, (Mip.empty : Mip K).addVars L.dim (noBound L.dim) (noBound L.dim) .continuous = some (mn, D.xNext) ∧
          mn.addVars L.dim (noBound L.dim) (noBound L.dim) .continuous = some (m0, D.x) := by
  have h' : L.EqOk (some ⟨L.dim, R'⟩) R' xe := ⟨h.up, by simp [getR], h.cols, h.rows, h.xe⟩
  obtain ⟨m1, h1, w1, n1, f1⟩ := start_free (Mip.empty : Mip K) Mip.WF.empty feas_empty L.dim
  have e0 : (Mip.empty : Mip K).n = 0 := rfl
  rw [e0] at h1 n1
  rw [zero_add] at n1
  obtain ⟨m2, h2, w2, n2, f2⟩ := start_free m1 w1 f1 L.dim
  rw [n1] at h2 n2
  set xn := List.range' 0 L.dim with hxn
  set x := List.range' L.dim L.dim with hx
  have lxn : xn.length = L.dim := by simp [hxn]
  have lx : x.length = L.dim := by simp [hx]
  have bxn : ∀ i ∈ xn, i < L.dim := fun i hi => mem_range'_lt (by omega) i hi
  have bx : ∀ i ∈ x, L.dim ≤ i ∧ i < m2.n := fun i hi => by
    rw [hx, List.mem_range'_1] at hi
    omega
  have b2n : ∀ i ∈ xn, i < m2.n := fun i hi => by have := bxn i hi; omega
  have b2 : ∀ i ∈ x, i < m2.n := fun i hi => (bx i hi).2
  have ndx : (x ++ xn).Nodup := by
    refine List.Nodup.append List.nodup_range' List.nodup_range' ?_
    intro i hi hi'
    have := bxn i hi'
    have := (bx i hi).1
    omega
  obtain ⟨m3, ds, dg, h3, E3⟩ := hsys m2 x xn w2 lx lxn ndx b2 b2n
  obtain ⟨t, h4, tz, tb, tn, ta, tbb, tr, E4⟩ := relu_enc L hL m3 E3.wf x lx
    (fun i hi => lt_of_lt_of_le (b2 i hi) E3.n)
  have q4 := E3.n.trans E4.n
  obtain ⟨m5, s, al, h5, ls, nds, hs, E5⟩ := l1_enc L h' t.m E4.wf x lx
    (fun i hi => lt_of_lt_of_le (b2 i hi) q4) false
  have q5 := q4.trans E5.n
  obtain ⟨m6, sn, aln, h6, lsn, ndsn, hsn, E6⟩ := l1_enc L h' m5 E5.wf xn lxn
    (fun i hi => lt_of_lt_of_le (b2n i hi) q5) false
  have q6 := q5.trans E6.n
  have htz : ∀ i ∈ t.z, m3.n ≤ i ∧ i < t.m.n := fun i hi => by
    rw [tz, List.mem_range'_1] at hi
    omega
  have ndz : (t.z ++ s).Nodup := by
    refine List.Nodup.append (by rw [tz]; exact List.nodup_range') nds ?_
    intro i hi hi'
    have := (htz i hi).2
    have := (hs i hi').1
    omega
  obtain ⟨m7, h7, E7⟩ := vbounds_enc m6 E6.wf lower upper t.a t.b lam (L.phi xe) t.z s
    (by rw [ta, tz, length_aOut L hL]; simp) ndz
    (fun i hi => lt_of_lt_of_le (htz i hi).2 (E5.n.trans E6.n))
    (fun i hi => lt_of_lt_of_le (hs i hi).2 E6.n)
  have q7 := q6.trans E7.n
  obtain ⟨u, h8, uz, ub, un, ua, ubb, ur, E8⟩ := relu_enc L hL m7 E7.wf xn lxn
    (fun i hi => lt_of_lt_of_le (b2n i hi) q7)
  have huz : ∀ i ∈ u.z, m7.n ≤ i ∧ i < u.m.n := fun i hi => by
    rw [uz, List.mem_range'_1] at hi
    omega
  -- the whole chain
  have hD : DepsBelow m2.n fun v => InBox L.xLo L.xUp (x.map v) ∧ InBox L.xLo L.xUp (xn.map v) ∧
      Dom (x.map v) (xn.map v) ∧ Between lower upper (lyapV L.net R' lam xe (x.map v)) :=
    depsBelow_map2 x xn b2 b2n fun y yn => InBox L.xLo L.xUp y ∧ InBox L.xLo L.xUp yn ∧ Dom y yn ∧
      Between lower upper (lyapV L.net R' lam xe y)
  have hsum : ∀ v : ℕ → K, s.map v = (matVec R' (vsub (x.map v) xe)).map (fun a => |a|) → ∀ c,
      dot (fullVec R'.length c) (s.map v) = c * err R' xe (x.map v) := by
    intro v hv c
    have := l1_sum hv c
    rwa [List.length_map, ls] at this
  have hsumn : ∀ v : ℕ → K, sn.map v = (matVec R' (vsub (xn.map v) xe)).map (fun a => |a|) → ∀ c,
      dot (fullVec R'.length c) (sn.map v) = c * err R' xe (xn.map v) := by
    intro v hv c
    have := l1_sum hv c
    rwa [List.length_map, lsn] at this
  have hval : ∀ v : ℕ → K, dot t.a (t.z.map v) + t.b = L.phi (x.map v) →
      s.map v = (matVec R' (vsub (x.map v) xe)).map (fun a => |a|) →
      dot t.a (t.z.map v) + t.b - L.phi xe + dot (fullVec s.length lam) (s.map v)
        = lyapV L.net R' lam xe (x.map v) := by
    intro v hp hv
    rw [hp, ls, hsum v hv]
    rfl
  have C1 := (E3.weaken (fun v _ h => h.2.2.1) (fun _ _ h => h)).seq E4 hD (fun v h _ => h.1)
  have C2 := C1.seq E5 hD (fun v h _ => h.1)
  have C3 := C2.seq E6 hD (fun v h _ => h.2.1)
  have C4 := C3.seq E7 hD (fun v h hR => by
    rw [hval v hR.1.1.2.2.2 hR.1.2.1]
    exact h.2.2.2)
  have C5 := C4.seq E8 hD (fun v h _ => h.2.1)
  have lenObj : (derivObj et t.a t.b lam eps (L.phi xe) R'.length).1.map List.length
      = [u.z, t.z, sn, s].map List.length := by
    cases et <;> simp [derivObj, fullVec_length, ta, tz, uz, length_aOut L hL, ls, lsn]
  obtain ⟨m9, h9, f9, o9, v9⟩ := obj_set u.m C5.wf
    (derivObj et t.a t.b lam eps (L.phi xe) R'.length).1 [u.z, t.z, sn, s]
    (derivObj et t.a t.b lam eps (L.phi xe) R'.length).2 true lenObj
    (by
      simp only [List.flatten_cons, List.flatten_nil, List.append_nil]
      refine List.Nodup.append (by rw [uz]; exact List.nodup_range') ?_ ?_
      · refine List.Nodup.append (by rw [tz]; exact List.nodup_range') ?_ ?_
        · refine List.Nodup.append ndsn nds ?_
          intro i hi hi'
          have := (hsn i hi).1
          have := (hs i hi').2
          omega
        · intro i hi hi'
          have := (htz i hi).2
          rcases List.mem_append.1 hi' with hi' | hi'
          · have := (hsn i hi').1
            have := E5.n
            omega
          · have := (hs i hi').1
            omega
      · intro i hi hi'
        have := (huz i hi).1
        have := E7.n
        have := E6.n
        have := E5.n
        rcases List.mem_append.1 hi' with hi' | hi'
        · have := (htz i hi').2
          omega
        · rcases List.mem_append.1 hi' with hi' | hi'
          · have := (hsn i hi').2
            omega
          · have := (hs i hi').2
            omega)
    (by
      have a5 := E5.n
      have a6 := E6.n
      have a7 := E7.n
      have a8 := E8.n
      simp only [List.flatten_cons, List.flatten_nil, List.append_nil, List.mem_append]
      rintro i (hi | hi | hi | hi)
      · exact (huz i hi).2
      · have := (htz i hi).2; omega
      · have := (hsn i hi).2; omega
      · have := (hs i hi).2; omega)
  refine ⟨⟨m9, x, xn, ds, dg, t.z, u.z, t.beta, u.beta, t.ret, u.ret⟩, ?_, lx, lxn,
    ⟨setObjective_wf h9 C5.wf, o9, objSized_setObjective h9, by simp [tb, ub], ?_, ?_⟩, ?_, ?_, m2, m3, w2, b2, b2n, h3, ?_, ?_, ndx, ?_,
    m1, h1, h2⟩
  · unfold Lyap.derivative
    have hxe : xe.length = L.dim := h.xe.1
    simp only [hxe, if_true, h.R, Option.bind_eq_bind, Option.bind_some, h1, h2, h3, h4, h5, h6, h7, h8, h9]
  · have e9 := setObjective_n h9
    have a5 := E5.n
    have a6 := E6.n
    have a7 := E7.n
    simp only [tb, ub, List.mem_append, List.mem_range'_1, e9]
    rintro i (hi | hi) <;> omega
  · have a5 := E5.n
    have a6 := E6.n
    have a7 := E7.n
    simp only [tb, ub, List.mem_range'_1]
    intro i hi hi'
    omega
  · intro v hv
    simp only at hv ⊢
    rw [f9] at hv
    obtain ⟨-, ⟨⟨⟨⟨r3, r4⟩, r5⟩, r6⟩, r7⟩, r8⟩ := C5.sound v hv
    refine ⟨r4.1, r8.1, r3, ?_, r4.2.1, r8.2.1, ?_⟩
    · rw [hval v r4.2.2 r5.1] at r7
      exact r7
    · rw [v9]
      have hu' : dot t.a (u.z.map v) + t.b = L.phi (xn.map v) := by
        rw [ta, tbb, ← ua, ← ubb]
        exact r8.2.2
      rw [derivObj_value et t.a t.b lam eps (L.phi xe) R'.length u.z t.z sn s v _ _ _ _ hu' r4.2.2
        (hsumn v r6.1) (hsum v r5.1)]
      rfl
  · intro y yn hy hyn hdom hbet
    have ly : y.length = L.dim := hy.1
    have lyn : yn.length = L.dim := hyn.1
    have ex : x.map (upd (upd (fun _ => 0) L.dim y) 0 yn) = y := by
      have : x.map (upd (upd (fun _ => 0) L.dim y) 0 yn) = x.map (upd (fun _ => 0) L.dim y) := by
        refine List.map_congr_left fun i hi => ?_
        unfold upd
        rw [if_neg (by have := (bx i hi).1; omega)]
      rw [this, hx, map_upd _ _ _ _ ly]
    have exn : xn.map (upd (upd (fun _ => 0) L.dim y) 0 yn) = yn := map_upd _ _ _ _ lyn
    obtain ⟨v', hv', hf'⟩ := C5.complete _ (f2 (upd (upd (fun _ => 0) L.dim y) 0 yn)) (by
      rw [ex, exn]
      exact ⟨hy, hyn, hdom, hbet⟩)
    refine ⟨v', (f9 v').2 hf', ?_, ?_⟩
    · simp only
      rw [← ex]
      exact List.map_congr_left fun i hi => hv' i (b2 i hi)
    · simp only
      conv_rhs => rw [← exn]
      exact List.map_congr_left fun i hi => hv' i (b2n i hi)
  · intro v hv
    simp only at hv
    rw [f9] at hv
    exact (E4.sound v (E5.sound v (E6.sound v (E7.sound v (E8.sound v hv).1).1).1).1).1
  · have e9 := setObjective_n h9
    have a5 := E5.n
    have a6 := E6.n
    have a7 := E7.n
    have a8 := E8.n
    refine ⟨tr, ur, fun v hv => ?_, ?_, ?_⟩
    · simp only at hv ⊢
      rw [f9] at hv
      exact ⟨relu_feas L hL m3 E3.wf x lx (fun i hi => lt_of_lt_of_le (b2 i hi) E3.n) h4 v
          (E5.sound v (E6.sound v (E7.sound v (E8.sound v hv).1).1).1).1,
        relu_feas L hL m7 E7.wf xn lxn (fun i hi => lt_of_lt_of_le (b2n i hi) q7) h8 v hv⟩
    · simp only [e9, List.mem_append]
      rintro i (((((hi | hi) | hi) | hi) | hi) | hi)
      · have := b2 i hi; omega
      · have := b2n i hi; omega
      · have := (htz i hi).2; omega
      · exact (huz i hi).2
      · rw [tb, List.mem_range'_1] at hi; omega
      · rw [ub, List.mem_range'_1] at hi; omega
    · simp only [tz, uz, tb, ub, List.length_range', and_self]
  · have e9 := setObjective_n h9
    have a4 := E4.n
    have a5 := E5.n
    have a6 := E6.n
    have a7 := E7.n
    have a8 := E8.n
    simp only [e9]
    omega

/-- **C33**: the program is built; at every feasible point both states are in the box, related by the
dynamics, `V(x)` is within the requested bounds and the objective is the decrease condition of the
convergence type; every state of the box whose successor lies in the box (and whose value is within the
bounds) is represented. -/
theorem C33_program (L : Lyap K) (hL : L.NetOk) {R : Option (Tensor2 K)} {R' : Mat K} {xe : Vec K}
    (h : L.EqOk R R' xe) (lam eps : K) (et : EpsType) (lower upper : Option K) {sys : SysConstr K}
    {Dom Rel : Vec K → Vec K → Prop} (hsys : SysEnc sys L.dim Dom Rel) :
    ∃ D, L.derivative sys xe lam eps et R lower upper .binary = some D ∧
      D.x.length = L.dim ∧ D.xNext.length = L.dim ∧ DerivOk D ∧
      (∀ v, D.m.Feas v → InBox L.xLo L.xUp (D.x.map v) ∧ InBox L.xLo L.xUp (D.xNext.map v) ∧
        Rel (D.x.map v) (D.xNext.map v) ∧
        Between lower upper (lyapV L.net R' lam xe (D.x.map v)) ∧
        IsBin (D.beta.map v) ∧ IsBin (D.betaNext.map v) ∧
        D.m.objVal v = decrease et eps (lyapV L.net R' lam xe (D.xNext.map v))
          (lyapV L.net R' lam xe (D.x.map v)) (err R' xe (D.x.map v))) ∧
      ∀ y yn, InBox L.xLo L.xUp y → InBox L.xLo L.xUp yn → Dom y yn →
        Between lower upper (lyapV L.net R' lam xe y) →
        ∃ v, D.m.Feas v ∧ D.x.map v = y ∧ D.xNext.map v = yn := by
  obtain ⟨D, h1, h2, h3, h4, h5, h6, -⟩ := derivative_program L hL h lam eps et lower upper hsys
  exact ⟨D, h1, h2, h3, h4, h5, h6⟩

/-- **C33**: the verdict. When the dynamics are encoded exactly, the optimum is at most zero iff the
decrease condition holds at every state of the box (with value within the bounds) whose successor is in
the box. -/
theorem C33_verdict (L : Lyap K) (hL : L.NetOk) {R : Option (Tensor2 K)} {R' : Mat K} {xe : Vec K}
    (h : L.EqOk R R' xe) (lam eps : K) (et : EpsType) (lower upper : Option K) {sys : SysConstr K}
    {Rel : Vec K → Vec K → Prop} (hsys : SysEnc sys L.dim Rel Rel) {D : DerivRet K}
    (hd : L.derivative sys xe lam eps et R lower upper .binary = some D) :
    (∀ v, D.m.Feas v → D.m.objVal v ≤ 0) ↔
      ∀ y yn, InBox L.xLo L.xUp y → InBox L.xLo L.xUp yn → Rel y yn →
        Between lower upper (lyapV L.net R' lam xe y) →
        decrease et eps (lyapV L.net R' lam xe yn) (lyapV L.net R' lam xe y) (err R' xe y) ≤ 0 := by
  obtain ⟨D', e, -, -, -, s, c⟩ := C33_program L hL h lam eps et lower upper hsys
  rw [e] at hd
  simp only [Option.some.injEq] at hd
  subst hd
  constructor
  · intro hall y yn h1 h2 h3 h4
    obtain ⟨v, hv, rfl, rfl⟩ := c y yn h1 h2 h3 h4
    have := hall v hv
    rwa [(s v hv).2.2.2.2.2.2] at this
  · intro hall v hv
    obtain ⟨a1, a2, a3, a4, -, -, a5⟩ := s v hv
    rw [a5]
    exact hall _ _ a1 a2 a3 a4

/-! ### C36 -/

/-- **C36**: the program is built; its points have a state on the boundary of the box and the objective
`V(x)`; every state on the boundary is represented. -/
theorem C36_program (L : Lyap K) (hL : L.NetOk) {R : Option (Tensor2 K)} {R' : Mat K} {xe : Vec K}
    (h : L.EqOk R R' xe) (lam : K) :
    ∃ m x, L.roaBoundary lam R xe = some (m, x) ∧ x.length = L.dim ∧
      m.obj.map MilpObj.maximize = some false ∧
      (∀ v, m.Feas v → OnBoundary L.xLo L.xUp (x.map v) ∧
        m.objVal v = lyapV L.net R' lam xe (x.map v)) ∧
      ∀ y, OnBoundary L.xLo L.xUp y → ∃ v, m.Feas v ∧ x.map v = y := by
  obtain ⟨m1, h1, S1⟩ := box_addVars (Mip.empty : Mip K) Mip.WF.empty L.xLo L.xUp h.up
  have e0 : (Mip.empty : Mip K).n = 0 := rfl
  have n1 := S1.n
  rw [e0] at h1 n1
  rw [zero_add] at n1
  set x := List.range' 0 L.xLo.length with hx
  have lx : x.length = L.dim := by simp [hx]; rfl
  have bx : ∀ i ∈ x, i < m1.n := fun i hi => by rw [n1]; exact mem_range'_lt (by omega) i hi
  have hbox : ∀ v, m1.Feas v ↔ InBox L.xLo L.xUp (x.map v) := fun v => by
    rw [S1.feas, e0]
    exact and_iff_right (feas_empty v)
  obtain ⟨t, h2, tz, tb, tn, ta, tbb, -, E2⟩ := relu_enc L hL m1 S1.wf x lx bx
  obtain ⟨m3, m4, m5, m6, m7, zl, zu, h3, h4, h5, h6, h7, E7⟩ := boundary_enc t.m E2.wf L.xLo L.xUp h.up x
    lx (fun i hi => lt_of_lt_of_le (bx i hi) E2.n)
  have q7 := E2.n.trans E7.n
  obtain ⟨m8, s, al, h8, ls, nds, hs, E8⟩ := l1_enc L h m7 E7.wf x lx
    (fun i hi => lt_of_lt_of_le (bx i hi) q7) false
  have hD : DepsBelow m1.n fun v => OnBoundary L.xLo L.xUp (x.map v) := depsBelow_map x bx _
  have C1 := (E2.weaken (fun v _ h => h.1) (fun _ _ h => h)).seq E7 hD (fun v h _ => h)
  have C2 := C1.seq E8 hD (fun v h _ => h.1)
  have htz : ∀ i ∈ t.z, i < t.m.n := fun i hi => by
    rw [tz, List.mem_range'_1] at hi
    omega
  obtain ⟨m9, h9, f9, o9, v9⟩ := obj_set m8 C2.wf [t.a, fullVec s.length lam] [t.z, s]
    (t.b - L.phi xe) false (by simp [ta, tz, length_aOut L hL, fullVec])
    (by
      simp only [List.flatten_cons, List.flatten_nil, List.append_nil]
      refine List.Nodup.append (by rw [tz]; exact List.nodup_range') nds ?_
      intro i hi hi'
      have := htz i hi
      have := (hs i hi').1
      have := E7.n
      omega)
    (by
      simp only [List.flatten_cons, List.flatten_nil, List.append_nil, List.mem_append]
      rintro i (hi | hi)
      · have := htz i hi
        have := E7.n
        have := E8.n
        omega
      · exact (hs i hi).2)
  refine ⟨m9, x, ?_, lx, o9, fun v hv => ?_, fun y hy => ?_⟩
  · unfold Lyap.roaBoundary
    simp only [Lyap.dim] at *
    simp only [Option.bind_eq_bind, Option.bind_some, h1, h2, h3, h4, h5, h6, h7, h8, h9]
  · rw [f9] at hv
    obtain ⟨-, ⟨r2, r7⟩, r8, -⟩ := C2.sound v hv
    refine ⟨r7 r2.1, ?_⟩
    have := l1_sum r8 lam
    rw [List.length_map] at this
    rw [v9]
    simp only [objExpr, List.zipWith_cons_cons, List.zipWith_nil_left, List.sum_cons, List.sum_nil]
    rw [this]
    have hphi : dot t.a (t.z.map v) = L.phi (x.map v) - t.b := by rw [← r2.2.2]; ring
    rw [hphi]
    show _ = L.phi (x.map v) - L.phi xe + lam * l1err R' xe (x.map v)
    ring
  · have hyx : x.map (upd (fun _ => 0) 0 y) = y := map_upd _ _ _ _ hy.1.1
    obtain ⟨v', hv', hf'⟩ := C2.complete (upd (fun _ => 0) 0 y) ((hbox _).2 (by rw [hyx]; exact hy.1))
      (by rw [hyx]; exact hy)
    refine ⟨v', (f9 v').2 hf', ?_⟩
    rw [← hyx]
    exact List.map_congr_left fun i hi => hv' i (bx i hi)

/-- **C36**: below the optimal value no state of the boundary is found. -/
theorem C36_sublevel (L : Lyap K) (hL : L.NetOk) {R : Option (Tensor2 K)} {R' : Mat K} {xe : Vec K}
    (h : L.EqOk R R' xe) (lam rho : K) {m : Mip K} {x : List ℕ}
    (hm : L.roaBoundary lam R xe = some (m, x)) (hopt : ∀ v, m.Feas v → rho ≤ m.objVal v) (y : Vec K)
    (hV : lyapV L.net R' lam xe y < rho) : ¬ OnBoundary L.xLo L.xUp y := by
  obtain ⟨m', x', e, -, -, s, c⟩ := C36_program L hL h lam
  rw [e] at hm
  simp only [Option.some.injEq, Prod.mk.injEq] at hm
  obtain ⟨rfl, rfl⟩ := hm
  intro hy
  obtain ⟨v, hv, rfl⟩ := c y hy
  have := hopt v hv
  rw [(s v hv).2] at this
  exact absurd hV (not_lt.2 this)

/-- **C36**: an optimal value is attained at a state of the boundary: the sub-level set cannot be larger. -/
theorem C36_attained (L : Lyap K) (hL : L.NetOk) {R : Option (Tensor2 K)} {R' : Mat K} {xe : Vec K}
    (h : L.EqOk R R' xe) (lam rho : K) {m : Mip K} {x : List ℕ}
    (hm : L.roaBoundary lam R xe = some (m, x)) :
    (∃ v, m.Feas v ∧ m.objVal v = rho) ↔
      ∃ y, OnBoundary L.xLo L.xUp y ∧ lyapV L.net R' lam xe y = rho := by
  obtain ⟨m', x', e, -, -, s, c⟩ := C36_program L hL h lam
  rw [e] at hm
  simp only [Option.some.injEq, Prod.mk.injEq] at hm
  obtain ⟨rfl, rfl⟩ := hm
  constructor
  · rintro ⟨v, hv, he⟩
    exact ⟨_, (s v hv).1, by rw [← (s v hv).2, he]⟩
  · rintro ⟨y, hy, he⟩
    obtain ⟨v, hv, rfl⟩ := c y hy
    exact ⟨v, hv, by rw [(s v hv).2, he]⟩

/-! ### A concrete case for C31 - C36 -/

/-- Two states, a network with two ReLU units: `φ(x) = relu(x₀ - x₁) + 2 relu(1/2 - x₁) + 1`. -/
def exLyap : Lyap ℚ :=
  { xLo := [-1, -1], xUp := [1, 1]
    net := { hidden := [(⟨2, [[1, -1], [0, -1]], some [0, 1 / 2]⟩, .relu)]
             last := ⟨2, [[1, 2]], some [1]⟩ } }

theorem exLyap_ok : exLyap.NetOk := by
  refine Lyap.netOk_ia rfl rfl ?_ ?_ rfl (by decide)
  · intro i hi
    have : i < 2 := hi
    interval_cases i <;> norm_num [exLyap]
  · simp [exLyap, Net.Ok, HidOk, Lin.Ok, HasCols, Lin.b, Lyap.dim]

/-- `R` has three rows. -/
def exR : Tensor2 ℚ := ⟨2, [[1, 0], [0, 1], [1, 1]]⟩

theorem exEq_ok : exLyap.EqOk (some exR) exR.rows [0, 1 / 2] := by
  refine ⟨rfl, by simp [getR, exR, exLyap, Lyap.dim], ?_, by decide, rfl, rfl, ?_⟩
  · simp [exR, HasCols, exLyap, Lyap.dim]
  · intro i hi
    have : i < 2 := hi
    interval_cases i <;> norm_num [exLyap]

/-- `x⁺ = A x` as a dynamics constraint without slacks and binaries. -/
def linSys (n : ℕ) (A : Mat K) : SysConstr K := fun m x xn =>
  (m.addMConstr [⟨n, A⟩, ⟨n, negEye n⟩] [x, xn] .eq (zeros n)).map fun m' => (m', [], [])

theorem linSys_enc (n : ℕ) (A : Mat K) (hA : HasCols A n) (hl : A.length = n) :
    SysEnc (linSys n A) n (fun y yn => yn = matVec A y) fun y yn => yn = matVec A y := by
  intro m x xn hw lx lxn _ hx hxn
  obtain ⟨m', h, S⟩ := mconstr2_step m hw A (negEye n) x xn .eq (zeros n) (by rw [lx]; exact hA)
    (by rw [lxn]; exact negEye_hasCols n) (by simp [hl]) (by simp) hx hxn
  rw [lx, lxn] at h
  refine ⟨m', [], [], by simp [linSys, h], (S.congr rfl fun v => ?_).enc0 hw⟩
  have z0 : ∀ i, (zeros n : Vec K).getD i 0 = 0 := by
    intro i
    simp [zeros, List.getD, List.getElem?_replicate]
    split_ifs <;> simp
  simp only [length_zeros, Sense.Rel, z0]
  constructor
  · intro hv
    refine vec_ext (by simp [lxn, hl]) fun i hi => ?_
    have hi' : i < n := by simpa [lxn] using hi
    have := hv i hi'
    rw [getD_negEye n i hi', dot_vneg_left, dot_eyeRow _ _ _ hi'] at this
    have e : (matVec A (x.map v)).getD i 0 = dot (A.getD i []) (x.map v) := by
      simp [matVec, List.getD, hl, hi']
    rw [e]
    linarith
  · intro hv i hi
    rw [getD_negEye n i hi, dot_vneg_left, dot_eyeRow _ _ _ hi, hv]
    have e : (matVec A (x.map v)).getD i 0 = dot (A.getD i []) (x.map v) := by
      simp [matVec, List.getD, hl, hi]
    rw [e]
    ring

/-- An equilibrium outside of the box of the example. -/
example : exLyap.addL1 Mip.empty [0, 2] [0, 1] (some exR) false .binary = none :=
  C31_outside_rejected exLyap (some exR) [0, 2] Mip.empty [0, 1] false .binary 1
    (by decide) (Or.inr (by norm_num [exLyap]))

/-- The positivity program of the example exists, and a state of the box is represented. -/
example : ∃ m x, exLyap.positivity [0, 1 / 2] (1 / 2) (1 / 4) (some exR) = some (m, x) ∧
    ∃ v, m.Feas v ∧ x.map v = [1, -1] := by
  obtain ⟨m, x, e, -, -, -, c⟩ := C32_program exLyap exLyap_ok exEq_ok (1 / 2) (1 / 4)
  refine ⟨m, x, e, c _ ⟨rfl, rfl, ?_⟩⟩
  intro i hi
  have : i < 2 := hi
  interval_cases i <;> norm_num [exLyap]

/-- The derivative program of the example with the dynamics `x⁺ = x / 2` (`A = diag(1/2, 1/2)`). -/
example : ∃ D, exLyap.derivative (linSys 2 [[1 / 2, 0], [0, 1 / 2]]) [0, 1 / 2] (1 / 2) (1 / 10) .expLower
    (some exR) none (some 3) .binary = some D := by
  have hs : SysEnc (linSys 2 [[1 / 2, 0], [0, 1 / 2]]) exLyap.dim
      (fun y yn => yn = matVec [[(1 / 2 : ℚ), 0], [0, 1 / 2]] y)
      (fun y yn => yn = matVec [[(1 / 2 : ℚ), 0], [0, 1 / 2]] y) :=
    linSys_enc 2 _ (by simp [HasCols]) rfl
  obtain ⟨D, e, -⟩ := C33_program exLyap exLyap_ok exEq_ok (1 / 2) (1 / 10) .expLower none (some 3) hs
  exact ⟨D, e⟩

/-- The boundary program of the example, with a point of the boundary. -/
example : ∃ m x, exLyap.roaBoundary (1 / 2) (some exR) [0, 1 / 2] = some (m, x) ∧
    ∃ v, m.Feas v ∧ x.map v = [1, 0] := by
  obtain ⟨m, x, e, -, -, -, c⟩ := C36_program exLyap exLyap_ok exEq_ok (1 / 2)
  refine ⟨m, x, e, c _ ⟨⟨rfl, rfl, ?_⟩, 0, by decide, Or.inr rfl⟩⟩
  intro i hi
  have : i < 2 := hi
  interval_cases i <;> norm_num [exLyap]

end NNL.Props
