import Verif.Lemmas.HybridRate
import Verif.Props.ContinuousRate
import Verif.Props.Hybrid

/-!
# C74, C75: the derivative condition of a continuous-time hybrid linear system
-/

set_option linter.unusedSectionVars false

namespace NNL.Props

open NNL NNL.Spec NNL.Model

variable {K : Type*} [Field K] [LinearOrder K] [IsStrictOrderedRing K]

/-! ### The recorded bounds are finite -/

theorem exactInf_fin {S : Set K} {a : Ext K} (h : ExactInf S a) (hne : S.Nonempty) (hb : BddBelow S) :
    ∃ v, a = Ext.fin v := by
  rcases ext_cases a with rfl | rfl | h'
  · exact absurd hb h.bot
  · obtain ⟨s, hs⟩ := hne
    have := h.1.1 ⟨s, hs, rfl⟩
    exact absurd (top_le_iff.1 this) (fin_ne_top s)
  · exact h'

theorem exactSup_fin {S : Set K} {a : Ext K} (h : ExactSup S a) (hne : S.Nonempty) (hb : BddAbove S) :
    ∃ v, a = Ext.fin v := by
  rcases ext_cases a with rfl | rfl | h'
  · obtain ⟨s, hs⟩ := hne
    have := h.1.1 ⟨s, hs, rfl⟩
    exact absurd (le_bot_iff.1 this) (fin_ne_bot s)
  · obtain ⟨B, hB⟩ := hb
    have : (⊤ : Ext K) ≤ Ext.fin B := h.1.2 (by
      rintro _ ⟨s, hs, rfl⟩
      simpa using hB hs)
    exact absurd (top_le_iff.1 this) (fin_ne_top B)
  · exact h'

theorem finVec_of_all {l : List (Ext K)} (d : Ext K) (h : ∀ i, i < l.length → ∃ v, l.getD i d = Ext.fin v) :
    ∃ w, finVec l = some w := by
  induction l with
  | nil => exact ⟨[], rfl⟩
  | cons a l ih =>
    obtain ⟨v, hv⟩ := h 0 (by simp)
    obtain ⟨w, hw⟩ := ih fun i hi => by simpa using h (i + 1) (by simpa using hi)
    have hv' : a = Ext.fin v := by simpa using hv
    exact ⟨v :: w, by simp [finVec, hv', hw]⟩

/-- What the derivative programs take from the system: it is built by `add_mode`, the state bounds are finite
and are those of the Lyapunov function. -/
structure HybOk (lp : LpSolver K) (L : Lyap K) (S : AutoHybrid K) : Prop where
  truthful : lp.Truthful
  built : ABuilt lp L.dim S
  lo : finVec S.loAll = some L.xLo
  up : finVec S.upAll = some L.xUp
  mic : (S.mic none none).isSome

theorem HybOk.inBox {lp : LpSolver K} {L : Lyap K} {S : AutoHybrid K} (h : HybOk lp L S) {md : AMode K}
    (hmd : md ∈ S.modes) {x : Vec K} (hx : x.length = L.dim) (hP : InPoly md.P md.q x) : InBox L.xLo L.xUp x := by
  have R := C44_auto_recorded h.truthful h.built
  have l1 := congrArg List.length (finVec_some h.lo)
  have l2 := congrArg List.length (finVec_some h.up)
  rw [List.length_map, R.lenLo] at l1
  rw [List.length_map, R.lenUp] at l2
  refine ⟨by omega, by omega, fun i hi => ?_⟩
  have := (C44_auto_contains h.truthful h.built hmd hx hP i (by omega)).1
  rw [fin_getD h.lo i (by rw [R.lenLo]; omega), fin_getD h.up i (by rw [R.lenUp]; omega)] at this
  simpa using this

/-- A linear function is bounded on the mode. -/
theorem HybOk.bdd {lp : LpSolver K} {L : Lyap K} {S : AutoHybrid K} (h : HybOk lp L S) {md : AMode K}
    (hmd : md ∈ S.modes) (r : Vec K) :
    BddBelow (polyValues L.dim md.P md.q r) ∧ BddAbove (polyValues L.dim md.P md.q r) := by
  have R := C44_auto_recorded h.truthful h.built
  have l1 := congrArg List.length (finVec_some h.lo)
  have l2 := congrArg List.length (finVec_some h.up)
  rw [List.length_map, R.lenLo] at l1
  rw [List.length_map, R.lenUp] at l2
  obtain ⟨⟨ol, ou⟩, hb⟩ := Option.isSome_iff_exists.1 ((C08_ia_accepts L.dim [r] [0] L.xLo L.xUp).2
    ⟨rfl, l1.symm, l2.symm⟩)
  have key : ∀ v ∈ polyValues L.dim md.P md.q r, ol.getD 0 0 ≤ v ∧ v ≤ ou.getD 0 0 := by
    rintro v ⟨w, hw, hP, rfl⟩
    have := (C08_ia_sound hb (h.inBox hmd hw hP)).2.2 0 (by simp)
    simpa [matVec, vadd] using this
  exact ⟨⟨_, fun v hv => (key v hv).1⟩, ⟨_, fun v hv => (key v hv).2⟩⟩

/-- The recorded bounds of the velocity are finite and contain every velocity. -/
theorem HybOk.dx {lp : LpSolver K} {L : Lyap K} {S : AutoHybrid K} (h : HybOk lp L S) :
    ∃ dlo dup, finVec S.dxLo = some dlo ∧ finVec S.dxUp = some dup ∧ dlo.length = L.dim ∧ dup.length = L.dim ∧
      (∀ j, j < L.dim → dlo.getD j 0 ≤ dup.getD j 0) ∧
      ∀ x xn, x.length = L.dim → AStep S.modes x xn → InBox dlo dup xn := by
  have R := C44_auto_recorded h.truthful h.built
  have hne : ∀ j, j < L.dim → (derivs S.modes L.dim j).Nonempty := by
    intro j hj
    have e := R.inf j hj
    rw [fin_getD h.lo j (by rw [R.lenLo]; omega)] at e
    obtain ⟨mh, hm, w, hw, hP, -⟩ := e.2 _ rfl
    obtain ⟨md, hmd, rfl⟩ := List.mem_map.1 hm
    exact ⟨_, md, hmd, w, hw, hP, rfl⟩
  have hbd : ∀ j, BddBelow (derivs S.modes L.dim j) ∧ BddAbove (derivs S.modes L.dim j) := by
    intro j
    have : ∀ mds : List (AMode K), (∀ md ∈ mds, md ∈ S.modes) →
        BddBelow (derivs mds L.dim j) ∧ BddAbove (derivs mds L.dim j) := by
      intro mds
      induction mds with
      | nil => intro _; simp [derivs]
      | cons md mds ih =>
        intro hs
        have e := derivs_append [md] mds L.dim j
        rw [List.singleton_append] at e
        obtain ⟨b1, b2⟩ := ih fun q hq => hs q (by simp [hq])
        obtain ⟨c1, c2⟩ := h.bdd (hs md (by simp)) (md.A.getD j [])
        rw [e, derivs_one _ _ _ (R.ok md (hs md (by simp)))]
        refine ⟨BddBelow.union ?_ b1, BddAbove.union ?_ b2⟩
        · exact (monotone_id.add_const _).map_bddBelow c1
        · exact (monotone_id.add_const _).map_bddAbove c2
    exact this S.modes fun _ h => h
  obtain ⟨dlo, h1⟩ := finVec_of_all ⊤ (l := S.dxLo) fun i hi =>
    exactInf_fin (R.dinf i (by rw [← R.lenDLo]; exact hi)) (hne i (by rw [← R.lenDLo]; exact hi)) (hbd i).1
  obtain ⟨dup, h2⟩ := finVec_of_all ⊥ (l := S.dxUp) fun i hi =>
    exactSup_fin (R.dsup i (by rw [← R.lenDUp]; exact hi)) (hne i (by rw [← R.lenDUp]; exact hi)) (hbd i).2
  have l1 := congrArg List.length (finVec_some h1)
  have l2 := congrArg List.length (finVec_some h2)
  rw [List.length_map, R.lenDLo] at l1
  rw [List.length_map, R.lenDUp] at l2
  refine ⟨dlo, dup, h1, h2, l1.symm, l2.symm, fun j hj => ?_, ?_⟩
  · obtain ⟨s, hs⟩ := hne j hj
    have a := (R.dinf j hj).1.1 ⟨s, hs, rfl⟩
    have b := (R.dsup j hj).1.1 ⟨s, hs, rfl⟩
    rw [fin_getD h1 j (by rw [R.lenDLo]; omega), fin_le_fin] at a
    rw [fin_getD h2 j (by rw [R.lenDUp]; omega), fin_le_fin] at b
    exact a.trans b
  · rintro x xn hx ⟨md, hmd, hP, rfl⟩
    have lA : md.A.length = L.dim := (R.ok md hmd).rowsA
    have lg : md.g.length = L.dim := (R.ok md hmd).c
    have ln : (vadd (matVec md.A x) md.g).length = L.dim := by simp [vadd, lA, lg]
    refine ⟨by omega, by omega, fun i hi => ?_⟩
    have := (C44_auto_contains h.truthful h.built hmd hx hP i (by omega)).2
    rw [fin_getD h1 i (by rw [R.lenDLo]; omega), fin_getD h2 i (by rw [R.lenDUp]; omega)] at this
    simpa using this

/-! ### The program with velocity variables -/

set_option maxHeartbeats 1000000 in
/-- C74: every feasible point of the program is a state in the box with a velocity of a mode which contains it,
and the objective is the derivative of an affine piece of `V` at the state in the direction of the velocity, plus
`ε V`. Conversely every state of every mode, with every piece which respects the flags fixed by the bounds, is
represented. -/
theorem C74_program {lp : LpSolver K} (L : Lyap K) (hL : L.NetOk) {S : AutoHybrid K} (hS : HybOk lp L S)
    (hslope : ∀ q ∈ L.net.hidden, ∀ c, q.2 = .leaky c → 0 ≤ c) {R : Option (Tensor2 K)} (hR : isIdR L.dim R)
    {xe : Vec K} (hxe : InBox L.xLo L.xUp xe) (lam eps : K) (lower upper : Option K) :
    ∃ D rr er, L.hybridRate S xe lam eps .expLower R lower upper = some D ∧
      outputConstraint L.net L.dim L.xLo L.xUp L.method = some rr ∧ L.errRange (eye L.dim) xe = some er ∧
      D.x.length = L.dim ∧ D.xdot.length = L.dim ∧ D.m.obj.map MilpObj.maximize = some true ∧
      (∀ v, D.m.Feas v → InBox L.xLo L.xUp (D.x.map v) ∧ AStep S.modes (D.x.map v) (D.xdot.map v) ∧
        Between lower upper (lyapV L.net (eye L.dim) lam xe (D.x.map v)) ∧
        ∃ pat σ, PieceAt L.net (eye L.dim) xe (D.x.map v) pat σ ∧
          D.m.objVal v = pieceRate L.net (eye L.dim) lam pat σ (D.xdot.map v)
            + eps * lyapV L.net (eye L.dim) lam xe (D.x.map v)) ∧
      (∀ y yd pat σ, y.length = L.dim → AStep S.modes y yd →
        Between lower upper (lyapV L.net (eye L.dim) lam xe y) → PieceAt L.net (eye L.dim) xe y pat σ →
        FixedOk rr.reluInputLo rr.reluInputUp pat → FixedOk er.1 er.2 [σ] →
        ∃ v, D.m.Feas v ∧ D.x.map v = y ∧ D.xdot.map v = yd ∧
          D.m.objVal v = pieceRate L.net (eye L.dim) lam pat σ yd
            + eps * lyapV L.net (eye L.dim) lam xe y) := by
  have h' : L.EqOk none (eye L.dim) xe := ⟨hL.up, rfl, hasCols_eye _, by simp, hxe⟩
  have hsys := C42_auto_dynamics hS.truthful hS.built hS.mic
  obtain ⟨dlo, dup, hd1, hd2, ld1, ld2, hdle, hdin⟩ := hS.dx
  obtain ⟨c, wz, hcg, hc, hwzl, hwz⟩ := gradTimesVec_ia L hL ld1 ld2 hdle hslope
  set R' : Mat K := eye L.dim with hR'
  have lR : R'.length = L.dim := by simp [hR']
  obtain ⟨m1, h1, w1, n1, f1⟩ := start_free (Mip.empty : Mip K) Mip.WF.empty feas_empty L.dim
  have e0 : (Mip.empty : Mip K).n = 0 := rfl
  rw [e0] at h1 n1
  rw [zero_add] at n1
  obtain ⟨m2, h2, w2, n2, f2⟩ := start_free m1 w1 f1 L.dim
  rw [n1] at h2 n2
  set x := List.range' 0 L.dim with hx
  set xd := List.range' L.dim L.dim with hxd
  have lx : x.length = L.dim := by simp [hx]
  have lxd : xd.length = L.dim := by simp [hxd]
  have bx : ∀ i ∈ x, i < L.dim := fun i hi => mem_range'_lt (by omega) i hi
  have bxd : ∀ i ∈ xd, L.dim ≤ i ∧ i < m2.n := fun i hi => by
    rw [hxd, List.mem_range'_1] at hi
    omega
  have b2 : ∀ i ∈ x, i < m2.n := fun i hi => by have := bx i hi; omega
  have b2d : ∀ i ∈ xd, i < m2.n := fun i hi => (bxd i hi).2
  have ndx : (x ++ xd).Nodup := by
    refine List.Nodup.append List.nodup_range' List.nodup_range' ?_
    intro i hi hi'
    have := bx i hi
    have := (bxd i hi').1
    omega
  obtain ⟨m3, ds, dg, h3, E3⟩ := hsys m2 x xd w2 lx lxd ndx b2 b2d
  have q3 := E3.n
  obtain ⟨t, h4, tz, tb, tn, ta, tbb, hret, hbin, E4⟩ := relu_pat_enc L hL m3 E3.wf x lx
    (fun i hi => lt_of_lt_of_le (b2 i hi) E3.n)
  have w4 := (E4 []).wf
  have q4 : m2.n ≤ t.m.n := by omega
  obtain ⟨er, m5, s, al, her, h5, ls, la, nds, hs, ha, k5, ler1, ler2, E5⟩ := l1_encQ L h' t.m w4 x lx
    (fun i hi => lt_of_lt_of_le (b2 i hi) q4)
  have w5 := (E5 (List.replicate R'.length true) (by simp)).wf
  have q5 : t.m.n ≤ m5.n := (E5 (List.replicate R'.length true) (by simp)).n
  have htz : ∀ i ∈ t.z, m3.n ≤ i ∧ i < t.m.n := fun i hi => by
    rw [tz, List.mem_range'_1] at hi
    omega
  have htb : ∀ i ∈ t.beta, m3.n ≤ i ∧ i < t.m.n := fun i hi => by
    rw [tb, List.mem_range'_1] at hi
    omega
  have ndz : (t.z ++ s).Nodup := by
    refine List.Nodup.append (by rw [tz]; exact List.nodup_range') nds ?_
    intro i hi hi'
    have := (htz i hi).2
    have := (hs i hi').1
    omega
  obtain ⟨m7, h7, E7⟩ := vbounds_enc m5 w5 lower upper t.a t.b lam (L.phi xe) t.z s
    (by rw [ta, tz, length_aOut L hL]; simp) ndz
    (fun i hi => lt_of_lt_of_le (htz i hi).2 q5) (fun i hi => (hs i hi).2)
  have q7 := E7.n
  obtain ⟨rows, p1, -, -, -, p5, -⟩ := gradParts hc hL.net
  obtain ⟨m8, ga, h8, lga, n8, E8⟩ := gradRows_enc L hL hc hwzl p1 xd (rows.map LRow.x) id (by simp)
    (by
      intro r hr
      obtain ⟨q, hq, rfl⟩ := List.mem_map.1 hr
      rw [(p5 q hq).1, lxd]) (fun w _ i _ => rfl) m7 E7.wf t.beta
    (fun i hi => by have := b2d i hi; omega) (by rw [tb]; simp)
    (fun i hi => by have := (htb i hi).2; omega)
  rw [lxd] at h8
  obtain ⟨m8', m9, h9, h9', n9, E9⟩ := signBlock_enc m8 E8.wf (n := L.dim) (al := al) (lb := dlo) (ub := dup)
    (fun v => xd.map v) (by simp [lxd])
    (fun v w hvw => List.map_congr_left fun j hj => hvw j (by have := b2d j hj; omega)) (by omega)
    (fun i hi => by have := (ha i hi).2; omega) (fun sl m => signXdotLoop xd dlo dup sl al m)
    (fun m1 hw1 hn1 => by
      have := signXdotLoop_step xd dlo dup (List.range' m8.n L.dim) al m1 hw1 (by omega) (by omega)
        (by simp [lxd]) (by omega) (by rw [lxd]; exact hdle) (fun i hi => by have := b2d i hi; omega)
        (fun i hi => by have := mem_range'_lt le_rfl i hi; omega) (fun i hi => by have := (ha i hi).2; omega)
      rw [lxd] at this
      exact this)
  set gs := List.range' m7.n (numUnits L.net.hidden) with hgs
  set es := List.range' m8.n L.dim with hes
  have bgs : ∀ i ∈ gs, m7.n ≤ i ∧ i < m8.n := fun i hi => by
    rw [hgs, List.mem_range'_1] at hi
    omega
  have bes : ∀ i ∈ es, m8.n ≤ i ∧ i < m9.n := fun i hi => by
    rw [hes, List.mem_range'_1] at hi
    omega
  -- the objective
  obtain ⟨mf, hf, ff, of, vf⟩ := obj_set m9 E9.wf
    [ga, vsmul lam (fullVec L.dim 2), vsmul lam (fullVec L.dim (-1)), vsmul eps t.a, fullVec L.dim (eps * lam)]
    [gs, es, xd, t.z, s] (eps * t.b - eps * L.phi xe) true
    (by simp [ta, tz, length_aOut L hL, ls, lR, lga, hgs, hes, hxd, fullVec])
    (by
      simp only [List.flatten_cons, List.flatten_nil, List.append_nil]
      refine List.Nodup.append List.nodup_range' (List.Nodup.append List.nodup_range' (List.Nodup.append
        List.nodup_range' ndz ?_) ?_) ?_
      · intro i hi hi'
        have := bxd i hi
        rcases List.mem_append.1 hi' with hi' | hi'
        · have := htz i hi'; omega
        · have := hs i hi'; omega
      · intro i hi hi'
        have := bes i hi
        rcases List.mem_append.1 hi' with hi' | hi'
        · have := bxd i hi'; omega
        rcases List.mem_append.1 hi' with hi' | hi'
        · have := htz i hi'; omega
        · have := hs i hi'; omega
      · intro i hi hi'
        have := bgs i hi
        rcases List.mem_append.1 hi' with hi' | hi'
        · have := bes i hi'; omega
        rcases List.mem_append.1 hi' with hi' | hi'
        · have := bxd i hi'; omega
        rcases List.mem_append.1 hi' with hi' | hi'
        · have := htz i hi'; omega
        · have := hs i hi'; omega)
    (by
      simp only [List.flatten_cons, List.flatten_nil, List.append_nil, List.mem_append]
      rintro i (hi | hi | hi | hi | hi)
      · have := (bgs i hi).2; omega
      · have := (bes i hi).2; omega
      · have := (bxd i hi).2; omega
      · have := (htz i hi).2; omega
      · have := (hs i hi).2; omega)
  have hsum : ∀ v : ℕ → K, s.map v = (matVec R' (vsub (x.map v) xe)).map (fun a => |a|) → ∀ c,
      dot (fullVec R'.length c) (s.map v) = c * err R' xe (x.map v) := by
    intro v hv c
    have := l1_sum hv c
    rwa [List.length_map, ls] at this
  have hval : ∀ v : ℕ → K, dot t.a (t.z.map v) + t.b = L.phi (x.map v) →
      s.map v = (matVec R' (vsub (x.map v) xe)).map (fun a => |a|) →
      dot t.a (t.z.map v) + t.b - L.phi xe + dot (fullVec R'.length lam) (s.map v)
        = lyapV L.net R' lam xe (x.map v) := by
    intro v hp hv
    rw [hsum v hv, hp]
    rfl
  -- the value of the objective
  have hobj : ∀ (v : ℕ → K) (p : List (List Bool)) (τ : List Bool), m9.Feas v →
      dot t.a (t.z.map v) + t.b = L.phi (x.map v) →
      s.map v = (matVec R' (vsub (x.map v) xe)).map (fun a => |a|) →
      PatFits L.net.hidden p → t.beta.map v = patVec p → al.map v = τ.map bit →
      mf.objVal v = pieceRate L.net R' lam p τ (xd.map v) + eps * lyapV L.net R' lam xe (x.map v) := by
    intro v p τ hv hp hsv hfit hbp hτ
    obtain ⟨v8, r9⟩ := E9.sound v hv
    obtain ⟨-, r8⟩ := E8.sound v v8
    have g1 := r8 p hfit hbp
    have g2 := r9 τ hτ
    have hτl : τ.length = L.dim := by
      have := congrArg List.length hτ
      simp only [List.length_map] at this
      omega
    have lxv : (xd.map v).length = L.dim := by simp [lxd]
    have me : matVec R' (xd.map v) = xd.map v := matVec_eye _ _ lxv
    have q : (List.zipWith (fun b t => bit b * t) τ (xd.map v)).length = L.dim := by simp [lxd, hτl]
    have q2 := dot_replicate (2 : K) (List.zipWith (fun b t => bit b * t) τ (xd.map v))
    rw [q] at q2
    have q3 := dot_replicate (-1 : K) (xd.map v)
    rw [lxv] at q3
    have q4 := hsum v hsv (eps * lam)
    rw [lR] at q4
    have q5 := signSum_bits τ (xd.map v) (by rw [hτl, lxv])
    rw [vf, ← hval v hp hsv, hsum v hsv lam]
    simp only [objExpr, List.zipWith_cons_cons, List.zipWith_nil_right, List.sum_cons, List.sum_nil, pieceRate, me]
    rw [g1, g2, dot_vsmul_left, dot_vsmul_left, dot_vsmul_left, q4, fullVec, fullVec, q2, q3, ← q5]
    simp only [id]
    ring
  -- the chain
  refine ⟨⟨mf, x, t.beta, dg, xd⟩, t.ret, er, ?_, hret, her, lx, lxd, of, ?_, ?_⟩
  · unfold Lyap.hybridRate
    have hxl : xe.length = L.dim := h'.xe.1
    have e5 : (al.map fun i => [i]).map (fun a => a.getD 0 0) = al := by
      rw [List.map_map]
      exact List.map_id'' (fun i => by simp) al
    simp only [hxl, hR, and_self, if_true, Option.bind_eq_bind, Option.bind_some, h1, h2, h3, h4, h5, h7,
      hd1, hd2, Lyap.addGradXdot, hcg, p1, h8, Lyap.addSignXdot, e5, lxd, la, lR, h9, h9', hf]
  · intro v hv
    have v9 := (ff v).1 hv
    obtain ⟨v8, -⟩ := E9.sound v v9
    obtain ⟨v7, -⟩ := E8.sound v v8
    obtain ⟨v5, r7⟩ := E7.sound v v7
    obtain ⟨v4, r5, τ, hτ, hτs⟩ := (E5 (List.replicate R'.length true) (by simp)).sound v v5
    obtain ⟨v3, hbox, hphi, p0, p1, hfit, hbp, hreal, hdir⟩ := (E4 []).sound v v4
    obtain ⟨-, hrel⟩ := E3.sound v v3
    refine ⟨hbox, hrel, by rw [← hval v hphi r5]; rwa [ls] at r7, p1, τ, ⟨hreal, hτs⟩, ?_⟩
    rw [hobj v p0 τ v9 hphi r5 hfit hbp hτ, pieceRate, pieceRate, hdir]
  · rintro y yd pat σ hyl hdom hbet ⟨hreal, hσ⟩ hfix hfix2
    have hydb := hdin y yd hyl hdom
    have hyd : yd.length = L.dim := hydb.1.trans ld1
    have hy : InBox L.xLo L.xUp y := by
      obtain ⟨md, hmd, hP, -⟩ := hdom
      exact hS.inBox hmd hyl hP
    have hσl : σ.length = R'.length := by simpa [matVec] using hσ.length_eq
    have hfit : PatFits L.net.hidden pat := patFits_of_realises (hidOk_all _ _ hL.net.1) hreal
    set v0 : ℕ → K := fun i => (y ++ yd).getD i 0 with hv0
    have ex : x.map v0 = y := by
      apply vec_ext (by simp [hx, hyl])
      intro i hi
      have hi' : i < L.dim := by simpa [hx] using hi
      have : i < y.length := by omega
      simp [hx, hv0, List.getD, hi', List.getElem?_append_left this]
    have exd : xd.map v0 = yd := by
      apply vec_ext (by simp [hxd, hyd])
      intro i hi
      have hi' : i < L.dim := by simpa [hxd] using hi
      have e : (y ++ yd)[L.dim + i]? = yd[i]? := by
        rw [List.getElem?_append_right (by omega)]
        congr 1
        omega
      simp [hxd, hv0, List.getD, hi', e]
    have hd1 : DepsBelow m2.n fun v => x.map v = y ∧ xd.map v = yd :=
      depsBelow_map2 x xd b2 b2d fun p q => p = y ∧ q = yd
    have C1 := (E3.q.weaken (D2 := fun v => x.map v = y ∧ xd.map v = yd)
      (fun v _ hv => by rw [hv.1, hv.2]; exact hdom) (fun _ _ h => h) (fun _ _ _ h => h)).seq (E4 pat)
      hd1 (fun _ _ _ h => h) (fun v hv _ _ => by
        rw [hv.1]
        exact ⟨hy, hreal, hfix⟩)
    have C2 := C1.seq (E5 σ hσl) hd1 (by
        intro v w hvw hq
        refine ⟨trivial, ?_⟩
        have : t.beta.map w = t.beta.map v := List.map_congr_left fun j hj => (hvw j (htb j hj).2).symm
        rw [this]
        exact hq.2) (fun v hv _ _ => by
        rw [hv.1]
        exact ⟨hy, hσ, hfix2⟩)
    have hdq : ∀ N, m5.n ≤ N → DepsBelow N fun v : ℕ → K =>
        ((True ∧ t.beta.map v = patVec pat) ∧ al.map v = σ.map bit) := by
      intro N hN v w hvw hq
      have e1 : t.beta.map w = t.beta.map v :=
        List.map_congr_left fun j hj => (hvw j (by have := (htb j hj).2; omega)).symm
      have e2 : al.map w = al.map v :=
        List.map_congr_left fun j hj => (hvw j (by have := (ha j hj).2; omega)).symm
      rw [e1, e2]
      exact hq
    have C3 := C2.seq E7.q hd1 (hdq _ le_rfl) (fun v hv hR _ => by
      rw [ls, hval v hR.1.2.2.1 hR.2.1, hv.1]
      exact hbet)
    have C4 := C3.seq E8.q hd1 (fun v w hvw hq => ⟨hdq m7.n q7 v w hvw hq.1, trivial⟩)
      (fun v hv _ hq => ⟨pat, hfit, hq.1.1.2, by rw [id, hv.2]; exact hwz pat yd hfit hydb⟩)
    have C5 := C4.seq E9.q hd1 (fun v w hvw hq => ⟨⟨hdq m8.n (by omega) v w hvw hq.1.1, trivial⟩, trivial⟩)
      (fun v hv _ hq => ⟨⟨σ, by omega, hq.1.1.2⟩, fun i hi => by
        simp only [hv.2]
        exact hydb.2.2 i (by omega)⟩)
    obtain ⟨v, hvv, hfv, hqv⟩ := C5.complete v0 (f2 v0) ⟨ex, exd⟩
    have hxv : x.map v = y := by rw [← ex]; exact List.map_congr_left fun j hj => hvv j (b2 j hj)
    have hxdv : xd.map v = yd := by rw [← exd]; exact List.map_congr_left fun j hj => hvv j (b2d j hj)
    obtain ⟨-, hRv⟩ := C5.sound v hfv
    refine ⟨v, (ff v).2 hfv, hxv, hxdv, ?_⟩
    rw [hobj v pat σ hfv hRv.1.1.1.1.2.2.1 hRv.1.1.1.2.1 hfit hqv.1.1.1.1.2 hqv.1.1.1.2, hxv, hxdv]


/-- C74: if no feasible point has a positive objective, then from every state of every mode (in the range of `V`
asked for) the slope of `V` along the velocity of the mode is at most `-ε V`, as long as the ray stays in the box
for a moment. -/
theorem C74_verdict {lp : LpSolver K} (L : Lyap K) (hL : L.NetOk) {S : AutoHybrid K} (hS : HybOk lp L S)
    (hslope : ∀ q ∈ L.net.hidden, ∀ c, q.2 = .leaky c → 0 ≤ c) {R : Option (Tensor2 K)}
    {xe : Vec K} (hxe : InBox L.xLo L.xUp xe) {lam eps : K} {lower upper : Option K} {D : HRateRet K}
    (hD : L.hybridRate S xe lam eps .expLower R lower upper = some D)
    (hle : ∀ v, D.m.Feas v → D.m.objVal v ≤ 0) {x xd : Vec K} (hx : x.length = L.dim) (hdom : AStep S.modes x xd)
    (hbet : Between lower upper (lyapV L.net (eye L.dim) lam xe x)) {T : K} (hT : 0 < T)
    (hray : InBox L.xLo L.xUp (vadd x (vsmul T xd))) :
    ∃ d, HasSlope (lyapV L.net (eye L.dim) lam xe) x xd d ∧ d ≤ -eps * lyapV L.net (eye L.dim) lam xe x := by
  have hR : isIdR L.dim R := by
    unfold Lyap.hybridRate at hD
    split at hD
    · rename_i h
      exact h.2.2
    · cases hD
  obtain ⟨D', rr, er, h1, h2, h3, -, -, -, -, hcomp⟩ := C74_program L hL hS hslope hR hxe lam eps lower upper
  obtain rfl : D' = D := Option.some.inj (h1.symm.trans hD)
  have hbox : InBox L.xLo L.xUp x := by
    obtain ⟨md, hmd, hP, -⟩ := hdom
    exact hS.inBox hmd hx hP
  have hxd : xd.length = L.dim := by
    obtain ⟨dlo, dup, -, -, l1, -, -, h⟩ := hS.dx
    exact (h x xd hx hdom).1.trans l1
  have h' : L.EqOk none (eye L.dim) xe := ⟨hL.up, rfl, hasCols_eye _, by simp, hxe⟩
  refine slope_of_pieces L hL h' lam eps h2 h3 hbox hxd hT hray fun pat σ hpc k1 k2 => ?_
  obtain ⟨v, hv, -, -, e3⟩ := hcomp x xd pat σ hx hdom hbet hpc k1 k2
  rw [← e3]
  exact hle v hv

end NNL.Props
