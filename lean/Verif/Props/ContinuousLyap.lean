import Verif.Lemmas.ContGrad
import Verif.Lemmas.Ray
import Verif.Spec.ContinuousLyap
import Verif.Props.Lyapunov

/-!
# C39: the derivative condition of a continuous-time system
-/

set_option linter.unusedSectionVars false

namespace NNL.Props

open NNL NNL.Spec NNL.Model

variable {K : Type*} [Field K] [LinearOrder K] [IsStrictOrderedRing K]

theorem dot_replicate (c : K) (s : Vec K) : dot (List.replicate s.length c) s = c * s.sum := by
  induction s with
  | nil => simp
  | cons a s ih => simp [List.replicate_succ, ih, mul_add]

/-- `Σ_i (2 b_i - 1) y_i`. -/
theorem signSum_bits (σ : List Bool) (y : Vec K) (h : σ.length = y.length) :
    2 * (List.zipWith (fun b t => bit b * t) σ y).sum - y.sum = signSum σ y := by
  induction y generalizing σ with
  | nil =>
    obtain rfl : σ = [] := List.length_eq_zero_iff.1 h
    simp [signSum]
  | cons a y ih => cases σ with
    | nil => simp at h
    | cons b σ =>
      have := ih σ (by simpa using h)
      simp only [signSum, List.zipWith_cons_cons, List.sum_cons] at this ⊢
      rw [← this]
      cases b
      · simp [bit]; ring
      · simp [bit]; ring

theorem sum_matVec (n : ℕ) (R : Mat K) (hR : HasCols R n) (y : Vec K) (hy : y.length = n) :
    (matVec R y).sum = dot (colSums n R) y := by
  induction R with
  | nil =>
    have : colSums n ([] : Mat K) = zeros n := by
      simp [colSums, zeros, List.map_const']
    simp [matVec, this]
  | cons r R ih =>
    have hr : r.length = n := hR r (by simp)
    have e : colSums n (r :: R) = vadd r (colSums n R) := by
      apply vec_ext (by simp [colSums, vadd, hr])
      intro i hi
      have hi' : i < n := by simpa [colSums] using hi
      rw [getD_vadd _ _ _ (by simp [colSums, hr])]
      simp [colSums, List.getD, hi']
    have e2 : matVec (r :: R) y = dot r y :: matVec R y := rfl
    rw [e2, List.sum_cons, ih (fun q hq => hR q (by simp [hq])), e, dot_vadd_left _ _ _ (by simp [colSums, hr])]

/-- What the program takes from the bounds of `xdot`: bounds for the layers, with which the gradient can be
encoded, and bounds for `R xdot`. -/
structure RateOk (L : Lyap K) (B : RateBounds K) (R : Mat K) (wz : List (Vec K × Vec K)) (rb : Vec K × Vec K) :
    Prop where
  wzEq : L.wzBounds B = some wz
  wzLen : wz.length = L.net.hidden.length
  grad : ∃ c, gradTimesVecBounds L.net L.dim wz = some c
  rbEq : L.rateRange R B = some rb
  lo : rb.1.length = R.length
  up : rb.2.length = R.length
  le : ∀ i, i < R.length → rb.1.getD i 0 ≤ rb.2.getD i 0

/-- `xdot` respects the bounds. -/
def RateIn (L : Lyap K) (R : Mat K) (wz : List (Vec K × Vec K)) (rb : Vec K × Vec K) (pat : List (List Bool))
    (v : Vec K) : Prop :=
  WzOk L.net.hidden wz (dirPre L.net.hidden pat v) ∧
    ∀ i, i < R.length → rb.1.getD i 0 ≤ (matVec R v).getD i 0 ∧ (matVec R v).getD i 0 ≤ rb.2.getD i 0

/-- C39: every feasible point is a state in the box with its velocity, and the objective is the derivative
of an affine piece of `V` at the state, plus `ε V`. Conversely every state with every piece which respects
the flags fixed by the bounds is represented. -/
theorem C39_program (L : Lyap K) (hL : L.NetOk) {R : Option (Tensor2 K)} {R' : Mat K} {xe : Vec K}
    (h : L.EqOk R R' xe) (lam eps : K) (lower upper : Option K) {sys : SysConstr K}
    {Dom Rel : Vec K → Vec K → Prop} (hsys : SysEnc sys L.dim Dom Rel) {B : RateBounds K}
    {wz : List (Vec K × Vec K)} {rb : Vec K × Vec K} (hB : RateOk L B R' wz rb) :
    ∃ D rr er, L.rate sys B xe lam eps .expLower R lower upper .binary = some D ∧
      outputConstraint L.net L.dim L.xLo L.xUp L.method = some rr ∧ L.errRange R' xe = some er ∧
      D.x.length = L.dim ∧ D.xdot.length = L.dim ∧ D.m.obj.map MilpObj.maximize = some true ∧
      (∀ v, D.m.Feas v → InBox L.xLo L.xUp (D.x.map v) ∧ Rel (D.x.map v) (D.xdot.map v) ∧
        Between lower upper (lyapV L.net R' lam xe (D.x.map v)) ∧
        ∃ pat σ, PieceAt L.net R' xe (D.x.map v) pat σ ∧
          D.m.objVal v = pieceRate L.net R' lam pat σ (D.xdot.map v)
            + eps * lyapV L.net R' lam xe (D.x.map v)) ∧
      (∀ y yd pat σ, InBox L.xLo L.xUp y → yd.length = L.dim → Dom y yd →
        Between lower upper (lyapV L.net R' lam xe y) → PieceAt L.net R' xe y pat σ →
        FixedOk rr.reluInputLo rr.reluInputUp pat → FixedOk er.1 er.2 [σ] → RateIn L R' wz rb pat yd →
        ∃ v, D.m.Feas v ∧ D.x.map v = y ∧ D.xdot.map v = yd ∧
          D.m.objVal v = pieceRate L.net R' lam pat σ yd + eps * lyapV L.net R' lam xe y) := by
  have h' : L.EqOk (some ⟨L.dim, R'⟩) R' xe := ⟨h.up, by simp [getR], h.cols, h.rows, h.xe⟩
  obtain ⟨m1, h1, w1, n1, f1⟩ := start_free (Mip.empty : Mip K) Mip.WF.empty feas_empty L.dim
  have e0 : (Mip.empty : Mip K).n = 0 := rfl
  rw [e0] at h1 n1
  rw [zero_add] at n1
  obtain ⟨m2, h2, w2, n2, f2⟩ := start_free m1 w1 f1 L.dim
  rw [n1] at h2 n2
  set x := List.range' 0 L.dim with hx
  set xd := List.range' L.dim L.dim with hxd
  have lx : x.length = L.dim := by simp [hx]
  have lxd : xd.length = L.dim := by simp [hxd]
  have bx : ∀ i ∈ x, i < L.dim := fun i hi => mem_range'_lt (by omega) i hi
  have bxd : ∀ i ∈ xd, L.dim ≤ i ∧ i < m2.n := fun i hi => by
    rw [hxd, List.mem_range'_1] at hi
    omega
  have b2 : ∀ i ∈ x, i < m2.n := fun i hi => by have := bx i hi; omega
  have b2d : ∀ i ∈ xd, i < m2.n := fun i hi => (bxd i hi).2
  have ndx : (x ++ xd).Nodup := by
    refine List.Nodup.append List.nodup_range' List.nodup_range' ?_
    intro i hi hi'
    have := bx i hi
    have := (bxd i hi').1
    omega
  obtain ⟨m3, ds, dg, h3, E3⟩ := hsys m2 x xd w2 lx lxd ndx b2 b2d
  have q3 := E3.n
  obtain ⟨t, h4, tz, tb, tn, ta, tbb, hret, hbin, E4⟩ := relu_pat_enc L hL m3 E3.wf x lx
    (fun i hi => lt_of_lt_of_le (b2 i hi) E3.n)
  have w4 := (E4 []).wf
  have q4 : m2.n ≤ t.m.n := by omega
  obtain ⟨er, m5, s, al, her, h5, ls, la, nds, hs, ha, k5, ler1, ler2, E5⟩ := l1_encQ L h' t.m w4 x lx
    (fun i hi => lt_of_lt_of_le (b2 i hi) q4)
  have w5 := (E5 (List.replicate R'.length true) (by simp)).wf
  have q5 : t.m.n ≤ m5.n := (E5 (List.replicate R'.length true) (by simp)).n
  have htz : ∀ i ∈ t.z, m3.n ≤ i ∧ i < t.m.n := fun i hi => by
    rw [tz, List.mem_range'_1] at hi
    omega
  have htb : ∀ i ∈ t.beta, m3.n ≤ i ∧ i < t.m.n := fun i hi => by
    rw [tb, List.mem_range'_1] at hi
    omega
  have ndz : (t.z ++ s).Nodup := by
    refine List.Nodup.append (by rw [tz]; exact List.nodup_range') nds ?_
    intro i hi hi'
    have := (htz i hi).2
    have := (hs i hi').1
    omega
  obtain ⟨m6, m7, h6, h7, k7, E7⟩ := vboundsC_enc m5 w5 lower upper t.a lam (t.b - L.phi xe) t.z s R'.length ls
    (by rw [ta, tz, length_aOut L hL]; simp) ndz
    (fun i hi => lt_of_lt_of_le (htz i hi).2 q5) (fun i hi => (hs i hi).2)
  have q7 := E7.n
  obtain ⟨c, hc⟩ := hB.grad
  obtain ⟨m8, ga, h8, hga, lga, n8, -, E8⟩ := grad_enc L hL hc hB.wzLen m7 E7.wf xd t.beta lxd
    (fun i hi => by have := b2d i hi; omega) (by rw [tb]; simp)
    (fun i hi => k7 i (k5 i (hbin i hi))) (fun i hi => by have := (htb i hi).2; omega)
  obtain ⟨m9, h9, n9, E9⟩ := dl1_enc L hB.rbEq hB.lo hB.up hB.le h.cols m8 E8.wf lam al xd lxd la
    (fun i hi => by have := b2d i hi; omega) (fun i hi => by have := (ha i hi).2; omega)
  set gs := List.range' m7.n (numUnits L.net.hidden) with hgs
  set es := List.range' m8.n R'.length with hes
  have bgs : ∀ i ∈ gs, m7.n ≤ i ∧ i < m8.n := fun i hi => by
    rw [hgs, List.mem_range'_1] at hi
    omega
  have bes : ∀ i ∈ es, m8.n ≤ i ∧ i < m9.n := fun i hi => by
    rw [hes, List.mem_range'_1] at hi
    omega
  -- the objective
  obtain ⟨mf, hf, ff, of, vf⟩ := obj_set m9 E9.wf
    [vsmul eps t.a, vsmul eps (fullVec R'.length lam), ga,
      fullVec R'.length (2 * lam) ++ vsmul (-lam) (colSums L.dim R')]
    [t.z, s, gs, es ++ xd] ((t.b - L.phi xe) * eps) true
    (by simp [ta, tz, length_aOut L hL, ls, lga, hgs, hes, hxd, fullVec, colSums])
    (by
      simp only [List.flatten_cons, List.flatten_nil, List.append_nil]
      refine List.Nodup.append (by rw [tz]; exact List.nodup_range') ?_ ?_
      · refine List.Nodup.append nds ?_ ?_
        · refine List.Nodup.append List.nodup_range' (List.Nodup.append List.nodup_range' List.nodup_range' ?_) ?_
          · intro i hi hi'
            have := (bes i hi).1
            have := (bxd i hi').2
            omega
          · intro i hi hi'
            have := bgs i hi
            rcases List.mem_append.1 hi' with hi' | hi'
            · have := (bes i hi').1
              omega
            · have := (bxd i hi').2
              omega
        · intro i hi hi'
          have := hs i hi
          rcases List.mem_append.1 hi' with hi' | hi'
          · have := (bgs i hi').1
            omega
          · rcases List.mem_append.1 hi' with hi' | hi'
            · have := (bes i hi').1
              omega
            · have := (bxd i hi').2
              omega
      · intro i hi hi'
        have := htz i hi
        rcases List.mem_append.1 hi' with hi' | hi'
        · have := (hs i hi').1
          omega
        · rcases List.mem_append.1 hi' with hi' | hi'
          · have := (bgs i hi').1
            omega
          · rcases List.mem_append.1 hi' with hi' | hi'
            · have := (bes i hi').1
              omega
            · have := (bxd i hi').2
              omega)
    (by
      simp only [List.flatten_cons, List.flatten_nil, List.append_nil, List.mem_append]
      rintro i (hi | hi | hi | hi | hi)
      · have := (htz i hi).2; omega
      · have := (hs i hi).2; omega
      · have := (bgs i hi).2; omega
      · have := (bes i hi).2; omega
      · have := (bxd i hi).2; omega)
  have hsum : ∀ v : ℕ → K, s.map v = (matVec R' (vsub (x.map v) xe)).map (fun a => |a|) → ∀ c,
      dot (fullVec R'.length c) (s.map v) = c * err R' xe (x.map v) := by
    intro v hv c
    have := l1_sum hv c
    rwa [List.length_map, ls] at this
  have hval : ∀ v : ℕ → K, dot t.a (t.z.map v) + t.b = L.phi (x.map v) →
      s.map v = (matVec R' (vsub (x.map v) xe)).map (fun a => |a|) →
      dot t.a (t.z.map v) + (t.b - L.phi xe) + dot (fullVec R'.length lam) (s.map v)
        = lyapV L.net R' lam xe (x.map v) := by
    intro v hp hv
    rw [hsum v hv, ← add_sub_assoc, hp]
    rfl
  -- the value of the objective
  have hobj : ∀ (v : ℕ → K) (p : List (List Bool)) (τ : List Bool), m9.Feas v →
      dot t.a (t.z.map v) + t.b = L.phi (x.map v) →
      s.map v = (matVec R' (vsub (x.map v) xe)).map (fun a => |a|) →
      PatFits L.net.hidden p → t.beta.map v = patVec p → al.map v = τ.map bit →
      mf.objVal v = pieceRate L.net R' lam p τ (xd.map v) + eps * lyapV L.net R' lam xe (x.map v) := by
    intro v p τ hv hp hsv hfit hbp hτ
    obtain ⟨v8, r9⟩ := E9.sound v hv
    obtain ⟨-, r8⟩ := E8.sound v v8
    have g1 := (r8 p hfit hbp).1
    have g2 := (r9 τ hτ).2
    have hτl : τ.length = R'.length := by
      have := congrArg List.length hτ
      simpa [la] using this.symm
    have lmv : (matVec R' (xd.map v)).length = R'.length := by simp [matVec]
    rw [vf, ← hval v hp hsv]
    have e3 : dot (fullVec R'.length (2 * lam) ++ vsmul (-lam) (colSums L.dim R')) ((es ++ xd).map v)
        = lam * signSum τ (matVec R' (xd.map v)) := by
      rw [List.map_append, dot_append _ _ _ _ (by simp [fullVec, hes]), g2, dot_vsmul_left,
        ← sum_matVec L.dim R' h.cols _ (by simp [lxd])]
      have q : (List.zipWith (fun b t => bit b * t) τ (matVec R' (xd.map v))).length = R'.length := by
        simp [lmv, hτl]
      have := dot_replicate (2 * lam) (List.zipWith (fun b t => bit b * t) τ (matVec R' (xd.map v)))
      rw [q] at this
      rw [fullVec, this, ← signSum_bits τ _ (by rw [hτl, lmv])]
      ring
    simp only [objExpr, List.zipWith_cons_cons, List.zipWith_nil_right, List.sum_cons, List.sum_nil, pieceRate]
    rw [e3, g1, dot_vsmul_left, dot_vsmul_left]
    ring
  -- the chain
  refine ⟨⟨mf, x, t.beta, al, xd⟩, t.ret, er, ?_, hret, her, lx, lxd, of, ?_, ?_⟩
  · unfold Lyap.rate
    have hxe : xe.length = L.dim := h.xe.1
    have e5 : (al.map fun i => [i]).map (fun a => a.getD 0 0) = al := by
      rw [List.map_map]
      exact List.map_id'' (fun i => by simp) al
    simp only [hxe, and_self, if_true, h.R, Option.bind_eq_bind, Option.bind_some, h1, h2, h3, h4, h5, h6, h7,
      hB.wzEq, hc, h8, hga, e5, h9, hf]
  · intro v hv
    have v9 := (ff v).1 hv
    obtain ⟨v8, r9⟩ := E9.sound v v9
    obtain ⟨v7, r8⟩ := E8.sound v v8
    obtain ⟨v5, r7⟩ := E7.sound v v7
    obtain ⟨v4, r5, τ, hτ, hτs⟩ := (E5 (List.replicate R'.length true) (by simp)).sound v v5
    obtain ⟨v3, hbox, hphi, p0, p1, hfit, hbp, hreal, hdir⟩ := (E4 []).sound v v4
    obtain ⟨-, hrel⟩ := E3.sound v v3
    refine ⟨hbox, hrel, by rw [← hval v hphi r5]; exact r7, p1, τ, ⟨hreal, hτs⟩, ?_⟩
    rw [hobj v p0 τ v9 hphi r5 hfit hbp hτ, pieceRate, pieceRate, hdir]
  · rintro y yd pat σ hy hyd hdom hbet ⟨hreal, hσ⟩ hfix hfix2 ⟨hwz, hrb⟩
    have hyl : y.length = L.dim := hy.1
    have hσl : σ.length = R'.length := by simpa [matVec] using hσ.length_eq
    have hfit : PatFits L.net.hidden pat := patFits_of_realises (hidOk_all _ _ hL.net.1) hreal
    set v0 : ℕ → K := fun i => (y ++ yd).getD i 0 with hv0
    have ex : x.map v0 = y := by
      apply vec_ext (by simp [hx, hyl])
      intro i hi
      have hi' : i < L.dim := by simpa [hx] using hi
      have : i < y.length := by omega
      simp [hx, hv0, List.getD, hi', List.getElem?_append_left this]
    have exd : xd.map v0 = yd := by
      apply vec_ext (by simp [hxd, hyd])
      intro i hi
      have hi' : i < L.dim := by simpa [hxd] using hi
      have e : (y ++ yd)[L.dim + i]? = yd[i]? := by
        rw [List.getElem?_append_right (by omega)]
        congr 1
        omega
      simp [hxd, hv0, List.getD, hi', e]
    have hd1 : DepsBelow m2.n fun v => x.map v = y ∧ xd.map v = yd :=
      depsBelow_map2 x xd b2 b2d fun p q => p = y ∧ q = yd
    have C1 := (E3.q.weaken (D2 := fun v => x.map v = y ∧ xd.map v = yd)
      (fun v _ hv => by rw [hv.1, hv.2]; exact hdom) (fun _ _ h => h) (fun _ _ _ h => h)).seq (E4 pat)
      hd1 (fun _ _ _ h => h) (fun v hv _ _ => by
        rw [hv.1]
        exact ⟨hy, hreal, hfix⟩)
    have C2 := C1.seq (E5 σ hσl) hd1 (by
        intro v w hvw hq
        refine ⟨trivial, ?_⟩
        have : t.beta.map w = t.beta.map v := List.map_congr_left fun j hj => (hvw j (htb j hj).2).symm
        rw [this]
        exact hq.2) (fun v hv _ _ => by
        rw [hv.1]
        exact ⟨hy, hσ, hfix2⟩)
    have hdq : ∀ N, m5.n ≤ N → DepsBelow N fun v : ℕ → K =>
        ((True ∧ t.beta.map v = patVec pat) ∧ al.map v = σ.map bit) := by
      intro N hN v w hvw hq
      have e1 : t.beta.map w = t.beta.map v :=
        List.map_congr_left fun j hj => (hvw j (by have := (htb j hj).2; omega)).symm
      have e2 : al.map w = al.map v :=
        List.map_congr_left fun j hj => (hvw j (by have := (ha j hj).2; omega)).symm
      rw [e1, e2]
      exact hq
    have C3 := C2.seq E7.q hd1 (hdq _ le_rfl) (fun v hv hR _ => by
      rw [hval v hR.1.2.2.1 hR.2.1, hv.1]
      exact hbet)
    have C4 := C3.seq E8.q hd1 (fun v w hvw hq => ⟨hdq m7.n q7 v w hvw hq.1, trivial⟩)
      (fun v hv _ hq => ⟨pat, hfit, hq.1.1.2, by rw [hv.2]; exact hwz⟩)
    have C5 := C4.seq E9.q hd1 (fun v w hvw hq => ⟨⟨hdq m8.n (by omega) v w hvw hq.1.1, trivial⟩, trivial⟩)
      (fun v hv _ hq => ⟨⟨σ, hσl, hq.1.1.2⟩, by rw [hv.2]; exact hrb⟩)
    obtain ⟨v, hvv, hfv, hqv⟩ := C5.complete v0 (f2 v0) ⟨ex, exd⟩
    have hxv : x.map v = y := by rw [← ex]; exact List.map_congr_left fun j hj => hvv j (b2 j hj)
    have hxdv : xd.map v = yd := by rw [← exd]; exact List.map_congr_left fun j hj => hvv j (b2d j hj)
    obtain ⟨-, hR⟩ := C5.sound v hfv
    refine ⟨v, (ff v).2 hfv, hxv, hxdv, ?_⟩
    rw [hobj v pat σ hfv hR.1.1.1.1.2.2.1 hR.1.1.1.2.1 hfit hqv.1.1.1.1.2 hqv.1.1.1.2, hxv, hxdv]

/-- The flags fixed by bounds can be kept along a ray inside the box. -/
theorem exists_pref (lo up : Vec K) (ws : List ℕ) :
    ∃ pref : List (List Bool), pref.map List.length = ws ∧
      ∀ i, i < pref.flatten.length → pref.flatten.getD i false = decide (0 ≤ lo.getD i 0) := by
  have key : ∀ (ws : List ℕ) (o : ℕ), ∃ pref : List (List Bool), pref.map List.length = ws ∧
      ∀ i, i < pref.flatten.length → pref.flatten.getD i false = decide (0 ≤ lo.getD (o + i) 0) := by
    intro ws
    induction ws with
    | nil => intro o; exact ⟨[], rfl, by simp⟩
    | cons w ws ih =>
      intro o
      obtain ⟨p, h1, h2⟩ := ih (o + w)
      refine ⟨((List.range w).map fun j => decide (0 ≤ lo.getD (o + j) 0)) :: p, by simp [h1], fun i hi => ?_⟩
      rw [List.flatten_cons]
      by_cases hw : i < w
      · rw [getD_app_left _ _ _ (by simpa using hw)]
        simp only [List.getD, List.getElem?_map, List.getElem?_range hw]
        rfl
      · obtain ⟨j, rfl⟩ : ∃ j, i = w + j := ⟨i - w, by omega⟩
        rw [getD_app_right _ _ _ (by simp), h2 j (by simpa using hi), add_assoc]
  obtain ⟨p, h1, h2⟩ := key ws 0
  exact ⟨p, h1, fun i hi => by simpa using h2 i hi⟩

theorem fixed_of_strict {lo up : K} {b : Bool} {f : K → K} {T : K} (hT : 0 < T)
    (hf : ∀ t, 0 ≤ t → t ≤ T → lo ≤ f t ∧ f t ≤ up)
    (h : b ≠ decide (0 ≤ lo) → Strict b f) : (0 ≤ lo → b = true) ∧ (lo < 0 → up ≤ 0 → b = false) := by
  constructor
  · intro hlo
    by_contra hb
    obtain rfl : b = false := by simpa using hb
    obtain ⟨t, t0, t1, ht⟩ := h (by simp [hlo]) T hT
    simp only [Bool.false_eq_true, if_false] at ht
    have := (hf t t0 t1).1
    linarith
  · intro hlo hup
    by_contra hb
    obtain rfl : b = true := by simpa using hb
    obtain ⟨t, t0, t1, ht⟩ := h (by simp [hlo]) T hT
    simp only [if_true] at ht
    have := (hf t t0 t1).2
    linarith

/-- A ray between two points of a box stays in the box. -/
theorem inBox_ray {lo up x v : Vec K} {T t : K} (hx : InBox lo up x) (hv : v.length = x.length)
    (hT : InBox lo up (vadd x (vsmul T v))) (h0 : 0 ≤ t) (h1 : t ≤ T) : InBox lo up (vadd x (vsmul t v)) := by
  obtain ⟨a1, a2, a3⟩ := hx
  obtain ⟨b1, b2, b3⟩ := hT
  have hl : ∀ t, (vadd x (vsmul t v)).length = x.length := fun t => by simp [hv]
  refine ⟨by rw [hl, ← hl T, b1], by rw [hl, ← hl T, b2], fun i hi => ?_⟩
  rw [hl] at hi
  have p := a3 i hi
  have q := b3 i (by rw [hl]; exact hi)
  rw [getD_vadd _ _ _ (by simp [hv]), Model.getD_vsmul] at q ⊢
  rcases le_total 0 (v.getD i 0) with hs | hs
  · have := mul_le_mul_of_nonneg_right h1 hs
    have := mul_nonneg h0 hs
    constructor <;> linarith [q.1, q.2, p.1, p.2]
  · have := mul_le_mul_of_nonpos_right h1 hs
    have := mul_nonpos_of_nonneg_of_nonpos h0 hs
    constructor <;> linarith [q.1, q.2, p.1, p.2]

/-- If the derivative of every piece which respects the flags fixed by the bounds is at most `-ε V`, so is the
slope of `V`. -/
theorem slope_of_pieces (L : Lyap K) (hL : L.NetOk) {R : Option (Tensor2 K)} {R' : Mat K} {xe : Vec K}
    (h : L.EqOk R R' xe) (lam eps : K) {rr : ReluMIC K} {er : Vec K × Vec K}
    (h2 : outputConstraint L.net L.dim L.xLo L.xUp L.method = some rr) (h3 : L.errRange R' xe = some er)
    {x xd : Vec K} (hx : InBox L.xLo L.xUp x) (hxd : xd.length = L.dim) {T : K} (hT : 0 < T)
    (hray : InBox L.xLo L.xUp (vadd x (vsmul T xd)))
    (hp : ∀ pat σ, PieceAt L.net R' xe x pat σ → FixedOk rr.reluInputLo rr.reluInputUp pat → FixedOk er.1 er.2 [σ] →
      pieceRate L.net R' lam pat σ xd + eps * lyapV L.net R' lam xe x ≤ 0) :
    ∃ d, HasSlope (lyapV L.net R' lam xe) x xd d ∧ d ≤ -eps * lyapV L.net R' lam xe x := by
  have hxl : x.length = L.dim := hx.1
  have hxe : xe.length = L.dim := h.xe.1
  obtain ⟨pref, p1, p2⟩ := exists_pref rr.reluInputLo rr.reluInputUp (L.net.hidden.map fun p => p.1.W.length)
  have hbox : ∀ t, 0 ≤ t → t ≤ T → InBox L.xLo L.xUp (vadd x (vsmul t xd)) := fun t t0 t1 =>
    inBox_ray hx (by omega) hray t0 t1
  obtain ⟨pat, σ, hpc, hsl, s1, s2⟩ := lyapV_ray L.net L.dim hL.net hL.out R' lam xe x xd hxe hxl hxd pref
    ((List.range R'.length).map fun i => decide (0 ≤ er.1.getD i 0)) p1 (by simp)
  have hsh := realises_shape hL.net.1 hpc.1
  have hσl : σ.length = R'.length := by simpa [matVec] using hpc.2.length_eq
  have hfl : pat.flatten.length = pref.flatten.length := by
    rw [List.length_flatten, List.length_flatten, hsh, p1]
  have k1 : FixedOk rr.reluInputLo rr.reluInputUp pat := by
    intro i hi
    refine fixed_of_strict hT (f := fun t => (preacts L.net.hidden (vadd x (vsmul t xd))).flatten.getD i 0) ?_ ?_
    · intro t t0 t1
      have hb := (C11_bounds_sound h2 hL.net hL.method (hbox t t0 t1)).1
      refine hb.2.2 i ?_
      rw [List.length_flatten, length_preacts_map hL.net.1, ← hsh, ← List.length_flatten]
      exact hi
    · intro hne
      exact s1 i hi (by rw [p2 i (by omega)]; exact hne)
  have k2 : FixedOk er.1 er.2 [σ] := by
    intro i hi
    have hi' : i < R'.length := by simpa [hσl] using hi
    simp only [List.flatten_cons, List.flatten_nil, List.append_nil]
    refine fixed_of_strict hT (f := fun t => (matVec R' (vsub (vadd x (vsmul t xd)) xe)).getD i 0) ?_ ?_
    · intro t t0 t1
      have hb := (C08_ia_sound h3 (hbox t t0 t1)).2.2 i (by simpa using hi')
      have hlx : (vadd x (vsmul t xd)).length = L.dim := by simp [hxl, hxd]
      rw [getD_vadd _ _ _ (by simp)] at hb
      rw [getD_matVec, dot_vsub_right _ _ _ (by rw [hlx, hxe])]
      have e : (matVec (R'.map vneg) xe).getD i 0 = - dot (R'.getD i []) xe := by
        simp [matVec, List.getD, hi', dot_vneg_left]
      rw [e, getD_matVec] at hb
      simpa [sub_eq_add_neg] using hb
    · intro hne
      refine s2 i hi' ?_
      have e : ((List.range R'.length).map fun i => decide (0 ≤ er.1.getD i 0)).getD i false
          = decide (0 ≤ er.1.getD i 0) := by
        simp only [List.getD, List.getElem?_map, List.getElem?_range hi']
        rfl
      rw [e]
      simpa using hne
  refine ⟨pieceRate L.net R' lam pat σ xd, hsl, ?_⟩
  have := hp pat σ hpc k1 k2
  linarith

/-- C39: if no feasible point has a positive objective, `V` decreases from every state of the box (in the
range of `V` asked for) along its velocity: its slope is at most `-ε V`. The ray must stay in the box for a
moment; the velocity must respect the bounds used to build the program. -/
theorem C39_verdict (L : Lyap K) (hL : L.NetOk) {R : Option (Tensor2 K)} {R' : Mat K} {xe : Vec K}
    (h : L.EqOk R R' xe) (lam eps : K) (lower upper : Option K) {sys : SysConstr K}
    {Dom Rel : Vec K → Vec K → Prop} (hsys : SysEnc sys L.dim Dom Rel) {B : RateBounds K}
    {wz : List (Vec K × Vec K)} {rb : Vec K × Vec K} (hB : RateOk L B R' wz rb) {D : RateRet K}
    (hD : L.rate sys B xe lam eps .expLower R lower upper .binary = some D)
    (hle : ∀ v, D.m.Feas v → D.m.objVal v ≤ 0) {x xd : Vec K} (hx : InBox L.xLo L.xUp x)
    (hxd : xd.length = L.dim) (hdom : Dom x xd) (hbet : Between lower upper (lyapV L.net R' lam xe x))
    (hrate : ∀ pat, PatFits L.net.hidden pat → RateIn L R' wz rb pat xd) {T : K} (hT : 0 < T)
    (hray : InBox L.xLo L.xUp (vadd x (vsmul T xd))) :
    ∃ d, HasSlope (lyapV L.net R' lam xe) x xd d ∧ d ≤ -eps * lyapV L.net R' lam xe x := by
  obtain ⟨D', rr, er, h1, h2, h3, -, -, -, -, hcomp⟩ := C39_program L hL h lam eps lower upper hsys hB
  obtain rfl : D' = D := Option.some.inj (h1.symm.trans hD)
  refine slope_of_pieces L hL h lam eps h2 h3 hx hxd hT hray fun pat σ hpc k1 k2 => ?_
  have hfit := patFits_of_realises (hidOk_all _ _ hL.net.1) hpc.1
  obtain ⟨v, hv, -, -, e3⟩ := hcomp x xd pat σ hx hxd hdom hbet hpc k1 k2 (hrate pat hfit)
  rw [← e3]
  exact hle v hv

end NNL.Props
