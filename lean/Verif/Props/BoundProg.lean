import Verif.Lemmas.BoundProg
import Verif.Props.ContinuousLyap
import Verif.Props.ReluSystem

/-!
# C137: bounds of the velocity computed by the solver are valid
-/

set_option linter.unusedSectionVars false

namespace NNL.Props

open NNL NNL.Spec NNL.Model

variable {K : Type*} [Field K] [LinearOrder K] [IsStrictOrderedRing K]

/-- The bound program has variables for a state and its velocity, and contains every pair related by `Dom`. -/
structure BoundProgOk (P : BoundProg K) (n : ℕ) (Dom : Vec K → Vec K → Prop) : Prop where
  wf : P.m.WF
  lx : P.x.length = n
  lxn : P.xn.length = n
  nodup : P.xn.Nodup
  x : ∀ i ∈ P.x, i < P.m.n
  xn : ∀ i ∈ P.xn, i < P.m.n
  complete : ∀ x y, x.length = n → y.length = n → Dom x y → ∃ v, P.m.Feas v ∧ P.x.map v = x ∧ P.xn.map v = y

theorem loose_addMIC_out {a b : Mip K} (h : Loose a b) (c : MIC K) (x xn : List ℕ) {t t' : VType}
    (ht : t' = t ∨ t' = .continuous ∧ t = .binary) (hx : ∀ i ∈ x, i < a.n) :
    LooseP (a.addMIC c x (some xn) .fresh t) (b.addMIC c x (some xn) .fresh t') := by
  unfold Mip.addMIC
  refine (loose_setVarBound h _ _ _ hx).bindP fun a1 b1 h1 => ?_
  refine (loose_addSlack h1 c).bindP fun a2 b2 s _ h2 => ?_
  refine (loose_addBin h2 c ht).bindP fun a3 b3 z _ h3 => ?_
  refine (loose_addBlock h3 _ _ _ _ _ _ _ _).bindP fun a4 b4 h4 => ?_
  refine (loose_addBlock h4 _ _ _ _ _ _ _ _).bindP fun a5 b5 h5 => ?_
  have h6 : LooseM (a5.addOut c (some xn) x s z) (b5.addOut c (some xn) x s z) := by
    unfold Mip.addOut
    exact loose_addMConstr h5 _ _ _ _
  exact h6.bindP fun a6 b6 h6 => LooseP.some h6 _

theorem boundType_loose (lp : Bool) :
    boundType lp = VType.binary ∨ boundType lp = .continuous ∧ VType.binary = VType.binary := by
  cases lp <;> simp [boundType]

/-- C137: the bound program of a system without input contains every state with its next state (or velocity),
with binaries (method MIP) and relaxed (method LP). With binaries it contains nothing else. -/
theorem C137_auto_program {c : Option (ReluMIC K)} {n : ℕ} {Dom Rel : Vec K → Vec K → Prop}
    (hsys : SysEnc (addAuto c) n Dom Rel) (lp : Bool) :
    ∃ P, autoBoundProg c n lp = some P ∧ BoundProgOk P n Dom ∧
      (lp = false → ∀ v, P.m.Feas v → Rel (P.x.map v) (P.xn.map v)) := by
  obtain ⟨m1, h1, w1, n1, f1⟩ := start_free (Mip.empty : Mip K) Mip.WF.empty feas_empty n
  have e0 : (Mip.empty : Mip K).n = 0 := rfl
  rw [e0] at h1 n1
  rw [zero_add] at n1
  obtain ⟨m2, h2, w2, n2, f2⟩ := start_free m1 w1 f1 n
  rw [n1] at h2 n2
  set xn := List.range' 0 n with hxn
  set x := List.range' n n with hx
  have bn : ∀ i ∈ xn, i < m2.n := fun i hi => by rw [hxn, List.mem_range'_1] at hi; omega
  have bx : ∀ i ∈ x, i < m2.n := fun i hi => by rw [hx, List.mem_range'_1] at hi; omega
  obtain ⟨m3, s, g, h3, E3⟩ := hsys m2 x xn w2 (by simp [hx]) (by simp [hxn]) (by
    refine List.Nodup.append List.nodup_range' List.nodup_range' ?_
    intro i hi hi'
    rw [hx, List.mem_range'_1] at hi
    rw [hxn, List.mem_range'_1] at hi'
    omega) bx bn
  unfold addAuto at h3
  obtain ⟨r, hr, h3⟩ := Option.bind_eq_some_iff.1 h3
  obtain ⟨m4, h4, l4⟩ := loose_addMIC_out (Loose.refl w2) r.mic x xn (boundType_loose lp) bx _ _ h3
  refine ⟨⟨m4, x, xn⟩, ?_, ⟨l4.wfb, by simp [hx], by simp [hxn], List.nodup_range', ?_, ?_, ?_⟩, ?_⟩
  · unfold autoBoundProg
    simp only [hr, Option.bind_eq_bind, Option.bind_some, h1, h2, h4]
  · intro i hi
    have := bx i hi
    have := E3.n
    have := l4.n
    show i < m4.n
    omega
  · intro i hi
    have := bn i hi
    have := E3.n
    have := l4.n
    show i < m4.n
    omega
  · intro a y ha hy hd
    set v0 : ℕ → K := fun i => (y ++ a).getD i 0 with hv0
    have ey : xn.map v0 = y := by
      apply vec_ext (by simp [hxn, hy])
      intro i hi
      have hi' : i < n := by simpa [hxn] using hi
      have : i < y.length := by omega
      simp [hxn, hv0, List.getD, hi', List.getElem?_append_left this]
    have ea : x.map v0 = a := by
      apply vec_ext (by simp [hx, ha])
      intro i hi
      have hi' : i < n := by simpa [hx] using hi
      have e : (y ++ a)[n + i]? = a[i]? := by
        rw [List.getElem?_append_right (by omega)]
        congr 1
        omega
      simp [hx, hv0, List.getD, hi', e]
    obtain ⟨v, hv, hf⟩ := E3.complete v0 (f2 v0) (by rw [ea, ey]; exact hd)
    refine ⟨v, l4.feas v hf, ?_, ?_⟩
    · rw [← ea]
      exact List.map_congr_left fun i hi => hv i (bx i hi)
    · rw [← ey]
      exact List.map_congr_left fun i hi => hv i (bn i hi)
  · rintro rfl v hv
    have e : m4 = m3 := congrArg Prod.fst (Option.some.inj (h4.symm.trans h3))
    have hv : m4.Feas v := hv
    rw [e] at hv
    exact (E3.sound v hv).2

/-- C137: `_compute_Wz_bounds_optimization`. For every feasible point of the program whose flags are an activation
pattern, the bounds contain `z_0`, every `z_{i+1} = M(β_i) W_i z_i` and every `W_i z_i`, up to the derivative of
the network's piece along `z_0`. -/
theorem C137_wz_bounds {solve : Solver K} (hs : SolverBounds solve) {net : Net K} {n : ℕ} (hok : net.Ok n)
    {m : Mip K} (hw : m.WF) {z0 beta : List ℕ} {q : WzOpt K} (h : wzBoundsOpt solve net m z0 beta = some q)
    (hl : z0.length = n) (hn : z0.Nodup) (hz : ∀ i ∈ z0, i < m.n) (hb : ∀ i ∈ beta, i < m.n) {v : ℕ → K}
    (hv : m.Feas v) {pat : List (List Bool)} (hp : PatFits net.hidden pat) (hbp : beta.map v = patVec pat) :
    BetweenB q.z0 (z0.map v) ∧ List.Forall₂ BetweenB q.zb (dirPost net.hidden pat (z0.map v)) ∧
      List.Forall₂ BetweenB q.wz (dirPre net.hidden pat (z0.map v)) ∧
      BetweenB q.last (net.dir pat (z0.map v)) := by
  obtain ⟨-, -, -, h4⟩ := wzBoundsOpt_ok hs hok hw h hl hn hz hb
  obtain ⟨a, b, c, d, -⟩ := h4 v pat hv hp hbp
  exact ⟨a, b, c, d⟩

/-- C137: the bounds with which the derivative program is built contain `W_i z_i` and `R xdot` for every state
of the box, its velocity and every activation pattern of the state. -/
theorem C137_bounds (L : Lyap K) (hL : L.NetOk) {P : BoundProg K} {Dom : Vec K → Vec K → Prop}
    (hP : BoundProgOk P L.dim Dom) {solve : Solver K} (hs : SolverBounds solve) {R : Mat K} (hR : HasCols R L.dim)
    {lp : Bool} {B : RateBounds K} (h : L.optBounds solve P R lp = some B) :
    ∃ wz rlo rup, B = .opt wz rlo rup ∧ wz.length = L.net.hidden.length ∧
      ∀ rr, outputConstraint L.net L.dim L.xLo L.xUp L.method = some rr →
      ∀ x xd pat, InBox L.xLo L.xUp x → xd.length = L.dim → Dom x xd → Realises L.net.hidden x pat →
        FixedOk rr.reluInputLo rr.reluInputUp pat →
        List.Forall₂ BetweenB wz (dirPre L.net.hidden pat xd) ∧ BetweenB (rlo, rup) (matVec R xd) := by
  obtain ⟨t, ht, -, tb, tn, -, -, hret, -, E⟩ := relu_pat_enc L hL P.m hP.wf P.x hP.lx hP.x
  unfold Lyap.addRelu at ht
  obtain ⟨r, hr, ht⟩ := Option.bind_eq_some_iff.1 ht
  obtain ⟨⟨m1, s1, b1⟩, h1, ht⟩ := Option.bind_eq_some_iff.1 ht
  obtain ⟨aa, -, ht⟩ := Option.bind_eq_some_iff.1 ht
  obtain ⟨bb, -, ht⟩ := Option.bind_eq_some_iff.1 ht
  simp only [Option.some.injEq] at ht
  subst ht
  obtain ⟨m2, h2, l2⟩ := loose_addMIC (Loose.refl hP.wf) r.mic P.x (boundType_loose lp) hP.x _ _ h1
  unfold Lyap.optBounds at h
  simp only [hr, Option.bind_eq_bind, Option.bind_some, h2] at h
  obtain ⟨q, hq, h⟩ := Option.bind_eq_some_iff.1 h
  obtain ⟨⟨m3, e⟩, he, h⟩ := Option.bind_eq_some_iff.1 h
  simp only [Option.some.injEq] at h
  subst h
  have hn2 : m2.n = P.m.n + (numUnits L.net.hidden + numUnits L.net.hidden) := by rw [← l2.n]; exact tn
  have bxn : ∀ i ∈ P.xn, i < m2.n := fun i hi => by have := hP.xn i hi; omega
  obtain ⟨w1, w2, w3, w4⟩ := wzBoundsOpt_ok hs hL.net l2.wfb hq hP.lxn hP.nodup bxn (fun i hi => by
    have tb' : b1 = List.range' (P.m.n + numUnits L.net.hidden) (numUnits L.net.hidden) := tb
    rw [tb', List.mem_range'_1] at hi
    omega)
  obtain ⟨-, e2⟩ := rowRanges_ok hs hP.nodup R w1 he (by rw [hP.lxn]; exact hR)
    (fun i hi => by have := bxn i hi; omega)
  refine ⟨_, _, _, rfl, w3, fun rr hrr x xd pat hx hxd hd hre hfx => ?_⟩
  obtain rfl : r = rr := Option.some.inj (hr.symm.trans hrr)
  have hfit : PatFits L.net.hidden pat := patFits_of_realises (hidOk_all _ _ hL.net.1) hre
  obtain ⟨v0, f0, ex, exn⟩ := hP.complete x xd hx.1 hxd hd
  obtain ⟨v1, a1, f1, hb⟩ := (E pat).complete v0 f0 (by rw [ex]; exact ⟨hx, hre, hfx⟩)
  have exn1 : P.xn.map v1 = xd := by
    rw [← exn]
    exact List.map_congr_left fun i hi => a1 i (hP.xn i hi)
  obtain ⟨-, -, c3, -, v2, a2, f2⟩ := w4 v1 pat (l2.feas v1 f1) hfit hb
  rw [exn1] at c3
  refine ⟨c3, ?_⟩
  have := e2 v2 f2
  have exn2 : P.xn.map v2 = xd := by
    rw [← exn1]
    exact List.map_congr_left fun i hi => a2 i (bxn i hi)
  rwa [exn2] at this

theorem wzOk_of_between : ∀ (hs : List (Lin K × Act K)) (wz : List (Vec K × Vec K)) (pat : List (List Bool))
    (v : Vec K), PatFits hs pat → List.Forall₂ BetweenB wz (dirPre hs pat v) → WzOk hs wz (dirPre hs pat v) := by
  intro hs
  induction hs with
  | nil => intro wz pat v _ _; cases wz <;> simp [WzOk]
  | cons la hs ih =>
    obtain ⟨l, a⟩ := la
    intro wz pat v hp h
    cases hp with
    | @cons p _ ps _ hpl hps =>
      rw [dirPre] at h ⊢
      cases h with
      | cons h1 h2 =>
        exact ⟨fun j hj => Or.inr (h1.2.2 j (by simpa [matVec] using hj)), ih _ _ _ hps h2⟩

/-- C137: with the bounds computed by the solver, a non-positive optimum of the derivative program proves that
`V` decreases along the velocity. Nothing is assumed of the bounds, only of the solver. -/
theorem C137_verdict (L : Lyap K) (hL : L.NetOk) {R : Option (Tensor2 K)} {R' : Mat K} {xe : Vec K}
    (h : L.EqOk R R' xe) (lam eps : K) (lower upper : Option K) {sys : SysConstr K}
    {Dom Rel : Vec K → Vec K → Prop} (hsys : SysEnc sys L.dim Dom Rel) {P : BoundProg K}
    (hP : BoundProgOk P L.dim Dom) {solve : Solver K} (hs : SolverBounds solve) {lp : Bool} {B : RateBounds K}
    (hB : L.optBounds solve P R' lp = some B) {D : RateRet K}
    (hD : L.rate sys B xe lam eps .expLower R lower upper .binary = some D)
    (hle : ∀ v, D.m.Feas v → D.m.objVal v ≤ 0) {x xd : Vec K} (hx : InBox L.xLo L.xUp x)
    (hxd : xd.length = L.dim) (hdom : Dom x xd) (hbet : Between lower upper (lyapV L.net R' lam xe x)) {T : K}
    (hT : 0 < T) (hray : InBox L.xLo L.xUp (vadd x (vsmul T xd))) :
    ∃ d, HasSlope (lyapV L.net R' lam xe) x xd d ∧ d ≤ -eps * lyapV L.net R' lam xe x := by
  obtain ⟨wz, rlo, rup, rfl, hwl, hin⟩ := C137_bounds L hL hP hs h.cols hB
  obtain ⟨rr, hrr⟩ := hL.accepts
  have h' : L.EqOk (some ⟨L.dim, R'⟩) R' xe := ⟨h.up, by simp [getR], h.cols, h.rows, h.xe⟩
  obtain ⟨m1, h1, w1, n1, f1⟩ := start_free (Mip.empty : Mip K) Mip.WF.empty feas_empty L.dim
  obtain ⟨er, -, -, -, her, -⟩ := l1_encQ L h' m1 w1 (List.range' (Mip.empty : Mip K).n L.dim) (by simp)
    (fun i hi => by rw [List.mem_range'_1] at hi; omega)
  -- what the construction of the program says about the bounds
  obtain ⟨hwz, c, hc, hrb⟩ : L.wzBounds (.opt wz rlo rup) = some wz ∧
      (∃ c, gradTimesVecBounds L.net L.dim wz = some c ∧
        L.rateRange R' (.opt wz rlo rup) = some (rlo, rup)) := by
    unfold Lyap.rate at hD
    split at hD
    · obtain ⟨_, _, hD⟩ := Option.bind_eq_some_iff.1 hD
      obtain ⟨_, _, hD⟩ := Option.bind_eq_some_iff.1 hD
      obtain ⟨_, _, hD⟩ := Option.bind_eq_some_iff.1 hD
      obtain ⟨_, _, hD⟩ := Option.bind_eq_some_iff.1 hD
      obtain ⟨_, _, hD⟩ := Option.bind_eq_some_iff.1 hD
      obtain ⟨_, _, hD⟩ := Option.bind_eq_some_iff.1 hD
      obtain ⟨_, _, hD⟩ := Option.bind_eq_some_iff.1 hD
      obtain ⟨_, _, hD⟩ := Option.bind_eq_some_iff.1 hD
      obtain ⟨w', hw', hD⟩ := Option.bind_eq_some_iff.1 hD
      obtain ⟨c, hc, -⟩ := Option.bind_eq_some_iff.1 hD
      unfold Lyap.wzBounds at hw' ⊢
      unfold Lyap.rateRange
      revert hw'
      cases L.method with
      | ia => simp
      | opt o f =>
        cases f with
        | true => simp
        | false =>
          simp only [Option.some.injEq]
          rintro rfl
          exact ⟨trivial, c, hc, trivial⟩
    · cases hD
  refine slope_of_pieces L hL h lam eps hrr her hx hxd hT hray fun pat σ hpc k1 k2 => ?_
  obtain ⟨b1, b2⟩ := hin rr hrr x xd pat hx hxd hdom hpc.1 k1
  have hml : (matVec R' xd).length = R'.length := by simp [matVec]
  have hok : RateOk L (.opt wz rlo rup) R' wz (rlo, rup) :=
    ⟨hwz, hwl, ⟨c, hc⟩, hrb, b2.1.trans hml, b2.2.1.trans hml, fun i hi =>
      ((b2.2.2 i (by omega)).1).trans (b2.2.2 i (by omega)).2⟩
  obtain ⟨D', rr', er', e1, e2, e3, -, -, -, -, hcomp⟩ := C39_program L hL h lam eps lower upper hsys hok
  obtain rfl : D' = D := Option.some.inj (e1.symm.trans hD)
  obtain rfl : rr = rr' := Option.some.inj (hrr.symm.trans e2)
  obtain rfl : er = er' := Option.some.inj (her.symm.trans e3)
  have hfit := patFits_of_realises (hidOk_all _ _ hL.net.1) hpc.1
  obtain ⟨v, hv, -, -, e⟩ := hcomp x xd pat σ hx hxd hdom hbet hpc k1 k2
    ⟨wzOk_of_between _ _ _ _ hfit b1, fun i hi => b2.2.2 i (by omega)⟩
  rw [← e]
  exact hle v hv

/-- C137: the same for a continuous-time network system without input: the derivative program and the bound
program are both built from the system. -/
theorem C137_auto_verdict (L : Lyap K) (hL : L.NetOk) {R : Option (Tensor2 K)} {R' : Mat K} {xe : Vec K}
    (h : L.EqOk R R' xe) (lam eps : K) (lower upper : Option K) {S : AutoRelu K} (hS : AutoRelu.Ok S L.dim)
    (hm : MethodValid S.net S.xLo S.xUp S.method) {r : ReluMIC K} (hr : S.micEq = some r) {solve : Solver K}
    (hs : SolverBounds solve) {lp : Bool} {P : BoundProg K} (hP : autoBoundProg S.micEq L.dim lp = some P)
    {B : RateBounds K} (hB : L.optBounds solve P R' lp = some B) {D : RateRet K}
    (hD : L.rate (addAuto S.micEq) B xe lam eps .expLower R lower upper .binary = some D)
    (hle : ∀ v, D.m.Feas v → D.m.objVal v ≤ 0) {x : Vec K} (hx : InBox L.xLo L.xUp x)
    (hxS : InBox S.xLo S.xUp x) (hbet : Between lower upper (lyapV L.net R' lam xe x)) {T : K}
    (hT : 0 < T) (hray : InBox L.xLo L.xUp (vadd x (vsmul T (S.stepEq x)))) :
    ∃ d, HasSlope (lyapV L.net R' lam xe) x (S.stepEq x) d ∧ d ≤ -eps * lyapV L.net R' lam xe x := by
  have hsys := (C50_auto_equilibrium hS hm hr).2
  obtain ⟨P', hP', hok, -⟩ := C137_auto_program hsys lp
  obtain rfl : P' = P := Option.some.inj (hP'.symm.trans hP)
  exact C137_verdict L hL h lam eps lower upper hsys hok hs hB hD hle hx
    (C50_auto_equilibrium_step hS x hx.1).1 ⟨hxS, rfl⟩ hbet hT hray

end NNL.Props
