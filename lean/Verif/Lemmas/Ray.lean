import Verif.Lemmas.ContEnc
import Verif.Spec.ContinuousLyap
import Verif.Props.Pattern

/-!
# Networks and norms along a ray

Near its start, a ray stays in one affine piece of the network and of the norm.
-/

set_option linter.unusedSectionVars false

namespace NNL.Model

open NNL NNL.Spec NNL.Props

variable {K : Type*} [Field K] [LinearOrder K] [IsStrictOrderedRing K]

/-- The flag was not a free choice: the value has that strict sign arbitrarily near the start. -/
def Strict (b : Bool) (f : K → K) : Prop :=
  ∀ T, 0 < T → ∃ t, 0 ≤ t ∧ t ≤ T ∧ (if b then 0 < f t else f t < 0)

theorem ray_scalar (y s : K) (pref : Bool) :
    ∃ b T, 0 < T ∧ (∀ t, 0 ≤ t → t ≤ T → SignOk b (y + t * s)) ∧
      (b ≠ pref → Strict b fun t => y + t * s) := by
  rcases lt_trichotomy y 0 with hy | hy | hy
  · refine ⟨false, -y / (|s| + 1), div_pos (by linarith) (by positivity), fun t h0 h1 => ⟨by simp, fun _ => ?_⟩,
      fun _ T hT => ⟨0, le_rfl, hT.le, by simpa using hy⟩⟩
    rw [le_div_iff₀ (by positivity)] at h1
    have : t * s ≤ t * |s| := mul_le_mul_of_nonneg_left (le_abs_self s) h0
    nlinarith
  · subst hy
    rcases lt_trichotomy s 0 with hs | hs | hs
    · refine ⟨false, 1, one_pos, fun t h0 _ => ⟨by simp, fun _ => ?_⟩, fun _ T hT => ⟨T, hT.le, le_rfl, ?_⟩⟩
      · have := mul_nonpos_of_nonneg_of_nonpos h0 hs.le
        linarith
      · have := mul_neg_of_pos_of_neg hT hs
        simpa using this
    · subst hs
      exact ⟨pref, 1, one_pos, fun t _ _ => by simp [SignOk], fun h => absurd rfl h⟩
    · refine ⟨true, 1, one_pos, fun t h0 _ => ⟨fun _ => ?_, by simp⟩, fun _ T hT => ⟨T, hT.le, le_rfl, ?_⟩⟩
      · have := mul_nonneg h0 hs.le
        linarith
      · have := mul_pos hT hs
        simpa using this
  · refine ⟨true, y / (|s| + 1), div_pos hy (by positivity), fun t h0 h1 => ⟨fun _ => ?_, by simp⟩,
      fun _ T hT => ⟨0, le_rfl, hT.le, by simpa using hy⟩⟩
    rw [le_div_iff₀ (by positivity)] at h1
    have : -(t * s) ≤ t * |s| := by
      rw [← mul_neg]
      exact mul_le_mul_of_nonneg_left (neg_le_abs s) h0
    nlinarith

theorem ray_vec : ∀ (y s : Vec K) (pref : List Bool), y.length = s.length → pref.length = y.length →
    ∃ (p : List Bool) (T : K), 0 < T ∧ p.length = y.length ∧
      (∀ t, 0 ≤ t → t ≤ T → List.Forall₂ SignOk p (vadd y (vsmul t s))) ∧
      ∀ i, i < p.length → p.getD i false ≠ pref.getD i false →
        Strict (p.getD i false) fun t => (vadd y (vsmul t s)).getD i 0 := by
  intro y
  induction y with
  | nil => intro s pref h1 h2; exact ⟨[], 1, one_pos, rfl, fun _ _ _ => by simp [vadd], by simp⟩
  | cons a y ih =>
    intro s pref h1 h2
    cases s with
    | nil => simp at h1
    | cons c s => cases pref with
      | nil => simp at h2
      | cons q pref =>
        obtain ⟨b, T1, hT1, f1, g1⟩ := ray_scalar a c q
        obtain ⟨p, T2, hT2, l2, f2, g2⟩ := ih s pref (by simpa using h1) (by simpa using h2)
        have e : ∀ t, vadd (a :: y) (vsmul t (c :: s)) = (a + t * c) :: vadd y (vsmul t s) := by
          intro t; simp [vadd, vsmul]
        refine ⟨b :: p, min T1 T2, lt_min hT1 hT2, by simp [l2], fun t h0 h1 => ?_, fun i hi hne => ?_⟩
        · rw [e]
          exact List.Forall₂.cons (f1 t h0 (h1.trans (min_le_left _ _))) (f2 t h0 (h1.trans (min_le_right _ _)))
        · cases i with
          | zero => simpa [e, Strict] using g1 (by simpa using hne)
          | succ i => simpa [e, Strict] using g2 i (by simpa using hi) (by simpa using hne)

theorem eval_ray (l : Lin K) (x v : Vec K) (t : K) (h : x.length = v.length) (hb : l.b.length = l.W.length) :
    l.eval (vadd x (vsmul t v)) = vadd (l.eval x) (vsmul t (matVec l.W v)) := by
  apply vec_ext (by simp [Lin.eval, hb])
  intro i hi
  have hi' : i < l.W.length := by simpa [Lin.eval, hb] using hi
  rw [Lin.eval, Lin.eval, getD_vadd _ _ _ (by simp [hb]), getD_vadd _ _ _ (by simp [hb]),
    getD_vadd _ _ _ (by simp [hb]), matVec_vadd _ _ _ (by simp [h]), getD_vadd _ _ _ (by simp),
    Model.getD_vsmul]
  have : (matVec l.W (vsmul t v)).getD i 0 = t * (matVec l.W v).getD i 0 := by
    rw [getD_matVec, getD_matVec, dot_vsmul_right]
  rw [this]
  ring

/-- On the piece selected by the flags the activation is linear. -/
theorem act_ray (a : Act K) (p : List Bool) (y s : Vec K) (t : K) (hy : y.length = s.length)
    (hp : p.length = y.length) (h0 : List.Forall₂ SignOk p y)
    (h : List.Forall₂ SignOk p (vadd y (vsmul t s))) :
    (vadd y (vsmul t s)).map a.f = vadd (y.map a.f) (vsmul t (List.zipWith (fun b c => a.gain b * c) p s)) := by
  have hf : ∀ (b : Bool) (c : K), SignOk b c → a.f c = a.gain b * c := by
    intro b c hb
    have := zipWith_gain_of_sign a [b] [c] (by simpa using hb)
    simpa using this.symm
  induction p generalizing y s with
  | nil =>
    cases y with
    | nil => simp [vadd]
    | cons _ _ => simp at hp
  | cons b p ih => cases y with
    | nil => simp at hp
    | cons c y => cases s with
      | nil => simp at hy
      | cons d s =>
        have e : ∀ (a b : K) (u w : Vec K), vadd (a :: u) (vsmul t (b :: w)) = (a + t * b) :: vadd u (vsmul t w) := by
          intro a b u w; simp [vadd, vsmul]
        rw [e] at h ⊢
        rw [List.forall₂_cons] at h h0
        simp only [List.map_cons, List.zipWith_cons_cons]
        rw [e, ih y s (by simpa using hy) (by simpa using hp) h0.2 h.2, hf b _ h.1, hf b _ h0.1]
        congr 1
        ring

theorem ray_hid {m : ℕ} : ∀ (hs : List (Lin K × Act K)) (k : ℕ) (x v : Vec K) (pref : List (List Bool)),
    HidOk k hs m → x.length = k → v.length = k → pref.map List.length = (hs.map fun p => p.1.W.length) →
    ∃ (pat : List (List Bool)) (T : K), 0 < T ∧ pat.map List.length = (hs.map fun p => p.1.W.length) ∧
      (∀ t, 0 ≤ t → t ≤ T → Realises hs (vadd x (vsmul t v)) pat ∧
        hiddenOut hs (vadd x (vsmul t v)) = vadd (hiddenOut hs x) (vsmul t (dirHid hs pat v))) ∧
      ∀ i, i < pat.flatten.length → pat.flatten.getD i false ≠ pref.flatten.getD i false →
        Strict (pat.flatten.getD i false) fun t => (preacts hs (vadd x (vsmul t v))).flatten.getD i 0 := by
  intro hs
  induction hs with
  | nil =>
    intro k x v pref _ _ _ hp
    exact ⟨[], 1, one_pos, rfl, fun t _ _ => ⟨List.Forall₂.nil, rfl⟩, by simp⟩
  | cons q hs ih =>
    obtain ⟨l, a⟩ := q
    intro k x v pref hok hx hv hp
    obtain ⟨rfl, hl, hrest⟩ := hok
    cases pref with
    | nil => simp at hp
    | cons pr pref =>
      simp only [List.map_cons, List.cons.injEq] at hp
      have hey : (l.eval x).length = l.W.length := by simp [Lin.eval, hl.2]
      obtain ⟨p, T1, hT1, lp, f1, g1⟩ := ray_vec (l.eval x) (matVec l.W v) pr (by simp [hey]) (by rw [hey, hp.1])
      have hev : ∀ t, l.eval (vadd x (vsmul t v)) = vadd (l.eval x) (vsmul t (matVec l.W v)) := fun t =>
        eval_ray l x v t (by rw [hx, hv]) hl.2
      have hz : vadd (l.eval x) (vsmul 0 (matVec l.W v)) = l.eval x := by
        apply vec_ext (by simp [hey])
        intro i hi
        rw [getD_vadd _ _ _ (by simp [hey]), Model.getD_vsmul]
        ring
      have hact : ∀ t, 0 ≤ t → t ≤ T1 → (l.eval (vadd x (vsmul t v))).map a.f
          = vadd ((l.eval x).map a.f) (vsmul t (List.zipWith (fun b c => a.gain b * c) p (matVec l.W v))) := by
        intro t h0 h1
        rw [hev]
        exact act_ray a p _ _ t (by simp [hey]) lp (by have := f1 0 le_rfl hT1.le; rwa [hz] at this) (f1 t h0 h1)
      obtain ⟨ps, T2, hT2, l2, f2, g2⟩ := ih l.W.length ((l.eval x).map a.f)
        (List.zipWith (fun b c => a.gain b * c) p (matVec l.W v)) pref hrest (by simp [hey])
        (by simp [lp, hey]) hp.2
      refine ⟨p :: ps, min T1 T2, lt_min hT1 hT2, by simp [lp, hey, l2], fun t h0 h1 => ?_, fun i hi hne => ?_⟩
      · have t1 := h1.trans (min_le_left _ _)
        have t2 := h1.trans (min_le_right _ _)
        obtain ⟨r1, r2⟩ := f2 t h0 t2
        refine ⟨?_, ?_⟩
        · refine List.Forall₂.cons ?_ ?_
          · rw [hev]; exact f1 t h0 t1
          · rw [hact t h0 t1]; exact r1
        · rw [hiddenOut, hact t h0 t1, r2]
          rfl
      · by_cases hip : i < p.length
        · have e1 : (p :: ps).flatten.getD i false = p.getD i false := by
            rw [List.flatten_cons, getD_app_left _ _ _ hip]
          have e2 : (pr :: pref).flatten.getD i false = pr.getD i false := by
            rw [List.flatten_cons, getD_app_left _ _ _ (by omega)]
          rw [e1, e2] at hne
          rw [e1]
          intro T hT
          obtain ⟨t, a0, a1, a2⟩ := g1 i hip hne T hT
          refine ⟨t, a0, a1, ?_⟩
          simp only [preacts]
          rw [List.flatten_cons, getD_app_left _ _ _ (by rw [hev]; simp [hey]; omega), hev]
          exact a2
        · obtain ⟨j, rfl⟩ : ∃ j, i = p.length + j := ⟨i - p.length, by omega⟩
          have hj : j < ps.flatten.length := by simpa using hi
          have e1 : (p :: ps).flatten.getD (p.length + j) false = ps.flatten.getD j false := by
            rw [List.flatten_cons, getD_app_right _ _ _ rfl]
          have e2 : (pr :: pref).flatten.getD (p.length + j) false = pref.flatten.getD j false := by
            rw [List.flatten_cons, getD_app_right _ _ _ (by omega)]
          rw [e1, e2] at hne
          rw [e1]
          intro T hT
          obtain ⟨t, a0, a1, a2⟩ := g2 j hj hne (min T T1) (lt_min hT hT1)
          refine ⟨t, a0, a1.trans (min_le_left _ _), ?_⟩
          simp only [preacts]
          rw [List.flatten_cons, getD_app_right _ _ _ (by rw [hev]; simp [hey]; omega),
            hact t a0 (a1.trans (min_le_right _ _))]
          exact a2

theorem signSum_abs (σ : List Bool) (y : Vec K) (h : List.Forall₂ SignOk σ y) :
    (y.map fun a => |a|).sum = signSum σ y := by
  induction h with
  | nil => simp [signSum]
  | @cons b c σ y hb _ ih =>
    simp only [signSum, List.zipWith_cons_cons, List.sum_cons, List.map_cons] at ih ⊢
    rw [ih]
    congr 1
    cases b
    · simp [abs_of_nonpos (hb.2 rfl)]
    · simp [abs_of_nonneg (hb.1 rfl)]

theorem signSum_ray (σ : List Bool) (y s : Vec K) (t : K) (h : y.length = s.length) :
    signSum σ (vadd y (vsmul t s)) = signSum σ y + t * signSum σ s := by
  induction σ generalizing y s with
  | nil => simp [signSum]
  | cons b σ ih => cases y with
    | nil => cases s with
      | nil => simp [signSum, vadd]
      | cons _ _ => simp at h
    | cons c y => cases s with
      | nil => simp at h
      | cons d s =>
        have e : vadd (c :: y) (vsmul t (d :: s)) = (c + t * d) :: vadd y (vsmul t s) := by simp [vadd, vsmul]
        have := ih y s (by simpa using h)
        simp only [signSum] at this
        rw [e]
        simp only [signSum, List.zipWith_cons_cons, List.sum_cons, this]
        cases b <;> simp <;> ring

theorem errs_ray (R : Mat K) (x v xe : Vec K) (t : K) (hx : x.length = v.length) (he : xe.length = v.length) :
    matVec R (vsub (vadd x (vsmul t v)) xe) = vadd (matVec R (vsub x xe)) (vsmul t (matVec R v)) := by
  apply vec_ext (by simp)
  intro i hi
  rw [getD_vadd _ _ _ (by simp), Model.getD_vsmul, getD_matVec, getD_matVec, getD_matVec,
    dot_vsub_right _ _ _ (by simp [hx, he]), dot_vsub_right _ _ _ (by simp [hx, he]),
    dot_vadd_right _ _ _ (by simp [hx]), dot_vsmul_right]
  ring

theorem length_dirHid {n m : ℕ} {hs : List (Lin K × Act K)} (h : HidOk n hs m) (pat : List (List Bool))
    (hp : pat.map List.length = (hs.map fun p => p.1.W.length)) (v : Vec K) (hv : v.length = n) :
    (dirHid hs pat v).length = m := by
  induction hs generalizing n pat v with
  | nil =>
    obtain rfl : n = m := h
    cases pat <;> simpa [dirHid] using hv
  | cons q hs ih =>
    obtain ⟨l, a⟩ := q
    obtain ⟨rfl, hl, hrest⟩ := h
    cases pat with
    | nil => simp at hp
    | cons p ps =>
      simp only [List.map_cons, List.cons.injEq] at hp
      exact ih hrest ps hp.2 _ (by simp [hp.1])

/-- `V` along a ray. -/
theorem lyapV_ray (net : Net K) (n : ℕ) (hok : net.Ok n) (hout : net.last.W.length = 1) (R : Mat K) (lam : K)
    (xe x v : Vec K)
    (he : xe.length = n) (hx : x.length = n) (hv : v.length = n) (pref : List (List Bool)) (prefσ : List Bool)
    (hp : pref.map List.length = (net.hidden.map fun p => p.1.W.length)) (hq : prefσ.length = R.length) :
    ∃ (pat : List (List Bool)) (σ : List Bool), PieceAt net R xe x pat σ ∧
      (∃ T, 0 < T ∧ ∀ t, 0 ≤ t → t ≤ T → lyapV net R lam xe (vadd x (vsmul t v))
        = lyapV net R lam xe x + t * pieceRate net R lam pat σ v) ∧
      (∀ i, i < pat.flatten.length → pat.flatten.getD i false ≠ pref.flatten.getD i false →
        Strict (pat.flatten.getD i false) fun t => (preacts net.hidden (vadd x (vsmul t v))).flatten.getD i 0) ∧
      ∀ i, i < R.length → σ.getD i false ≠ prefσ.getD i false →
        Strict (σ.getD i false) fun t => (matVec R (vsub (vadd x (vsmul t v)) xe)).getD i 0 := by
  obtain ⟨pat, T1, hT1, lp, f1, g1⟩ := ray_hid net.hidden n x v pref hok.1 hx hv hp
  obtain ⟨σ, T2, hT2, lσ, f2, g2⟩ := ray_vec (matVec R (vsub x xe)) (matVec R v) prefσ (by simp) (by simp [hq])
  have er : ∀ t, matVec R (vsub (vadd x (vsmul t v)) xe) = vadd (matVec R (vsub x xe)) (vsmul t (matVec R v)) :=
    fun t => errs_ray R x v xe t (by omega) (by omega)
  have e0 : ∀ y w : Vec K, y.length = w.length → vadd y (vsmul 0 w) = y := by
    intro y w h
    apply vec_ext (by simp [h])
    intro i hi
    rw [getD_vadd _ _ _ (by simp [h]), Model.getD_vsmul]
    ring
  have h0 := f1 0 le_rfl hT1.le
  have h2 := f2 0 le_rfl hT2.le
  rw [e0 _ _ (by omega)] at h0
  rw [e0 _ _ (by simp)] at h2
  refine ⟨pat, σ, ⟨h0.1, h2⟩, ⟨min T1 T2, lt_min hT1 hT2, fun t a0 a1 => ?_⟩, g1, fun i hi hne => ?_⟩
  · obtain ⟨-, r2⟩ := f1 t a0 (a1.trans (min_le_left _ _))
    have s2 := f2 t a0 (a1.trans (min_le_right _ _))
    have hlen : (hiddenOut net.hidden x).length = (dirHid net.hidden pat v).length := by
      rw [length_hiddenOut hok.1 x hx, length_dirHid hok.1 pat lp v hv]
    have ev : (net.eval (vadd x (vsmul t v))).getD 0 0
        = (net.eval x).getD 0 0 + t * (net.dir pat v).getD 0 0 := by
      rw [Net.eval, r2, eval_ray _ _ _ _ hlen hok.2.2, getD_vadd _ _ _ (by simp [Lin.eval, hok.2.2]),
        Model.getD_vsmul]
      rfl
    simp only [lyapV, err, norm1, Net.val, pieceRate]
    rw [ev, er, signSum_abs σ _ s2, signSum_ray σ _ _ t (by simp), signSum_abs σ _ h2]
    ring
  · have := g2 i (by rw [lσ]; simpa using hi) hne
    simpa only [er] using this

end NNL.Model
