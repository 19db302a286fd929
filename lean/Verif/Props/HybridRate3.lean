import Verif.Props.HybridRate2
import Verif.Props.Losses
import Verif.Props.Barrier

/-!
# C74, C75: values at a state, losses at samples, examples
-/

set_option linter.unusedSectionVars false

namespace NNL.Props

open NNL NNL.Spec NNL.Model

variable {K : Type*} [Field K] [LinearOrder K] [IsStrictOrderedRing K]

/-- C74: where only one piece is active, the objective of a feasible point is the slope of `V` along the
velocity plus `ε V`: a positive objective is a violation. -/
theorem C74_violation {lp : LpSolver K} (L : Lyap K) (hL : L.NetOk) {S : AutoHybrid K} (hS : HybOk lp L S)
    (hslope : ∀ q ∈ L.net.hidden, ∀ c, q.2 = .leaky c → 0 ≤ c) {R : Option (Tensor2 K)} (hR : isIdR L.dim R)
    {xe : Vec K} (hxe : InBox L.xLo L.xUp xe) {lam eps : K} {lower upper : Option K} {D : HRateRet K}
    (hD : L.hybridRate S xe lam eps .expLower R lower upper = some D) {v : ℕ → K} (hv : D.m.Feas v)
    (huniq : ∀ pat σ pat' σ', PieceAt L.net (eye L.dim) xe (D.x.map v) pat σ →
      PieceAt L.net (eye L.dim) xe (D.x.map v) pat' σ' → pat = pat' ∧ σ = σ') :
    AStep S.modes (D.x.map v) (D.xdot.map v) ∧
      HasSlope (lyapV L.net (eye L.dim) lam xe) (D.x.map v) (D.xdot.map v)
        (D.m.objVal v - eps * lyapV L.net (eye L.dim) lam xe (D.x.map v)) := by
  obtain ⟨D', rr, er, h1, -, -, l1, l2, -, hs, -⟩ := C74_program L hL hS hslope hR hxe lam eps lower upper
  obtain rfl : D' = D := Option.some.inj (h1.symm.trans hD)
  obtain ⟨-, a2, -, pat, σ, hp, ho⟩ := hs v hv
  refine ⟨a2, ?_⟩
  obtain ⟨pat', σ', hp', hsl, -, -⟩ := lyapV_ray L.net L.dim hL.net hL.out (eye L.dim) lam xe (D'.x.map v)
    (D'.xdot.map v) (hxe.1.trans rfl) (by simp [l1]) (by simp [l2]) pat σ (realises_shape hL.net.1 hp.1)
    (by simpa [matVec] using hp.2.length_eq)
  obtain ⟨rfl, rfl⟩ := huniq _ _ _ _ hp hp'
  rw [ho, add_sub_cancel_right]
  exact hsl

/-! ### C75 -/

theorem signQueue_mem : ∀ (x xe : Vec K) (q : List (Vec K)) (g : Vec K), x.length = xe.length →
    (g ∈ signQueue x xe q ↔ ∃ l ∈ q, ∃ σ, List.Forall₂ SignOk σ (vsub x xe) ∧ g = l ++ signRow σ)
  | [], [], q, g, _ => by
    simp only [signQueue, vsub, List.zipWith_nil_left, List.forall₂_nil_right_iff]
    simp [signRow]
  | a :: x, b :: xe, q, g, h => by
    rw [signQueue, signQueue_mem x xe _ g (by simpa using h)]
    simp only [List.mem_flatMap, vsub, List.zipWith_cons_cons, List.forall₂_cons_right_iff]
    constructor
    · rintro ⟨l, ⟨l0, hl0, hl⟩, σ, hσ, rfl⟩
      split_ifs at hl with h1 h2
      · obtain rfl := List.mem_singleton.1 hl
        exact ⟨l0, hl0, true :: σ, ⟨true, σ, ⟨fun _ => (sub_pos.2 h1).le, by simp⟩, hσ, rfl⟩, by simp [signRow]⟩
      · obtain rfl := List.mem_singleton.1 hl
        exact ⟨l0, hl0, false :: σ, ⟨false, σ, ⟨by simp, fun _ => (sub_neg.2 h2).le⟩, hσ, rfl⟩, by simp [signRow]⟩
      · have e : a = b := le_antisymm (not_lt.1 h1) (not_lt.1 h2)
        subst e
        simp only [List.mem_cons, List.not_mem_nil, or_false] at hl
        rcases hl with rfl | rfl
        · exact ⟨l0, hl0, true :: σ, ⟨true, σ, ⟨fun _ => by simp, by simp⟩, hσ, rfl⟩, by simp [signRow]⟩
        · exact ⟨l0, hl0, false :: σ, ⟨false, σ, ⟨by simp, fun _ => by simp⟩, hσ, rfl⟩, by simp [signRow]⟩
    · rintro ⟨l0, hl0, _, ⟨s, σ, hs, hσ, rfl⟩, rfl⟩
      refine ⟨l0 ++ [if s then 1 else -1], ⟨l0, hl0, ?_⟩, σ, hσ, by simp [signRow]⟩
      split_ifs with h1 h2 h3 h4
      all_goals try simp
      · have := hs.2 (by simpa using h2)
        linarith [sub_pos.2 h1]
      · have := hs.1 h4
        linarith [sub_neg.2 h3]
  | [], _ :: _, _, _, h => by simp at h
  | _ :: _, [], _, _, h => by simp at h

theorem pat_piece {L : Lyap K} (hok : L.net.Ok L.dim) (hout : L.net.last.W.length = 1) {x : Vec K}
    {pat : List (List Bool)} (hp : Realises L.net.hidden x pat) :
    ∃ p, reluGivenPattern L.net L.dim pat = some p ∧ (p.gT.getD 0 []).length = L.dim ∧
      ∀ d : Vec K, d.length = L.dim → dot (p.gT.getD 0 []) d = (L.net.dir pat d).getD 0 0 := by
  have hfit := patFits_of_realises (hidOk_all _ _ hok.1) hp
  obtain ⟨p, hp'⟩ := Option.isSome_iff_exists.1 ((C17_accepts L.net L.dim pat).2 (by
    rw [List.take_of_length_le (le_of_eq hfit.length_eq)]; exact hfit))
  obtain ⟨c1, c2, c3⟩ := C17_jacobian hp' hok
  have h0 : 0 < p.gT.length := by omega
  have e : p.gT.getD 0 [] = p.gT[0] := by simp [List.getD, h0]
  exact ⟨p, hp', by rw [e]; exact c1 _ (List.getElem_mem h0), fun d hd => by rw [← c3 d hd, getD_matVec]⟩

theorem getR_isId {n : ℕ} {R : Option (Tensor2 K)} (h : isIdR n R) : getR R n = some (eye n) := by
  cases R with
  | none => rfl
  | some R => simp [getR, h.1, h.2]

theorem step_length {lp : LpSolver K} (ht : lp.Truthful) {n : ℕ} {S : AutoHybrid K} (hb : ABuilt lp n S)
    {x xn : Vec K} (h : AStep S.modes x xn) : xn.length = n := by
  have R := C44_auto_recorded ht hb
  obtain ⟨md, hmd, -, rfl⟩ := h
  have h1 : md.A.length = n := (R.ok md hmd).rowsA
  have h2 : md.g.length = n := (R.ok md hmd).c
  simp [h1, h2]

/-- C75: with at least two states, `lyapunov_derivative` returns exactly the values `V̇ + ε V` of the pieces active
at the state along the velocities possible there. -/
theorem C75_rates {lp : LpSolver K} (ht : lp.Truthful) (L : Lyap K) (hok : L.net.Ok L.dim)
    (hout : L.net.last.W.length = 1) {S : AutoHybrid K} (hb : ABuilt lp L.dim S) (hd : L.dim ≠ 1)
    {R : Option (Tensor2 K)} (hR : isIdR L.dim R) {x xe : Vec K} (hx : x.length = L.dim) (hxe : xe.length = L.dim)
    (lam eps : K) :
    ∃ l, L.hybridRates S x xe lam eps R = some l ∧
      ∀ r, r ∈ l ↔ ∃ xd pat σ, AStep S.modes x xd ∧ PieceAt L.net (eye L.dim) xe x pat σ ∧
        r = pieceRate L.net (eye L.dim) lam pat σ xd + eps * lyapV L.net (eye L.dim) lam xe x := by
  have RR := C44_auto_recorded ht hb
  obtain ⟨xds, h1, h2⟩ := C43_auto_possible S x (by rw [RR.xdim, hx])
  have hv := C31_value L R (eye L.dim) (getR_isId hR) lam x xe
  set f : List (List Bool) → Option (Vec K) := fun pat =>
    (reluGivenPattern L.net L.dim pat).map fun p => p.gT.getD 0 [] with hf
  obtain ⟨ds, hds⟩ : ∃ ds, (allPatterns L.net.hidden x).mapM f = some ds := by
    have : ∀ l : List (List (List Bool)), (∀ p ∈ l, Realises L.net.hidden x p) → ∃ ds, l.mapM f = some ds := by
      intro l
      induction l with
      | nil => intro _; exact ⟨[], by simp⟩
      | cons p l ih =>
        intro h
        obtain ⟨ds, e⟩ := ih fun q hq => h q (by simp [hq])
        obtain ⟨q, hq, -⟩ := pat_piece hok hout (h p (by simp))
        have efp : f p = some (q.gT.getD 0 []) := by simp [hf, hq]
        exact ⟨q.gT.getD 0 [] :: ds, by simp only [List.mapM_cons, efp, e]; rfl⟩
    exact this _ fun p hp => (C18_mem _ _ _).1 hp
  have hmem : ∀ D, D ∈ ds ↔ ∃ pat, Realises L.net.hidden x pat ∧ f pat = some D := by
    have : ∀ (l : List (List (List Bool))) ds, l.mapM f = some ds → ∀ D, D ∈ ds ↔ ∃ p ∈ l, f p = some D := by
      intro l
      induction l with
      | nil => intro ds h D; simp at h; subst h; simp
      | cons p l ih =>
        intro ds h D
        simp only [List.mapM_cons, Option.bind_eq_bind, Option.bind_eq_some_iff, Option.pure_def, Option.some.injEq] at h
        obtain ⟨a, ha, ds', hds', rfl⟩ := h
        rw [List.mem_cons, ih ds' hds' D]
        constructor
        · rintro (rfl | ⟨q, hq, e⟩)
          · exact ⟨p, by simp, ha⟩
          · exact ⟨q, by simp [hq], e⟩
        · rintro ⟨q, hq, e⟩
          rcases List.mem_cons.1 hq with rfl | hq
          · exact .inl (Option.some.inj (e.symm.trans ha))
          · exact .inr ⟨q, hq, e⟩
    intro D
    rw [this _ _ hds D]
    simp only [C18_mem]
  have me : matVec (eye L.dim) (vsub x xe) = vsub x xe := matVec_eye _ _ (by simp [hx, hxe])
  have hpr : ∀ pat D σ d, f pat = some D → Realises L.net.hidden x pat → List.Forall₂ SignOk σ (vsub x xe) →
      d.length = L.dim →
      dot (vadd D (vsmul lam (signRow σ))) d = pieceRate L.net (eye L.dim) lam pat σ d := by
    intro pat D σ d hD hr hσ hdl
    obtain ⟨p, hp, hl, hdot⟩ := pat_piece hok hout hr
    obtain rfl : p.gT.getD 0 [] = D := by simpa [hf, hp] using hD
    have lσ : σ.length = L.dim := by
      have := hσ.length_eq
      simpa [hx, hxe] using this
    rw [dot_vadd_left _ _ _ (by rw [hl, length_vsmul]; simp [signRow, lσ]), dot_vsmul_left, dot_signRow, hdot d hdl, pieceRate,
      matVec_eye _ _ hdl]
  refine ⟨_, by
    simp only [Lyap.hybridRates, hx, hxe, hR, and_self, if_true, hv, h1, ← hf, hds, Option.bind_eq_bind,
      Option.bind_some, hd, false_and, if_false]
    rfl, fun r => ?_⟩
  simp only [List.mem_map, List.mem_flatMap]
  constructor
  · rintro ⟨_, ⟨_, ⟨D, hD, g, hg, rfl⟩, d, hdm, rfl⟩, rfl⟩
    obtain ⟨pat, hr, hfp⟩ := (hmem D).1 hD
    obtain ⟨l0, hl0, σ, hσ, rfl⟩ := (signQueue_mem x xe _ _ (by rw [hx, hxe])).1 hg
    obtain rfl := List.mem_singleton.1 hl0
    have hst := (h2 d).1 hdm
    refine ⟨d, pat, σ, hst, ⟨hr, by rw [me]; exact hσ⟩, ?_⟩
    rw [List.nil_append, hpr pat D σ d hfp hr hσ (step_length ht hb hst)]
  · rintro ⟨d, pat, σ, hst, ⟨hr, hσ⟩, rfl⟩
    rw [me] at hσ
    obtain ⟨p, hp, -, -⟩ := pat_piece hok hout hr
    have hfp : f pat = some (p.gT.getD 0 []) := by simp [hf, hp]
    refine ⟨_, ⟨_, ⟨_, (hmem _).2 ⟨pat, hr, hfp⟩, signRow σ, ?_, rfl⟩, d, (h2 d).2 hst, rfl⟩, ?_⟩
    · exact (signQueue_mem x xe _ _ (by rw [hx, hxe])).2 ⟨[], by simp, σ, hσ, rfl⟩
    · rw [hpr pat _ σ d hfp hr hσ (step_length ht hb hst)]

/-- C75: with one state the call raises at every state of every mode. -/
theorem C75_one_state_raises {lp : LpSolver K} (ht : lp.Truthful) (L : Lyap K) {S : AutoHybrid K}
    (hb : ABuilt lp L.dim S) (hd : L.dim = 1) (R : Option (Tensor2 K)) {x xd : Vec K} (xe : Vec K)
    (hx : x.length = L.dim) (h : AStep S.modes x xd) (lam eps : K) : L.hybridRates S x xe lam eps R = none := by
  have RR := C44_auto_recorded ht hb
  obtain ⟨xds, h1, h2⟩ := C43_auto_possible S x (by rw [RR.xdim, hx])
  have hne : xds ≠ [] := List.ne_nil_of_mem ((h2 xd).2 h)
  rw [Option.eq_none_iff_forall_ne_some]
  intro l hl
  unfold Lyap.hybridRates at hl
  split at hl
  · simp only [h1, Option.bind_eq_bind, Option.bind_eq_some_iff] at hl
    obtain ⟨v, -, xds', hxds, ds, -, hl⟩ := hl
    obtain rfl := Option.some.inj hxds
    rw [if_pos ⟨hd, hne⟩] at hl
    cases hl
  · cases hl

/-! ### The loss at samples -/

theorem realises_strictPattern (hs : List (Lin K × Act K)) (x : Vec K) :
    Realises hs x (strictPattern hs x) := by
  induction hs generalizing x with
  | nil => exact List.Forall₂.nil
  | cons lp hs ih =>
    obtain ⟨l, a⟩ := lp
    refine List.Forall₂.cons ?_ (ih _)
    rw [List.forall₂_map_left_iff, List.forall₂_same]
    intro y _
    by_cases h : 0 < y
    · simp [SignOk, h, h.le]
    · simp [SignOk, h, not_lt.1 h]

/-- The signs of `torch.sign` are the mean of the signs of two pieces; they are the signs of one piece where no
entry is zero. -/
theorem sgn_split : ∀ (y : Vec K), ∃ σ σ', List.Forall₂ SignOk σ y ∧ List.Forall₂ SignOk σ' y ∧
    (∀ d, dot (y.map torchSign) d = (signSum σ d + signSum σ' d) / 2) ∧ ((∀ a ∈ y, a ≠ 0) → σ = σ')
  | [] => ⟨[], [], .nil, .nil, by simp [signSum], by simp⟩
  | a :: y => by
    obtain ⟨σ, σ', h1, h2, h3, h4⟩ := sgn_split y
    have hy : ∀ a ∈ y, a ∈ a :: y := fun _ h => List.mem_cons_of_mem _ h
    rcases lt_trichotomy a 0 with ha | ha | ha
    · refine ⟨false :: σ, false :: σ', .cons ⟨by simp, fun _ => ha.le⟩ h1, .cons ⟨by simp, fun _ => ha.le⟩ h2,
        fun d => ?_, fun h => by rw [h4 fun b hb => h b (by simp [hb])]⟩
      cases d with
      | nil => simp [signSum]
      | cons c d =>
        have := h3 d
        simp only [signSum, List.map_cons, List.zipWith_cons_cons, List.sum_cons, dot_cons] at this ⊢
        rw [this, torchSign, if_neg (not_lt.2 ha.le), if_pos ha]
        simp
        ring
    · refine ⟨true :: σ, false :: σ', .cons ⟨fun _ => ha.ge, by simp⟩ h1, .cons ⟨by simp, fun _ => ha.le⟩ h2,
        fun d => ?_, fun h => absurd ha (h a (by simp))⟩
      cases d with
      | nil => simp [signSum]
      | cons c d =>
        have := h3 d
        simp only [signSum, List.map_cons, List.zipWith_cons_cons, List.sum_cons, dot_cons] at this ⊢
        rw [this, torchSign, if_neg (not_lt.2 ha.le), if_neg (not_lt.2 ha.ge)]
        simp
        ring
    · refine ⟨true :: σ, true :: σ', .cons ⟨fun _ => ha.le, by simp⟩ h1, .cons ⟨fun _ => ha.le, by simp⟩ h2,
        fun d => ?_, fun h => by rw [h4 fun b hb => h b (by simp [hb])]⟩
      cases d with
      | nil => simp [signSum]
      | cons c d =>
        have := h3 d
        simp only [signSum, List.map_cons, List.zipWith_cons_cons, List.sum_cons, dot_cons] at this ⊢
        rw [this, torchSign, if_pos ha]
        simp
        ring

/-- The units at their kink count as inactive, as the derivative of `torch.relu` at zero is zero. -/
theorem strictPattern_zero (hs : List (Lin K × Act K)) (x : Vec K) :
    List.Forall₂ (List.Forall₂ fun (b : Bool) (y : K) => b = true ↔ 0 < y) (strictPattern hs x) (preacts hs x) := by
  induction hs generalizing x with
  | nil => exact List.Forall₂.nil
  | cons lp hs ih =>
    obtain ⟨l, a⟩ := lp
    refine List.Forall₂.cons ?_ (ih _)
    rw [List.forall₂_map_left_iff, List.forall₂_same]
    intro y _
    simp

/-- C75: the derivative used in the loss is the mean of the derivatives of two active pieces, in which exactly the
units with a positive input are active; it is the derivative of one active piece where no coordinate is that of the
equilibrium. -/
theorem C75_vdot (L : Lyap K) (hok : L.net.Ok L.dim) (hout : L.net.last.W.length = 1) {x xd xe : Vec K}
    (hx : x.length = L.dim) (hxd : xd.length = L.dim) (hxe : xe.length = L.dim) (lam : K) :
    ∃ vd pat σ σ', L.sampleVdot x xd xe lam = some vd ∧
      List.Forall₂ (List.Forall₂ fun (b : Bool) (y : K) => b = true ↔ 0 < y) pat (preacts L.net.hidden x) ∧
      PieceAt L.net (eye L.dim) xe x pat σ ∧ PieceAt L.net (eye L.dim) xe x pat σ' ∧
      vd = (pieceRate L.net (eye L.dim) lam pat σ xd + pieceRate L.net (eye L.dim) lam pat σ' xd) / 2 ∧
      ((∀ i, i < L.dim → x.getD i 0 ≠ xe.getD i 0) → vd = pieceRate L.net (eye L.dim) lam pat σ xd) := by
  have hr := realises_strictPattern L.net.hidden x
  obtain ⟨p, hp, hl, hdot⟩ := pat_piece hok hout hr
  obtain ⟨σ, σ', h1, h2, h3, h4⟩ := sgn_split (vsub x xe)
  have me : matVec (eye L.dim) (vsub x xe) = vsub x xe := matVec_eye _ _ (by simp [hx, hxe])
  have key : dot (vadd (p.gT.getD 0 []) (vsmul lam ((vsub x xe).map torchSign))) xd
      = (pieceRate L.net (eye L.dim) lam (strictPattern L.net.hidden x) σ xd
        + pieceRate L.net (eye L.dim) lam (strictPattern L.net.hidden x) σ' xd) / 2 := by
    rw [dot_vadd_left _ _ _ (by rw [hl, length_vsmul]; simp [hx, hxe]), dot_vsmul_left, h3, hdot xd hxd, pieceRate, pieceRate,
      matVec_eye _ _ hxd]
    ring
  refine ⟨_, strictPattern L.net.hidden x, σ, σ', by simp [Lyap.sampleVdot, hp], strictPattern_zero _ _,
    ⟨hr, by rw [me]; exact h1⟩,
    ⟨hr, by rw [me]; exact h2⟩, key, fun hne => ?_⟩
  have : σ = σ' := h4 fun a ha => by
    obtain ⟨i, hi, rfl⟩ := List.getElem_of_mem ha
    have hi' : i < L.dim := by simpa [hx, hxe] using hi
    have := hne i hi'
    have e1 : x.getD i 0 = x[i] := by simp [List.getD, hx, hi']
    have e2 : xe.getD i 0 = xe[i] := by simp [List.getD, hxe, hi']
    rw [e1, e2] at this
    simpa [vsub, sub_eq_zero] using this
  rw [key, ← this]
  ring

theorem rateLoss_zero (L : Lyap K) (hok : L.net.Ok L.dim) (hout : L.net.last.W.length = 1) {R : Option (Tensor2 K)}
    (hR : isIdR L.dim R) {xs xds : List (Vec K)} {xe : Vec K} (hxe : xe.length = L.dim) (hne : xs ≠ [])
    (hl : xs.length = xds.length) (hx : ∀ x ∈ xs, x.length = L.dim) (hxd : ∀ x ∈ xds, x.length = L.dim)
    (lam eps margin : K) (et : EpsType) :
    ∃ r, L.rateLoss xs xds xe lam eps et R margin = some r ∧ 0 ≤ r ∧
      (r = 0 ↔ ∀ t ∈ xs.zip xds, ∀ vd, L.sampleVdot t.1 t.2 xe lam = some vd →
        rateVal et eps vd (lyapV L.net (eye L.dim) lam xe t.1) (err (eye L.dim) xe t.1) ≤ -margin) := by
  have hz : ∀ t ∈ xs.zip xds, t.1.length = L.dim ∧ t.2.length = L.dim := fun t ht =>
    ⟨hx _ (List.of_mem_zip ht).1, hxd _ (List.of_mem_zip ht).2⟩
  have key : ∀ l : List (Vec K × Vec K), (∀ t ∈ l, t.1.length = L.dim ∧ t.2.length = L.dim) →
      ∃ h, l.mapM (L.sampleHinge xe lam eps et R margin) = some h ∧ h.length = l.length ∧ (∀ a ∈ h, 0 ≤ a) ∧
        ((∀ a ∈ h, a = 0) ↔ ∀ t ∈ l, ∀ vd, L.sampleVdot t.1 t.2 xe lam = some vd →
          rateVal et eps vd (lyapV L.net (eye L.dim) lam xe t.1) (err (eye L.dim) xe t.1) ≤ -margin) := by
    intro l
    induction l with
    | nil => intro _; exact ⟨[], by simp, rfl, by simp, by simp⟩
    | cons t l ih =>
      intro ht
      obtain ⟨h, h1, h2, h3, h4⟩ := ih fun u hu => ht u (by simp [hu])
      obtain ⟨q1, q2⟩ := ht t (by simp)
      obtain ⟨vd, -, -, -, hvd, -⟩ := C75_vdot L hok hout q1 q2 hxe lam
      have hv := C31_value L R (eye L.dim) (getR_isId hR) lam t.1 xe
      have e : L.sampleHinge xe lam eps et R margin t
          = some (hinge margin (-rateVal et eps vd (lyapV L.net (eye L.dim) lam xe t.1) (err (eye L.dim) xe t.1))) := by
        simp only [Lyap.sampleHinge, hvd, hv, Option.bind_eq_bind, Option.bind_some]
        rfl
      refine ⟨_ :: h, by simp only [List.mapM_cons, e, h1]; rfl, by simp [h2], ?_, ?_⟩
      · intro a ha
        rcases List.mem_cons.1 ha with rfl | ha
        · exact hinge_nonneg _ _
        · exact h3 a ha
      · rw [List.forall_mem_cons, List.forall_mem_cons, h4, hinge_zero_iff]
        refine and_congr ?_ Iff.rfl
        simp only [hvd, Option.some.injEq, forall_eq']
        exact le_neg
  obtain ⟨h, h1, h2, h3, h4⟩ := key _ hz
  have hh : h ≠ [] := by
    intro e
    rw [e, List.length_nil, List.length_zip, hl, min_self] at h2
    exact hne (List.length_eq_zero_iff.1 (hl.trans h2.symm))
  refine ⟨vmean h, by rw [Lyap.rateLoss, if_pos ⟨hne, hl, hx, hxd, hR⟩, h1]; rfl, vmean_nonneg h3, ?_⟩
  rw [vmean_zero_iff hh h3, h4]

/-- C75: the loss accepts every nonempty batch; it is nonnegative, and zero exactly if at every sample the
derivative meets the condition with the margin: `V̇ ≤ -ε V - margin`, `V̇ ≥ -ε V + margin` or
`V̇ ≤ -ε |x - x*|₁ - margin`. -/
theorem C75_loss (L : Lyap K) (hok : L.net.Ok L.dim) (hout : L.net.last.W.length = 1) {R : Option (Tensor2 K)}
    (hR : isIdR L.dim R) {xs xds : List (Vec K)} {xe : Vec K} (hxe : xe.length = L.dim) (hne : xs ≠ [])
    (hl : xs.length = xds.length) (hx : ∀ x ∈ xs, x.length = L.dim) (hxd : ∀ x ∈ xds, x.length = L.dim)
    (lam eps margin : K) (et : EpsType) :
    ∃ r, L.rateLoss xs xds xe lam eps et R margin = some r ∧ 0 ≤ r ∧
      (r = 0 ↔ ∀ t ∈ xs.zip xds, ∀ vd, L.sampleVdot t.1 t.2 xe lam = some vd →
        match et with
        | .expLower => vd ≤ -eps * lyapV L.net (eye L.dim) lam xe t.1 - margin
        | .expUpper => -eps * lyapV L.net (eye L.dim) lam xe t.1 + margin ≤ vd
        | .asymp => vd ≤ -eps * err (eye L.dim) xe t.1 - margin) := by
  obtain ⟨r, h1, h2, h3⟩ := rateLoss_zero L hok hout hR hxe hne hl hx hxd lam eps margin et
  refine ⟨r, h1, h2, h3.trans (forall₂_congr fun t _ => forall₂_congr fun vd _ => ?_)⟩
  cases et <;> simp only [rateVal] <;> constructor <;> intro h <;> linarith

/-- C75: a sample which is in no mode makes the loss raise. -/
theorem C75_loss_raises (L : Lyap K) {S : AutoHybrid K}
    {xs : List (Vec K)} {x : Vec K} (hx : x ∈ xs) (hn : ∀ md ∈ S.modes, ¬ InPoly md.P md.q x)
    (xe : Vec K) (lam eps margin : K) (et : EpsType) (R : Option (Tensor2 K)) :
    L.rateLossAt S xs xe lam eps et R margin = none := by
  have hstep : S.stepForward x = none := by
    rw [C43_auto_step]
    by_cases hl : x.length = S.xdim
    · obtain ⟨l, h1, h2⟩ := C43_auto_possible S x hl
      have : l = [] := by
        rw [List.eq_nil_iff_forall_not_mem]
        intro a ha
        obtain ⟨md, hmd, hP, -⟩ := (h2 a).1 ha
        exact hn md hmd hP
      simp [h1, this]
    · simp [AutoHybrid.possibleDx, hl]
  have : (xs.mapM fun x => S.stepForward x) = none := by
    induction xs with
    | nil => cases hx
    | cons y xs ih =>
      rw [List.mapM_cons]
      rcases List.mem_cons.1 hx with rfl | hx
      · simp [hstep]
      · cases hy : S.stepForward y with
        | none => simp
        | some y' => simp [ih hx]
  simp [Lyap.rateLossAt, this]

/-! ### Examples -/

/-- `φ(x) = -relu(x) + relu(-x)/2`. -/
def exRate : Lyap ℚ :=
  { xLo := [-1], xUp := [1]
    net := { hidden := [(⟨1, [[1], [-1]], none⟩, .relu)], last := ⟨2, [[-1, 1 / 2]], none⟩ } }

theorem exRate_net : exRate.NetOk := by
  refine Lyap.netOk_ia rfl rfl ?_ ?_ rfl (by decide)
  · intro i hi
    have : i < 1 := hi
    interval_cases i
    norm_num [exRate]
  · simp [exRate, Net.Ok, HidOk, Lin.Ok, HasCols, Lin.b, Lyap.dim]

/-- The system with two modes of C42 and this network. -/
theorem exAuto_hyb : HybOk exactLp exRate exAuto :=
  ⟨exactLp_truthful, exAuto_built, by decide, by decide, exAuto_mic⟩

theorem exAuto_nonempty : ∀ md ∈ exAuto.modes, ∃ w : Vec ℚ, w.length = exRate.dim ∧ InPoly md.P md.q w := by
  intro md hmd
  simp only [exAuto, List.mem_cons, List.not_mem_nil, or_false] at hmd
  rcases hmd with rfl | rfl
  · exact ⟨[0], rfl, by rw [← polyHas_iff]; decide +kernel⟩
  · exact ⟨[0], rfl, by rw [← polyHas_iff]; decide +kernel⟩

theorem exRate_piece {pat : List (List Bool)} {σ : List Bool} {x v : Vec ℚ} (hp : PieceAt exRate.net (eye 1) [0] x pat σ)
    (hv : ∃ a, v = [a] ∧ 0 ≤ a) : pieceRate exRate.net (eye 1) 0 pat σ v ≤ 0 := by
  obtain ⟨a, rfl, ha⟩ := hv
  have hf : PatFits exRate.net.hidden pat := patFits_of_realises (hidOk_all _ _ exRate_net.net.1) hp.1
  match pat, hf with
  | [[b, c]], _ =>
    cases b <;> cases c <;> simp [pieceRate, Net.dir, exRate, dirHid, Act.gain, Act.slope, matVec, dot] <;> linarith
  | [[]], .cons h _ => simp at h
  | [[_]], .cons h _ => simp at h
  | [_ :: _ :: _ :: _], .cons h _ => simp at h

theorem exAuto_vel {x xd : Vec ℚ} (hx : x.length = 1) (h : AStep exAuto.modes x xd) : ∃ a, xd = [a] ∧ 0 ≤ a := by
  obtain ⟨a, rfl⟩ := List.length_eq_one_iff.1 hx
  obtain ⟨md, hmd, hP, rfl⟩ := h
  simp only [exAuto, List.mem_cons, List.not_mem_nil, or_false] at hmd
  rcases hmd with rfl | rfl
  · have h1 := hP 0 (by simp [exModeA])
    simp [exModeA, dot] at h1
    exact ⟨-1 / 2 * a, by simp [exModeA, matVec, vadd, dot], by linarith⟩
  · have h2 := hP 1 (by simp [exModeB])
    simp [exModeB, dot] at h2
    exact ⟨1 / 4 * a + 1 / 8, by simp [exModeB, matVec, vadd, dot], by linarith⟩

theorem exRate_eq : InBox exRate.xLo exRate.xUp [(0 : ℚ)] := by
  refine ⟨rfl, rfl, fun i hi => ?_⟩
  have : i < 1 := hi
  interval_cases i
  norm_num [exRate]

/-- Every hypothesis of C74 is met, and both programs accept `V = -relu(x) + relu(-x)/2` (with `λ = ε = 0`): along the velocities,
which are nonnegative, it does not increase. -/
example : ∃ D D', exRate.hybridRate exAuto [0] 0 0 .expLower none none none = some D ∧
    exRate.hybridRate2 exAuto [0] 0 0 .expLower none none none = some D' ∧
    (∀ v, D.m.Feas v → D.m.objVal v ≤ 0) ∧ (∀ v, D'.m.Feas v → D'.m.objVal v ≤ 0) ∧
    (∃ d, HasSlope (lyapV exRate.net (eye 1) 0 [0]) [1 / 2] [1 / 4] d ∧ d ≤ 0) := by
  have hs : ∀ q ∈ exRate.net.hidden, ∀ c, q.2 = Act.leaky c → 0 ≤ c := by simp [exRate]
  obtain ⟨D, -, -, h1, -, -, l1, -, -, h2, -⟩ := C74_program exRate exRate_net exAuto_hyb hs (R := none) trivial exRate_eq 0 0
    none none
  obtain ⟨D', -, -, h1', -, -, l1', -, -, h2', -⟩ := C74_program2 exRate exRate_net exAuto_hyb hs exAuto_nonempty (R := none)
    trivial exRate_eq 0 0 none none
  have hle : ∀ v, D.m.Feas v → D.m.objVal v ≤ 0 := by
    intro v hv
    obtain ⟨-, hst, -, pat, σ, hp, ho⟩ := h2 v hv
    rw [ho, zero_mul, add_zero]
    exact exRate_piece hp (exAuto_vel (by rw [List.length_map, l1]; rfl) hst)
  refine ⟨D, D', h1, h1', hle, fun v hv => ?_, ?_⟩
  · obtain ⟨-, -, k, hk, -, hP, pat, σ, hp, ho⟩ := h2' v hv
    rw [ho, zero_mul, add_zero]
    exact exRate_piece hp (exAuto_vel (by rw [List.length_map, l1']; rfl) ⟨_, List.getElem_mem hk, hP, rfl⟩)
  · obtain ⟨d, hd, hd'⟩ := C74_verdict exRate exRate_net exAuto_hyb hs exRate_eq h1 hle (x := [1 / 2]) (xd := [1 / 4]) rfl
      ⟨exModeB, by simp [exAuto], by rw [← polyHas_iff]; decide +kernel, by decide +kernel⟩ ⟨by simp, by simp⟩
      (T := 1) one_pos (by
        refine ⟨rfl, rfl, fun i hi => ?_⟩
        have : i < 1 := hi
        interval_cases i
        norm_num [exRate, vadd, vsmul])
    exact ⟨d, hd, by simpa using hd'⟩

/-- With one state `lyapunov_derivative` raises: C75. -/
example : exRate.hybridRates exAuto [1 / 2] [0] 0 0 none = none :=
  C75_one_state_raises exactLp_truthful exRate exAuto_built rfl none [0] (x := [1 / 2]) rfl (xd := [1 / 4])
    ⟨exModeB, by simp [exAuto], by rw [← polyHas_iff]; decide +kernel, by decide +kernel⟩ 0 0

/-- `ẋ = -x` on the box `[-1, 1]²`. -/
def exModeSq : AMode ℚ := ⟨[[-1, 0], [0, -1]], [0, 0], [[1, 0], [-1, 0], [0, 1], [0, -1]], [1, 1, 1, 1]⟩

theorem mem_square2 (c d v : ℚ) : v ∈ polyValues 2 exModeSq.P exModeSq.q [c, d] ↔
    ∃ x y, (-1 ≤ x ∧ x ≤ 1) ∧ (-1 ≤ y ∧ y ≤ 1) ∧ c * x + d * y = v := by
  constructor
  · rintro ⟨w, hw, hP, rfl⟩
    obtain ⟨x, y, rfl⟩ := List.length_eq_two.1 hw
    have h1 := hP 0 (by simp [exModeSq])
    have h2 := hP 1 (by simp [exModeSq])
    have h3 := hP 2 (by simp [exModeSq])
    have h4 := hP 3 (by simp [exModeSq])
    simp [exModeSq, dot] at h1 h2 h3 h4
    exact ⟨x, y, ⟨by linarith, h1⟩, ⟨by linarith, h3⟩, by simp [dot]⟩
  · rintro ⟨x, y, ⟨h1, h2⟩, ⟨h3, h4⟩, rfl⟩
    refine ⟨[x, y], rfl, ?_, by simp [dot]⟩
    intro i hi
    match i, hi with
    | 0, _ => simpa [exModeSq, dot] using h2
    | 1, _ => simp [exModeSq, dot]; linarith
    | 2, _ => simpa [exModeSq, dot] using h4
    | 3, _ => simp [exModeSq, dot]; linarith
    | n + 4, hi => simp [exModeSq] at hi

theorem square2_bounds (c d : ℚ) (hc : |c| + |d| = 1) :
    lpBounds exactLp 2 exModeSq.P exModeSq.q [c, d] = some (Ext.fin (-1), Ext.fin 1) := by
  have key : ∀ a x : ℚ, -1 ≤ x ∧ x ≤ 1 → -|a| ≤ a * x ∧ a * x ≤ |a| := by
    intro a x hx
    have := abs_le.1 (show |a * x| ≤ |a| by
      rw [abs_mul]
      exact mul_le_of_le_one_right (abs_nonneg _) (abs_le.2 hx))
    exact this
  have sg : ∀ a : ℚ, ∃ x : ℚ, (-1 ≤ x ∧ x ≤ 1) ∧ a * x = |a| := by
    intro a
    rcases le_total 0 a with h | h
    · exact ⟨1, by norm_num, by rw [abs_of_nonneg h, mul_one]⟩
    · exact ⟨-1, by norm_num, by rw [abs_of_nonpos h, mul_neg_one]⟩
  obtain ⟨x, hx, ex⟩ := sg c
  obtain ⟨y, hy, ey⟩ := sg d
  refine exactLp_bounds ⟨(mem_square2 _ _ _).2 ⟨-x, -y, ?_, ?_, ?_⟩, fun v hv => ?_⟩
    ⟨(mem_square2 _ _ _).2 ⟨x, y, hx, hy, by rw [ex, ey, hc]⟩, fun v hv => ?_⟩
  · exact ⟨by linarith [hx.2], by linarith [hx.1]⟩
  · exact ⟨by linarith [hy.2], by linarith [hy.1]⟩
  · linarith
  · obtain ⟨x, y, h1, h2, rfl⟩ := (mem_square2 _ _ _).1 hv
    linarith [(key c x h1).1, (key d y h2).1]
  · obtain ⟨x, y, h1, h2, rfl⟩ := (mem_square2 _ _ _).1 hv
    linarith [(key c x h1).2, (key d y h2).2]

/-- The system with this mode. -/
theorem exSquare2_built : ∃ S : AutoHybrid ℚ, ABuilt exactLp 2 S ∧ S.modes = [exModeSq] := by
  have ok : exModeSq.toH.Ok 2 0 := by decide
  have e1 : eye 2 = ([[1, 0], [0, 1]] : Mat ℚ) := by simp [eye, eyeRow, List.range_succ]
  obtain ⟨S', hS'⟩ : ∃ S', AutoHybrid.addMode exactLp { xdim := 2 } exModeSq = some S' := by
    rw [AutoHybrid.addMode, if_pos ok]
    simp only [e1]
    simp only [boundsOf, square2_bounds 1 0 (by norm_num), square2_bounds 0 1 (by norm_num),
      show exModeSq.A = [[-1, 0], [0, -1]] from rfl, square2_bounds (-1) 0 (by norm_num),
      square2_bounds 0 (-1) (by norm_num), Option.bind_eq_bind, Option.bind_some]
    exact ⟨_, rfl⟩
  refine ⟨S', ABuilt.add ABuilt.new hS', ?_⟩
  rw [AutoHybrid.addMode, if_pos ok] at hS'
  simp only [e1] at hS'
  simp only [boundsOf, square2_bounds 1 0 (by norm_num), square2_bounds 0 1 (by norm_num),
      show exModeSq.A = [[-1, 0], [0, -1]] from rfl, square2_bounds (-1) 0 (by norm_num),
      square2_bounds 0 (-1) (by norm_num), Option.bind_eq_bind, Option.bind_some, Option.some.injEq] at hS'
  rw [← hS']
  rfl

/-- Every hypothesis of C75 is met; at the corner `(1, 1)` the list is not empty. -/
example : ∃ (S : AutoHybrid ℚ) (l : Vec ℚ), exLyap.hybridRates S [1, 1] [0, 1] (1 / 2) (1 / 10) none = some l ∧ l ≠ [] := by
  obtain ⟨S, hb, hm⟩ := exSquare2_built
  obtain ⟨l, hl, hmem⟩ := C75_rates exactLp_truthful exLyap exLyap_ok.net exLyap_ok.out hb (by decide) (R := none) trivial
    (x := [1, 1]) (xe := [0, 1]) rfl rfl (1 / 2) (1 / 10)
  refine ⟨S, l, hl, List.ne_nil_of_mem ((hmem _).2 ⟨[-1, -1], _, [true, true], ⟨exModeSq, by rw [hm]; simp, ?_, ?_⟩,
    ⟨realises_computePattern _ _, ?_⟩, rfl⟩)⟩
  · rw [← polyHas_iff]; decide +kernel
  · decide +kernel
  · have : matVec (eye exLyap.dim) (vsub [1, 1] [0, 1]) = ([1, 0] : Vec ℚ) := by decide +kernel
    rw [this]
    exact .cons ⟨fun _ => by norm_num, by simp⟩ (.cons ⟨fun _ => le_rfl, by simp⟩ .nil)

/-- A sample outside both modes. -/
example : exRate.rateLossAt exAuto [[1 / 2], [2]] [0] 0 0 .expLower none 0 = none := by
  refine C75_loss_raises exRate (x := [2]) (by simp) (fun md hmd => ?_) _ _ _ _ _ _
  simp only [exAuto, List.mem_cons, List.not_mem_nil, or_false] at hmd
  rcases hmd with rfl | rfl <;> rw [← polyHas_iff] <;> decide +kernel

/-- The loss of two samples; at the second one a coordinate is that of the equilibrium. -/
example : ∃ r, exLyap.rateLoss [[1, 1 / 2], [0, 1]] [[-1, -1], [0, -1]] [0, 0] (1 / 2) (1 / 10) .expLower none (1 / 4) = some r ∧
    0 ≤ r := by
  obtain ⟨r, h1, h2, -⟩ := C75_loss exLyap exLyap_ok.net exLyap_ok.out (R := none) trivial
    (xs := [[1, 1 / 2], [0, 1]]) (xds := [[-1, -1], [0, -1]]) (xe := [0, 0]) rfl (by simp) rfl
    (by simp [exLyap, Lyap.dim]) (by simp [exLyap, Lyap.dim]) (1 / 2) (1 / 10) (1 / 4) .expLower
  exact ⟨r, h1, h2⟩

end NNL.Props
