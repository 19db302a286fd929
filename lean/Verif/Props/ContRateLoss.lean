import Verif.Model.ContRateLoss
import Verif.Props.HybridRate3
import Verif.Props.ContinuousRate
import Verif.Props.Losses

/-!
# C131: the loss of the continuous-time derivative condition at samples
-/

set_option linter.unusedSectionVars false

namespace NNL.Props

open NNL NNL.Model NNL.Spec

variable {K : Type*} [Field K] [LinearOrder K] [IsStrictOrderedRing K]

/-- **C131**: the gradient of a row of the batch is the mean of the gradients of two affine pieces of `V` at the
sample, in which exactly the units with a positive input are active. The two pieces are the same where no entry of
`R (x - x*)` is zero. -/
theorem C131_gradient (L : Lyap K) (hok : L.net.Ok L.dim) (hout : L.net.last.W.length = 1) {R : Mat K}
    (hR : HasCols R L.dim) (x xe : Vec K) (lam : K) :
    ∃ g pat σ σ', L.autoGradient x xe lam R = some g ∧ g.length = L.dim ∧
      List.Forall₂ (List.Forall₂ fun (b : Bool) (y : K) => b = true ↔ 0 < y) pat (preacts L.net.hidden x) ∧
      PieceAt L.net R xe x pat σ ∧ PieceAt L.net R xe x pat σ' ∧
      (∀ v, v.length = L.dim →
        dot g v = (pieceRate L.net R lam pat σ v + pieceRate L.net R lam pat σ' v) / 2) ∧
      ((∀ a ∈ matVec R (vsub x xe), a ≠ 0) → σ = σ') := by
  have hr := realises_strictPattern L.net.hidden x
  obtain ⟨p, hp, hl, hdot⟩ := pat_piece hok hout hr
  obtain ⟨σ, σ', h1, h2, h3, h4⟩ := sgn_split (matVec R (vsub x xe))
  have hl2 : (vecMat L.dim ((matVec R (vsub x xe)).map torchSign) R).length = L.dim := length_vecMat _ _ _ hR
  refine ⟨vadd (p.gT.getD 0 []) (vsmul lam (vecMat L.dim ((matVec R (vsub x xe)).map torchSign) R)),
    strictPattern L.net.hidden x, σ, σ', by simp only [Lyap.autoGradient, hp, Option.map_some],
    by rw [length_vadd, length_vsmul, hl, hl2, min_self], strictPattern_zero _ _, ⟨hr, h1⟩, ⟨hr, h2⟩, fun v hv => ?_, h4⟩
  rw [dot_vadd_left _ _ _ (by rw [hl, length_vsmul, hl2]), dot_vsmul_left, dot_vecMat _ _ _ _ hR, h3, hdot v hv,
    pieceRate, pieceRate]
  ring

theorem signOk_unique : ∀ {σ σ' : List Bool} {y : Vec K}, List.Forall₂ SignOk σ y → List.Forall₂ SignOk σ' y →
    (∀ a ∈ y, a ≠ 0) → σ = σ'
  | _, _, _, .nil, .nil, _ => rfl
  | _, _, _, .cons (a := b) (b := a) h hs, .cons (a := b') h' hs', hne => by
    have e := signOk_unique hs hs' fun a ha => hne a (by simp [ha])
    have : b = b' := by
      rcases lt_or_gt_of_ne (hne a (by simp)) with ha | ha <;> cases b <;> cases b' <;>
        simp_all [SignOk] <;> exact absurd (lt_of_lt_of_le ha (by assumption)) (lt_irrefl _)
    rw [e, this]

/-- Away from the kinks there is one piece. -/
theorem piece_unique {net : Net K} {R : Mat K} {xe x : Vec K} {pat pat' : List (List Bool)} {σ σ' : List Bool}
    (h : PieceAt net R xe x pat σ) (h' : PieceAt net R xe x pat' σ')
    (hu : ∀ l ∈ preacts net.hidden x, ∀ a ∈ l, a ≠ 0) (he : ∀ a ∈ matVec R (vsub x xe), a ≠ 0) :
    pat = pat' ∧ σ = σ' := by
  refine ⟨?_, signOk_unique h.2 h'.2 he⟩
  have key : ∀ {ps ps' : List (List Bool)} {ys : List (Vec K)}, List.Forall₂ (List.Forall₂ SignOk) ps ys →
      List.Forall₂ (List.Forall₂ SignOk) ps' ys → (∀ l ∈ ys, ∀ a ∈ l, a ≠ 0) → ps = ps' := by
    intro ps ps' ys h1
    induction h1 generalizing ps' with
    | nil => intro h2 _; cases h2; rfl
    | cons a as ih =>
      intro h2 hne
      cases h2 with
      | cons b bs =>
        rw [signOk_unique a b (hne _ (by simp)), ih bs fun l hl => hne l (by simp [hl])]
  exact key h.1 h'.1 hu

/-- **C131**: where no unit and no entry of `R (x - x*)` is at its kink, the gradient of the batch is the gradient of
`V`: its product with any direction is the slope of `V` in this direction. -/
theorem C131_slope (L : Lyap K) (hok : L.net.Ok L.dim) (hout : L.net.last.W.length = 1) {R : Mat K}
    (hR : HasCols R L.dim) {x xe : Vec K} (hx : x.length = L.dim) (hxe : xe.length = L.dim) (lam : K)
    (hu : ∀ l ∈ preacts L.net.hidden x, ∀ a ∈ l, a ≠ 0) (he : ∀ a ∈ matVec R (vsub x xe), a ≠ 0) {g : Vec K}
    (hg : L.autoGradient x xe lam R = some g) {v : Vec K} (hv : v.length = L.dim) :
    HasSlope (lyapV L.net R lam xe) x v (dot g v) := by
  obtain ⟨g', pat, σ, σ', h1, -, -, h2, -, h3, h4⟩ := C131_gradient L hok hout hR x xe lam
  obtain rfl : g = g' := Option.some.inj (hg.symm.trans h1)
  obtain ⟨pat', τ, hp', hsl, -, -⟩ := lyapV_ray L.net L.dim hok hout R lam xe x v hxe hx hv pat σ
    (realises_shape hok.1 h2.1) (by simpa [matVec] using h2.2.length_eq)
  obtain ⟨rfl, rfl⟩ := piece_unique h2 hp' hu he
  rw [h3 v hv, ← h4 he, add_self_div_two]
  exact hsl

/-- **C131**: the loss passes its checks exactly for matching batches of states and velocities of the right size and
`ExpLower`; the other types of convergence raise. -/
theorem C131_accepts (L : Lyap K) (hok : L.net.Ok L.dim) (hout : L.net.last.W.length = 1)
    (xs xds : List (Vec K)) (xe : Vec K) (lam eps : K) (et : EpsType) {R : Option (Tensor2 K)}
    (hR : ∀ R', getR R L.dim = some R' → HasCols R' L.dim) (margin tol : K) :
    (L.contHinges xs xds xe lam eps et R margin tol).isSome ↔
      xs.length = xds.length ∧ (∀ x ∈ xs, x.length = L.dim) ∧ (∀ xd ∈ xds, xd.length = L.dim) ∧
        xe.length = L.dim ∧ et = .expLower ∧ 0 ≤ tol ∧ (getR R L.dim).isSome := by
  unfold Lyap.contHinges
  split_ifs with h
  · obtain ⟨a, b, c, d, e, f⟩ := h
    simp only [a, d, e, f, true_and, Option.bind_eq_bind]
    cases hR' : getR R L.dim with
    | none => simp
    | some R' =>
      have key : ∀ l : List (Vec K × Vec K), (l.mapM (L.contHinge xe lam eps R R' margin)).isSome := by
        intro l
        induction l with
        | nil => simp
        | cons t l ih =>
          obtain ⟨g, -, -, -, hg, -⟩ := C131_gradient L hok hout (hR R' hR') t.1 xe lam
          obtain ⟨r, hr⟩ := Option.isSome_iff_exists.1 ih
          simp [Lyap.contHinge, hg, C31_value L R R' hR', hr]
      simp only [Option.bind_some, Option.isSome_some, and_true]
      exact ⟨fun _ => ⟨b, c⟩, fun _ => key _⟩
  · simp only [Option.isSome_none, Bool.false_eq_true, false_iff]
    exact fun ⟨a, b, c, d, e, f, _⟩ => h ⟨a, b, c, d, e, f⟩

/-- **C131**: the loss is non-negative for positive weights, and zero exactly if at every sample
`∂V/∂x ẋ + ε V + margin ≤ 0` for the gradient of the batch. -/
theorem C131_loss (L : Lyap K) (hok : L.net.Ok L.dim) (hout : L.net.last.W.length = 1)
    (xs xds : List (Vec K)) (xe : Vec K) (lam eps : K) (et : EpsType) {R : Option (Tensor2 K)} {R' : Mat K}
    (hR : getR R L.dim = some R') (hc : HasCols R' L.dim) (margin : K) (red : Reduction) (weight : Option (Vec K))
    (hw : WeightsPos weight) (tol r : K) (h : L.ContRateLoss xs xds xe lam eps et R margin red weight tol r) :
    0 ≤ r ∧ (r = 0 ↔ ∀ t ∈ xs.zip xds, ∀ g, L.autoGradient t.1 xe lam R' = some g →
      dot g t.2 + eps * lyapV L.net R' lam xe t.1 + margin ≤ 0) := by
  obtain ⟨hs, h1, h2⟩ := h
  unfold Lyap.contHinges at h1
  split_ifs at h1 with hch
  simp only [hR, Option.bind_eq_bind, Option.bind_some] at h1
  have key : ∀ (l : List (Vec K × Vec K)) (h : Vec K), l.mapM (L.contHinge xe lam eps R R' margin) = some h →
      (∀ a ∈ h, 0 ≤ a) ∧ ((∀ a ∈ h, a = 0) ↔ ∀ t ∈ l, ∀ g, L.autoGradient t.1 xe lam R' = some g →
        dot g t.2 + eps * lyapV L.net R' lam xe t.1 + margin ≤ 0) := by
    intro l
    induction l with
    | nil => intro h hh; simp at hh; subst hh; simp
    | cons t l ih =>
      intro h hh
      obtain ⟨g, -, -, -, hg, -⟩ := C131_gradient L hok hout hc t.1 xe lam
      have e : L.contHinge xe lam eps R R' margin t
          = some (hinge margin (-(dot g t.2 + eps * lyapV L.net R' lam xe t.1))) := by
        simp only [Lyap.contHinge, hg, C31_value L R R' hR, Option.bind_eq_bind, Option.bind_some]
      simp only [List.mapM_cons, e, Option.bind_eq_bind, Option.bind_some] at hh
      obtain ⟨h', hh', hh⟩ := Option.bind_eq_some_iff.1 hh
      obtain rfl := Option.some.inj hh
      obtain ⟨i1, i2⟩ := ih h' hh'
      refine ⟨?_, ?_⟩
      · intro a ha
        rcases List.mem_cons.1 ha with rfl | ha
        · exact hinge_nonneg _ _
        · exact i1 a ha
      · rw [List.forall_mem_cons, List.forall_mem_cons, i2, hinge_zero_iff]
        refine and_congr ?_ Iff.rfl
        simp only [hg, Option.some.injEq, forall_eq']
        constructor <;> intro h <;> linarith
  obtain ⟨k1, k2⟩ := key _ _ h1
  obtain ⟨a, b⟩ := reduces_spec h2 hw k1
  exact ⟨a, b.trans k2⟩

/-- **C131**: the loss and the values of `lyapunov_derivative` at the samples. If all of the latter meet the condition
with the margin, the loss is zero. If the loss is zero, some value at each sample meets it, and all do at the samples
which are not at a kink. -/
theorem C131_rates (L : Lyap K) (hok : L.net.Ok L.dim) (hout : L.net.last.W.length = 1)
    (xs xds : List (Vec K)) (xe : Vec K) (lam eps : K) (et : EpsType) {R : Tensor2 K} (hcols : R.cols = L.dim)
    (hc : HasCols R.rows L.dim) (margin : K) (red : Reduction) (weight : Option (Vec K)) (hw : WeightsPos weight)
    (tol r : K) (h : L.ContRateLoss xs xds xe lam eps et (some R) margin red weight tol r) :
    ((∀ t ∈ xs.zip xds, ∀ l, L.rates t.1 t.2 xe lam eps (some R) 0 = some l → ∀ d ∈ l, d ≤ -margin) → r = 0) ∧
    (r = 0 → ∀ t ∈ xs.zip xds, ∃ l, L.rates t.1 t.2 xe lam eps (some R) 0 = some l ∧ (∃ d ∈ l, d ≤ -margin) ∧
      ((∀ p ∈ preacts L.net.hidden t.1, ∀ a ∈ p, a ≠ 0) → (∀ a ∈ matVec R.rows (vsub t.1 xe), a ≠ 0) →
        ∀ d ∈ l, d ≤ -margin)) := by
  have hgR : getR (some R) L.dim = some R.rows := by simp [getR, hcols]
  have hz : ∀ t ∈ xs.zip xds, t.1.length = L.dim ∧ t.2.length = L.dim := by
    obtain ⟨hs, h1, -⟩ := h
    obtain ⟨-, b, c, -⟩ := (C131_accepts L hok hout xs xds xe lam eps et (fun R' e => by
      obtain rfl := Option.some.inj (hgR.symm.trans e); exact hc) margin tol).1 (by rw [h1]; rfl)
    exact fun t ht => ⟨b _ (List.of_mem_zip ht).1, c _ (List.of_mem_zip ht).2⟩
  obtain ⟨-, h0⟩ := C131_loss L hok hout xs xds xe lam eps et hgR hc margin red weight hw tol r h
  have key : ∀ t ∈ xs.zip xds, ∃ g pat σ σ' l, L.autoGradient t.1 xe lam R.rows = some g ∧
      PieceAt L.net R.rows xe t.1 pat σ ∧ PieceAt L.net R.rows xe t.1 pat σ' ∧
      dot g t.2 = (pieceRate L.net R.rows lam pat σ t.2 + pieceRate L.net R.rows lam pat σ' t.2) / 2 ∧
      L.rates t.1 t.2 xe lam eps (some R) 0 = some l ∧
      ∀ r, r ∈ l ↔ ∃ pat σ, PieceAt L.net R.rows xe t.1 pat σ ∧
        r = pieceRate L.net R.rows lam pat σ t.2 + eps * lyapV L.net R.rows lam xe t.1 := by
    intro t ht
    obtain ⟨q1, q2⟩ := hz t ht
    obtain ⟨g, pat, σ, σ', a1, -, -, a2, a3, a4, -⟩ := C131_gradient L hok hout hc t.1 xe lam
    obtain ⟨l, b1, b2⟩ := C39_rates L hok hout (xe := xe) lam eps hcols hc q1 q2
    exact ⟨g, pat, σ, σ', l, a1, a2, a3, a4 _ q2, b1, b2⟩
  constructor
  · intro hall
    refine h0.2 fun t ht g hg => ?_
    obtain ⟨g', pat, σ, σ', l, a1, a2, a3, a4, b1, b2⟩ := key t ht
    obtain rfl : g = g' := Option.some.inj (hg.symm.trans a1)
    have c1 := hall t ht l b1 _ ((b2 _).2 ⟨pat, σ, a2, rfl⟩)
    have c2 := hall t ht l b1 _ ((b2 _).2 ⟨pat, σ', a3, rfl⟩)
    rw [a4]
    linarith
  · intro hr0 t ht
    obtain ⟨g, pat, σ, σ', l, a1, a2, a3, a4, b1, b2⟩ := key t ht
    have c := h0.1 hr0 t ht g a1
    rw [a4] at c
    refine ⟨l, b1, ?_, fun hu he d hd => ?_⟩
    · rcases le_total (pieceRate L.net R.rows lam pat σ t.2) (pieceRate L.net R.rows lam pat σ' t.2) with hle | hle
      · exact ⟨_, (b2 _).2 ⟨pat, σ, a2, rfl⟩, by linarith⟩
      · exact ⟨_, (b2 _).2 ⟨pat, σ', a3, rfl⟩, by linarith⟩
    · obtain ⟨pat', τ, hp, rfl⟩ := (b2 d).1 hd
      obtain ⟨rfl, rfl⟩ := piece_unique a2 hp hu he
      obtain ⟨-, rfl⟩ := piece_unique a2 a3 hu he
      linarith

/-- **C131**, a counterexample to the documentation of `zero_tol` ("we consider both the left and right derivatives"):
`V(x) = -relu(x) + relu(-x) / 2` increases from `0` with the velocity `-1`, at slope `1 / 2`, but the loss is zero for
every `zero_tol` and every reduction, since autograd returns the gradient zero at the kink. -/
theorem C131_kink_counterexample (tol : ℚ) (htol : 0 ≤ tol) (red : Reduction) :
    exRate.ContRateLoss [[0]] [[-1]] [1 / 2] 0 0 .expLower (some ⟨1, [[1]]⟩) 0 red none tol 0 ∧
      HasSlope (lyapV exRate.net [[1]] 0 [1 / 2]) [0] [-1] (1 / 2) := by
  refine ⟨⟨[0], ?_, ?_⟩, 1, one_pos, fun t t0 _ => ?_⟩
  · rw [Lyap.contHinges, if_pos ⟨rfl, by decide, by decide, rfl, rfl, htol⟩]
    decide +kernel
  · cases red
    · exact ⟨by simp, by decide +kernel⟩
    · exact ⟨by simp, by decide +kernel⟩
    · exact ⟨le_rfl, by simp⟩
  · have e : ∀ y : ℚ, exRate.net.val [y] = -max y 0 + 1 / 2 * max (-y) 0 := fun y => by
      simp [exRate, Net.val, Net.eval, hiddenOut, Lin.eval, Lin.b, vadd, matVec, Act.f, relu, zeros]
    simp only [lyapV, vadd, vsmul, List.map_cons, List.map_nil, List.zipWith_cons_cons, List.zipWith_nil_left, e]
    rw [max_eq_right (by linarith : 0 + t * -1 ≤ 0), max_eq_left (by linarith : (0 : ℚ) ≤ -(0 + t * -1))]
    norm_num
    ring

/-- The hypotheses are met by a network with two units and `R` with three rows: the loss of two samples, one of them
at a kink of `|R (x - x*)|₁`. -/
example : ∃ h, exLyap.contHinges [[1, 1 / 2], [0, 1 / 2]] [[-1, -1], [0, -1]] [0, 1 / 2] (1 / 2) (1 / 10) .expLower (some exR)
    (1 / 4) 0 = some h ∧ h.length = 2 ∧ exLyap.ContRateLoss [[1, 1 / 2], [0, 1 / 2]] [[-1, -1], [0, -1]] [0, 1 / 2] (1 / 2)
      (1 / 10) .expLower (some exR) (1 / 4) .max none 0 (vmax h) ∧ 0 ≤ vmax h := by
  have hc : ∀ R', getR (some exR) exLyap.dim = some R' → HasCols R' exLyap.dim := fun R' e => by
    obtain rfl : exR.rows = R' := Option.some.inj e
    exact exEq_ok.cols
  obtain ⟨h, hh⟩ := Option.isSome_iff_exists.1 ((C131_accepts exLyap exLyap_ok.net exLyap_ok.out
    [[1, 1 / 2], [0, 1 / 2]] [[-1, -1], [0, -1]] [0, 1 / 2] (1 / 2) (1 / 10) .expLower hc (1 / 4) 0).2
    ⟨rfl, by simp [exLyap, Lyap.dim], by simp [exLyap, Lyap.dim], rfl, rfl, le_rfl, rfl⟩)
  have hl : h.length = 2 := by
    have := hh
    unfold Lyap.contHinges at this
    split_ifs at this
    obtain ⟨R', -, this⟩ := Option.bind_eq_some_iff.1 this
    simp only [List.zip_cons_cons, List.zip_nil_right, List.mapM_cons, List.mapM_nil, Option.bind_eq_bind,
      Option.bind_eq_some_iff] at this
    obtain ⟨a, -, l, ⟨b, -, l', h1, h2⟩, h3⟩ := this
    cases h1; cases h2; cases h3; rfl
  have hL : exLyap.ContRateLoss [[1, 1 / 2], [0, 1 / 2]] [[-1, -1], [0, -1]] [0, 1 / 2] (1 / 2)
      (1 / 10) .expLower (some exR) (1 / 4) .max none 0 (vmax h) :=
    ⟨h, hh, show h ≠ [] ∧ vmax h = vmax h from ⟨by rintro rfl; simp at hl, rfl⟩⟩
  exact ⟨h, hh, hl, hL, (C131_loss exLyap exLyap_ok.net exLyap_ok.out _ _ _ _ _ _ rfl exEq_ok.cols _ _ _
    (by intro w hw; cases hw) _ _ hL).1⟩

/-- At `(1, -1)` no unit is at its kink. -/
example {g : Vec ℚ} (hg : exLyap.autoGradient [1, -1] [0, 1 / 2] (1 / 2) exR.rows = some g) :
    HasSlope (lyapV exLyap.net exR.rows (1 / 2) [0, 1 / 2]) [1, -1] [-1, 1] (dot g [-1, 1]) := by
  have h1 : ∀ l ∈ preacts exLyap.net.hidden [1, -1], ∀ a ∈ l, a ≠ 0 := by
    norm_num [exLyap, preacts, Lin.eval, Lin.b, vadd, matVec, Act.f, relu, zeros]
  have h2 : ∀ a ∈ matVec exR.rows (vsub [1, -1] [0, 1 / 2]), a ≠ 0 := by
    norm_num [exR, matVec, vsub, vadd, vneg, vsmul]
  exact C131_slope exLyap exLyap_ok.net exLyap_ok.out exEq_ok.cols (x := [1, -1]) (xe := [0, 1 / 2]) rfl rfl _ h1 h2 hg
    (v := [-1, 1]) rfl

end NNL.Props
