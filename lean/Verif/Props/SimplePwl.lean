import Verif.Model.SimplePwl
import Verif.Spec.SimplePwl

/-!
# Piecewise linear Lyapunov functions by linear programming: C60
-/

set_option linter.unusedSectionVars false

namespace NNL.Props

open NNL NNL.Spec NNL.Model

variable {K : Type*} [Field K] [LinearOrder K] [IsStrictOrderedRing K]

theorem dot_le_of_weights (w f : Vec K) (t : K) (hl : w.length = f.length) (hw : ∀ a ∈ w, 0 ≤ a)
    (hf : ∀ b ∈ f, b ≤ t) : dot w f ≤ w.sum * t := by
  induction w generalizing f with
  | nil => simp
  | cons a w ih =>
    cases f with
    | nil => simp at hl
    | cons b f =>
      simp only [List.length_cons, Nat.add_right_cancel_iff] at hl
      have h1 := ih f hl (fun a ha => hw a (by simp [ha])) fun b hb => hf b (by simp [hb])
      have h2 := hw a (by simp)
      have h3 := hf b (by simp)
      have h4 := mul_le_mul_of_nonneg_left h3 h2
      simp only [dot_cons, List.sum_cons]
      linarith [add_mul a w.sum t]

/-- A bound of an affine function on the vertices holds on the hull. -/
theorem hull_le {n : ℕ} {vs : List (Vec K)} (hv : HasCols vs n) {a : Vec K} {b t : K}
    (h : ∀ v ∈ vs, dot a v + b ≤ t) {x : Vec K} (hx : InHull n vs x) : dot a x + b ≤ t := by
  obtain ⟨w, h1, h2, h3, rfl⟩ := hx
  rw [dot_comm, dot_vecMat n _ _ _ hv]
  have := dot_le_of_weights w (matVec vs a) (t - b) (by simpa using h1) h2 (by
    intro c hc
    simp only [matVec, List.mem_map] at hc
    obtain ⟨v, hv', rfl⟩ := hc
    have := h v hv'
    rw [dot_comm] at this
    linarith)
  rw [h3] at this
  linarith

theorem vecMat_unit {n : ℕ} (vs : List (Vec K)) (hv : HasCols vs n) (v : Vec K) (h : v ∈ vs) : InHull n vs v := by
  obtain ⟨l, r, rfl⟩ := List.append_of_mem h
  refine ⟨zeros l.length ++ 1 :: zeros r.length, by simp, ?_, ?_, ?_⟩
  · intro a ha
    simp only [zeros, List.mem_append, List.mem_replicate, List.mem_cons] at ha
    rcases ha with ⟨-, rfl⟩ | rfl | ⟨-, rfl⟩ <;> norm_num
  · simp [zeros]
  · refine vec_ext (by rw [length_vecMat _ _ _ hv]; exact hv v (by simp)) fun i hi => ?_
    have hvn := hv v (by simp)
    have e : ∀ y : Vec K, y.length = n → y.getD i 0 = dot y (eyeRow n i) := fun y hy => by
      rw [dot_comm, dot_eyeRow _ _ _ (by omega)]
    rw [e _ hvn, e _ (length_vecMat _ _ _ hv), dot_vecMat n _ _ _ hv, matVec, List.map_append, List.map_cons,
      dot_append _ _ _ _ (by simp)]
    simp

theorem hull_length {n : ℕ} {vs : List (Vec K)} (hv : HasCols vs n) {x : Vec K} (hx : InHull n vs x) :
    x.length = n := by
  obtain ⟨w, -, -, -, rfl⟩ := hx
  exact length_vecMat _ _ _ hv

theorem getD_mem_of_lt {A : Mat K} {i : ℕ} (h : i < A.length) : A.getD i [] ∈ A := by
  have : A.getD i [] = A[i] := by simp [List.getD, h]
  rw [this]
  exact List.getElem_mem _

theorem matVec_addEye (n : ℕ) (A : Mat K) (a : K) (x : Vec K) (hA : A.length = n) (hc : HasCols A n)
    (hx : x.length = n) : matVec (addEye n A a) x = vadd (matVec A x) (vsmul a x) := by
  refine vec_ext (by simp [addEye, hA, hx]) fun i hi => ?_
  have hi : i < n := by simpa [addEye, hA] using hi
  have e1 : (matVec (addEye n A a) x).getD i 0 = dot (vadd (A.getD i []) (vsmul a (eyeRow n i))) x := by
    simp [matVec, addEye, List.getD, hA, hi, eye]
  have hr : (A.getD i []).length = n := hc _ (getD_mem_of_lt (by omega))
  rw [e1, dot_vadd_left _ _ _ (by rw [hr]; simp), dot_vsmul_left, dot_eyeRow _ _ _ hi]
  simp [vadd, vsmul, matVec, List.getD, hA, hi, hx]

/-- The derivative constraints are exactly the derivative condition on the hull. -/
theorem derivative_iff {n : ℕ} {vs : List (Vec K)} (hv : HasCols vs n) {A : Mat K} (hA : A.length = n)
    (hc : HasCols A n) {g c : Vec K} (hg : g.length = n) (lc : c.length = n) (eps2 d s1 : K) :
    (∀ v ∈ vs, s1 ≥ dot c (vadd (matVec (addEye n A eps2) v) g) + eps2 * d) ↔
      DerivativeOn n vs A g eps2 c d s1 := by
  have e : ∀ x : Vec K, x.length = n → dot c (vadd (matVec (addEye n A eps2) x) g) + eps2 * d =
      dot c (vadd (matVec A x) g) + eps2 * (dot c x + d) := by
    intro x hx
    rw [matVec_addEye n A eps2 x hA hc hx, dot_vadd_right _ _ _ (by simp [hA, hx, hg]),
      dot_vadd_right _ _ _ (by simp [hA, hx]), dot_vsmul_right, dot_vadd_right _ _ _ (by simp [hA, hg])]
    ring
  have f : ∀ x : Vec K, dot c (vadd (matVec A x) g) + eps2 * (dot c x + d) =
      dot (vadd (vecMat n c A) (vsmul eps2 c)) x + (dot c g + eps2 * d) := by
    intro x
    rw [dot_vadd_left _ _ _ (by rw [length_vecMat _ _ _ hc]; simp [lc]), dot_vecMat n _ _ _ hc, dot_vsmul_left,
      dot_vadd_right _ _ _ (by simp [hA, hg])]
    ring
  constructor
  · intro h x hx
    rw [f]
    refine hull_le hv (fun v hv' => ?_) hx
    rw [← f, ← e v (hv v hv')]
    exact h v hv'
  · intro h v hv'
    rw [e v (hv v hv')]
    exact h v (vecMat_unit vs hv v hv')

theorem norm1_signs (x xe sg : Vec K) (h1 : x.length = xe.length) (h2 : sg.length = xe.length)
    (h : ∀ j, j < xe.length → (sg.getD j 0 = 1 ∧ x.getD j 0 ≥ xe.getD j 0) ∨
      (sg.getD j 0 = -1 ∧ x.getD j 0 ≤ xe.getD j 0)) : norm1 (vsub x xe) = dot sg x - dot sg xe := by
  induction xe generalizing x sg with
  | nil =>
    have : x = [] := List.length_eq_zero_iff.1 h1
    subst this
    simp [norm1, vsub]
  | cons e xe ih =>
    match x, sg, h1, h2 with
    | a :: x, s :: sg, h1, h2 =>
      have := ih x sg (by simpa using h1) (by simpa using h2) fun j hj => by
        simpa using h (j + 1) (by simpa using hj)
      have h0 := h 0 (by simp)
      simp only [List.getD_cons_zero] at h0
      simp only [norm1, vsub, List.zipWith_cons_cons, List.map_cons, List.sum_cons, dot_cons] at this ⊢
      rw [this]
      rcases h0 with ⟨rfl, h0⟩ | ⟨rfl, h0⟩
      · rw [abs_of_nonneg (by linarith)]
        ring
      · rw [abs_of_nonpos (by linarith)]
        ring

theorem hull_signs {n : ℕ} {vs : List (Vec K)} (hv : HasCols vs n) {xe sg : Vec K} (hxe : xe.length = n)
    (hs : signsFit xe vs sg) {x : Vec K} (hx : InHull n vs x) (j : ℕ) (hj : j < xe.length) :
    (sg.getD j 0 = 1 ∧ x.getD j 0 ≥ xe.getD j 0) ∨ (sg.getD j 0 = -1 ∧ x.getD j 0 ≤ xe.getD j 0) := by
  have hjn : j < n := by omega
  rcases hs j hj with ⟨h1, h2⟩ | ⟨h1, h2⟩
  · refine Or.inl ⟨h1, ?_⟩
    have := hull_le hv (a := vneg (eyeRow n j)) (b := 0) (t := -xe.getD j 0) (fun v hv' => by
      rw [dot_vneg_left, dot_eyeRow _ _ _ hjn]
      linarith [h2 v hv']) hx
    rw [dot_vneg_left, dot_eyeRow _ _ _ hjn] at this
    linarith
  · refine Or.inr ⟨h1, ?_⟩
    have := hull_le hv (a := eyeRow n j) (b := 0) (t := xe.getD j 0) (fun v hv' => by
      rw [dot_eyeRow _ _ _ hjn]
      linarith [h2 v hv']) hx
    rw [dot_eyeRow _ _ _ hjn] at this
    linarith

/-- The positivity constraints are exactly the positivity condition on the hull. -/
theorem positivity_iff {n : ℕ} {vs : List (Vec K)} (hv : HasCols vs n) {xe sg c : Vec K} (hxe : xe.length = n)
    (lc : c.length = n) (ls : sg.length = n) (hs : signsFit xe vs sg) (eps1 d s2 : K) :
    (∀ v ∈ vs, s2 ≥ -dot (vsub c (vsmul eps1 sg)) v - d - eps1 * dot sg xe) ↔ PositiveOn n vs xe eps1 c d s2 := by
  have e : ∀ x, InHull n vs x → dot c x + d - eps1 * norm1 (vsub x xe) =
      dot (vsub c (vsmul eps1 sg)) x + d + eps1 * dot sg xe := by
    intro x hx
    rw [norm1_signs x xe sg (by rw [hull_length hv hx, hxe]) (by omega) fun j hj => hull_signs hv hxe hs hx j hj,
      dot_vsub_left _ _ _ (by simp [lc, ls]), dot_vsmul_left]
    ring
  constructor
  · intro h x hx
    rw [e x hx]
    have := hull_le hv (a := vneg (vsub c (vsmul eps1 sg))) (b := -d - eps1 * dot sg xe) (t := s2) (fun v hv' => by
      rw [dot_vneg_left]
      linarith [h v hv']) hx
    rw [dot_vneg_left] at this
    linarith
  · intro h v hv'
    have hh := vecMat_unit vs hv v hv'
    have := h v hh
    rw [e v hh] at this
    linarith

theorem agree_iff {n : ℕ} {us : List (Vec K)} (hu : HasCols us n) {c c' : Vec K} (lc : c.length = n)
    (lc' : c'.length = n) (d d' : K) :
    (∀ u ∈ us, dot u (vsub c c') + (d - d') = 0) ↔ AgreeOn n us c d c' d' := by
  have e : ∀ u : Vec K, dot u (vsub c c') + (d - d') = (dot c u + d) - (dot c' u + d') := by
    intro u
    rw [dot_comm, dot_vsub_left _ _ _ (by omega)]
    ring
  constructor
  · intro h x hx
    have h1 := hull_le hu (a := vsub c c') (b := d - d') (t := 0) (fun v hv => by
      rw [dot_comm, h v hv]) hx
    have h2 := hull_le hu (a := vneg (vsub c c')) (b := -(d - d')) (t := 0) (fun v hv => by
      rw [dot_vneg_left, dot_comm]
      linarith [h v hv]) hx
    rw [dot_vneg_left] at h2
    have := e x
    rw [dot_comm] at this
    linarith
  · intro h u hu'
    rw [e]
    linarith [h u (vecMat_unit us hu u hu')]

/-- What a call asks of the decision variables. -/
def PwlCall.Means (S : Pwl K) (p : PwlVal K) : PwlCall K → Prop
  | .derivative i vs A g => DerivativeOn S.xDim vs A g S.eps2 (p.c.getD i []) (p.d.getD i 0) p.s1
  | .positivity i vs _ => PositiveOn S.xDim vs S.xEq S.eps1 (p.c.getD i []) (p.d.getD i 0) p.s2
  | .continuity i j us => AgreeOn S.xDim us (p.c.getD i []) (p.d.getD i 0) (p.c.getD j []) (p.d.getD j 0)

/-- Same parameters. -/
def Pwl.Same (S T : Pwl K) : Prop :=
  T.xDim = S.xDim ∧ T.numModes = S.numModes ∧ T.eps1 = S.eps1 ∧ T.eps2 = S.eps2 ∧ T.xEq = S.xEq

theorem call_feas {S T : Pwl K} {c : PwlCall K} (hx : S.xEq.length = S.xDim) (h : S.call c = some T) :
    Pwl.Same S T ∧ ∀ p, T.Feas p ↔ S.Feas p ∧ PwlCall.Means S p c := by
  have col : ∀ p : PwlVal K, S.Shaped p → ∀ i, i < S.numModes → (p.c.getD i []).length = S.xDim := by
    intro p hp i hi
    exact hp.2.1 _ (getD_mem_of_lt (by rw [hp.1]; exact hi))
  cases c with
  | derivative i vs A g =>
    simp only [Pwl.call, Pwl.addDerivative] at h
    split_ifs at h with hc
    obtain ⟨h1, h2, h3, h4, h5⟩ := hc
    simp only [Option.some.injEq] at h
    subst h
    refine ⟨⟨rfl, rfl, rfl, rfl, rfl⟩, fun p => ?_⟩
    simp only [Pwl.Feas, Pwl.Shaped, Pwl.extend, List.mem_append, List.mem_map, or_imp, forall_and, forall_exists_index, and_imp,
      forall_apply_eq_imp_iff₂, PwlCall.Means, PwlVal.col, and_assoc]
    refine and_congr_right fun a1 => and_congr_right fun a2 => and_congr_right fun a3 => and_congr_right fun _ => ?_
    exact derivative_iff h1 h2 h3 h4 (col p ⟨a1, a2, a3⟩ i h5) _ _ _
  | positivity i vs sg =>
    simp only [Pwl.call, Pwl.addPositivity] at h
    split_ifs at h with hc
    obtain ⟨h1, h2, h3, h5⟩ := hc
    simp only [Option.some.injEq] at h
    subst h
    refine ⟨⟨rfl, rfl, rfl, rfl, rfl⟩, fun p => ?_⟩
    simp only [Pwl.Feas, Pwl.Shaped, Pwl.extend, List.mem_append, List.mem_map, or_imp, forall_and, forall_exists_index, and_imp,
      forall_apply_eq_imp_iff₂, PwlCall.Means, PwlVal.col, and_assoc]
    refine and_congr_right fun a1 => and_congr_right fun a2 => and_congr_right fun a3 => and_congr_right fun _ => ?_
    exact positivity_iff h1 hx (col p ⟨a1, a2, a3⟩ i h5) h2 h3 _ _ _
  | continuity i j us =>
    simp only [Pwl.call, Pwl.addContinuity] at h
    split_ifs at h with hc
    obtain ⟨h1, h2, h3, -⟩ := hc
    simp only [Option.some.injEq] at h
    subst h
    refine ⟨⟨rfl, rfl, rfl, rfl, rfl⟩, fun p => ?_⟩
    simp only [Pwl.Feas, Pwl.Shaped, Pwl.extend, List.mem_append, List.mem_singleton, or_imp, forall_and, forall_eq,
      PwlCall.Means, PwlVal.col, and_assoc]
    refine and_congr_right fun a1 => and_congr_right fun a2 => and_congr_right fun a3 => and_congr_right fun _ => ?_
    exact agree_iff h1 (col p ⟨a1, a2, a3⟩ i h2) (col p ⟨a1, a2, a3⟩ j h3) _ _

theorem calls_feas {S T : Pwl K} {cs : List (PwlCall K)} (hx : S.xEq.length = S.xDim) (h : S.calls cs = some T)
    (p : PwlVal K) : T.Feas p ↔ S.Feas p ∧ ∀ c ∈ cs, PwlCall.Means S p c := by
  induction cs generalizing S with
  | nil =>
    simp only [Pwl.calls, Option.some.injEq] at h
    subst h
    simp
  | cons c cs ih =>
    simp only [Pwl.calls, Option.bind_eq_bind, Option.bind_eq_some_iff] at h
    obtain ⟨U, h1, h2⟩ := h
    obtain ⟨⟨e1, e2, e3, e4, e5⟩, hf⟩ := call_feas hx h1
    rw [ih (by rw [e5, e1]; exact hx) h2, hf p]
    have : ∀ c, PwlCall.Means U p c ↔ PwlCall.Means S p c := by
      intro c
      cases c <;> simp [PwlCall.Means, e1, e3, e4, e5]
    simp only [this, List.mem_cons, forall_eq_or_imp, and_assoc]

/-- C60. After any sequence of calls, the feasible points of the linear program are exactly the (shaped) values with
`s₁, s₂ ≥ 0`, `V(x*) = 0` in the equilibrium mode, and for every call its condition on the whole convex hull of the
vertices: `V̇ + ε₂ V ≤ s₁`, `V - ε₁ |x - x*|₁ ≥ -s₂`, continuity. -/
theorem C60_exact {n modes eqMode : ℕ} {eps1 eps2 : K} {xe : Vec K} {S T : Pwl K} {cs : List (PwlCall K)}
    (h0 : Pwl.new n modes eps1 eps2 xe eqMode = some S) (h : S.calls cs = some T) (p : PwlVal K) :
    T.Feas p ↔ (p.c.length = modes ∧ HasCols p.c n ∧ p.d.length = modes) ∧ 0 ≤ p.s1 ∧ 0 ≤ p.s2 ∧
      dot (p.c.getD eqMode []) xe + p.d.getD eqMode 0 = 0 ∧
      (∀ i vs A g, PwlCall.derivative i vs A g ∈ cs →
        DerivativeOn n vs A g eps2 (p.c.getD i []) (p.d.getD i 0) p.s1) ∧
      (∀ i vs sg, PwlCall.positivity i vs sg ∈ cs →
        PositiveOn n vs xe eps1 (p.c.getD i []) (p.d.getD i 0) p.s2) ∧
      ∀ i j us, PwlCall.continuity i j us ∈ cs →
        AgreeOn n us (p.c.getD i []) (p.d.getD i 0) (p.c.getD j []) (p.d.getD j 0) := by
  rw [Pwl.new] at h0
  split_ifs at h0 with hc
  simp only [Option.some.injEq] at h0
  subst h0
  rw [calls_feas hc.1 h p]
  simp only [Pwl.Feas, Pwl.Shaped, List.mem_cons, List.not_mem_nil, or_false, forall_eq_or_imp, forall_eq, ge_iff_le,
    PwlVal.col, and_assoc]
  refine and_congr_right fun _ => and_congr_right fun _ => and_congr_right fun _ => and_congr_right fun _ =>
    and_congr_right fun _ => and_congr_right fun _ => ?_
  constructor
  · intro hm
    exact ⟨fun i vs A g hh => hm _ hh, fun i vs sg hh => hm _ hh, fun i j us hh => hm _ hh⟩
  · rintro ⟨a, b, c⟩ call hcall
    cases call with
    | derivative i vs A g => exact a i vs A g hcall
    | positivity i vs sg => exact b i vs sg hcall
    | continuity i j us => exact c i j us hcall

/-- C60. A feasible point of cost 0 (for any weight that `solve` accepts) is a Lyapunov function: `V ≥ ε₁ |x - x*|₁`
and `V̇ ≤ -ε₂ V` on the hull of the vertices of every mode. -/
theorem C60_certificate {n modes eqMode : ℕ} {eps1 eps2 : K} {xe : Vec K} {S T : Pwl K} {cs : List (PwlCall K)}
    (h0 : Pwl.new n modes eps1 eps2 xe eqMode = some S) (h : S.calls cs = some T) {p : PwlVal K} (hp : T.Feas p)
    {w : K} (hw : 0 < w) (hw' : w < 1) (hcost : Pwl.cost w p ≤ 0) :
    (∀ i vs A g, PwlCall.derivative i vs A g ∈ cs → ∀ x, InHull n vs x →
      dot (p.c.getD i []) (vadd (matVec A x) g) ≤ -eps2 * (dot (p.c.getD i []) x + p.d.getD i 0)) ∧
      ∀ i vs sg, PwlCall.positivity i vs sg ∈ cs → ∀ x, InHull n vs x →
        eps1 * norm1 (vsub x xe) ≤ dot (p.c.getD i []) x + p.d.getD i 0 := by
  obtain ⟨-, h1, h2, -, h4, h5, -⟩ := (C60_exact h0 h p).1 hp
  have a1 : 0 ≤ (1 - w) * p.s1 := mul_nonneg (by linarith) h1
  have a2 : 0 ≤ w * p.s2 := mul_nonneg hw.le h2
  rw [Pwl.cost] at hcost
  have b1 : p.s1 = 0 := by
    rcases mul_eq_zero.1 (le_antisymm (by linarith : (1 - w) * p.s1 ≤ 0) a1) with h | h
    · linarith
    · exact h
  have b2 : p.s2 = 0 := by
    rcases mul_eq_zero.1 (le_antisymm (by linarith : w * p.s2 ≤ 0) a2) with h | h
    · linarith
    · exact h
  refine ⟨fun i vs A g hm x hx => ?_, fun i vs sg hm x hx => ?_⟩
  · have := h4 i vs A g hm x hx
    linarith
  · have := h5 i vs sg hm x hx
    linarith

/-- Finding. The continuity constraint is refused when the two modes share more than one vertex, the state has more
than one coordinate and these numbers differ (`np.ones` gets the wrong length). -/
theorem C60_continuity_raises (S : Pwl K) (i j : ℕ) (us : Mat K) (h1 : 1 < us.length) (h2 : 1 < S.xDim)
    (h : us.length ≠ S.xDim) : S.addContinuity i j us = none := by
  rw [Pwl.addContinuity, if_neg]
  rintro ⟨-, -, -, h3 | h3 | h3⟩ <;> omega

/-! ## Example -/

/-- `ẋ = -x` on `[-1, 0]` (mode 0) and `ẋ = -2x` on `[0, 1]` (mode 1). -/
def exPwlCalls : List (PwlCall ℚ) :=
  [.derivative 0 [[-1], [0]] [[-1]] [0], .derivative 1 [[0], [1]] [[-2]] [0], .positivity 0 [[-1], [0]] [-1],
    .positivity 1 [[0], [1]] [1], .continuity 0 1 [[0]]]

/-- The calls are accepted, and `V = |x|` is feasible with cost 0 (`ε₁ = ε₂ = 1/2`). -/
theorem exPwl : ∃ S T, Pwl.new 1 2 (1 / 2) (1 / 2) ([0] : Vec ℚ) 0 = some S ∧ S.calls exPwlCalls = some T ∧
    T.Feas ⟨[[-1], [1]], [0, 0], 0, 0⟩ ∧ Pwl.cost (1 / 2) (⟨[[-1], [1]], [0, 0], 0, 0⟩ : PwlVal ℚ) ≤ 0 := by
  obtain ⟨S, hS⟩ : ∃ S, Pwl.new 1 2 (1 / 2) (1 / 2) ([0] : Vec ℚ) 0 = some S := by simp [Pwl.new]
  have e := hS
  simp only [Pwl.new, List.length_singleton, true_and, Nat.ofNat_pos, if_true, Option.some.injEq] at e
  obtain ⟨T, hT⟩ : ∃ T, S.calls exPwlCalls = some T := by
    subst e
    simp [exPwlCalls, Pwl.calls, Pwl.call, Pwl.addDerivative, Pwl.addPositivity, Pwl.addContinuity, Pwl.extend, HasCols,
      signsFit]
  refine ⟨S, T, hS, hT, ?_, by norm_num [Pwl.cost]⟩
  subst e
  simp [exPwlCalls, Pwl.calls, Pwl.call, Pwl.addDerivative, Pwl.addPositivity, Pwl.addContinuity, Pwl.extend, HasCols,
      signsFit] at hT
  subst hT
  norm_num [Pwl.Feas, Pwl.Shaped, HasCols, PwlVal.col, dot, vadd, vsub, vsmul, matVec, addEye, eye, eyeRow]

end NNL.Props
