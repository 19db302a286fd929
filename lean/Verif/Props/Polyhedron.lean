import Verif.Model.Polyhedron
import Mathlib.Analysis.InnerProductSpace.Projection.Minimal
import Mathlib.Analysis.Normed.Module.FiniteDimension

/-!
# C98: boundedness of polyhedra and projection
-/

namespace NNL.Props

open NNL.Model Filter Topology

variable {m n : ℕ}

/-- The solver reports `infeasible` exactly for the programs without solution. -/
def ExactStatus (infeasible : Matrix (Fin m) (Fin n) ℝ → Fin n → ℝ → Bool) : Prop :=
  ∀ P i c, infeasible P i c = true ↔ ¬ ∃ x : Fin n → ℝ, P.mulVec x ≤ 0 ∧ x i = c

/-- C98. `is_polyhedron_bounded` is true exactly if zero is the only solution of `P x <= 0`. -/
theorem C98_cone {infeasible : Matrix (Fin m) (Fin n) ℝ → Fin n → ℝ → Bool} (h : ExactStatus infeasible)
    (P : Matrix (Fin m) (Fin n) ℝ) :
    isPolyhedronBounded infeasible P = true ↔ ∀ x : Fin n → ℝ, P.mulVec x ≤ 0 → x = 0 := by
  simp only [isPolyhedronBounded, List.all_eq_true, List.mem_finRange, true_imp_iff, Bool.and_eq_true, h P]
  constructor
  · intro H x hx
    by_contra hne
    obtain ⟨i, hi⟩ := Function.ne_iff.1 hne
    have hi : x i ≠ 0 := hi
    have hs : P.mulVec (|x i|⁻¹ • x) ≤ 0 := by
      rw [Matrix.mulVec_smul]
      intro j
      exact mul_nonpos_of_nonneg_of_nonpos (inv_nonneg.2 (abs_nonneg _)) (hx j)
    rcases lt_or_gt_of_ne hi with hneg | hpos
    · refine (H i).2 ⟨_, hs, ?_⟩
      rw [Pi.smul_apply, smul_eq_mul, abs_of_neg hneg, inv_neg, neg_mul, inv_mul_cancel₀ hi]
    · refine (H i).1 ⟨_, hs, ?_⟩
      rw [Pi.smul_apply, smul_eq_mul, abs_of_pos hpos, inv_mul_cancel₀ hi]
  · intro H i
    constructor <;> rintro ⟨x, hx, hxi⟩ <;> simp [H x hx] at hxi

/-- C98. For a right-hand side with a solution, `is_polyhedron_bounded` is true exactly if the polyhedron `P x <= q` is bounded. -/
theorem C98_bounded {infeasible : Matrix (Fin m) (Fin n) ℝ → Fin n → ℝ → Bool} (h : ExactStatus infeasible)
    (P : Matrix (Fin m) (Fin n) ℝ) (q : Fin m → ℝ) (hne : ∃ x : Fin n → ℝ, P.mulVec x ≤ q) :
    isPolyhedronBounded infeasible P = true ↔ Bornology.IsBounded {x : Fin n → ℝ | P.mulVec x ≤ q} := by
  rw [C98_cone h]
  constructor
  · intro H
    by_contra hb
    -- a sequence of points of growing norm
    have hseq : ∀ k : ℕ, ∃ x : Fin n → ℝ, P.mulVec x ≤ q ∧ (k : ℝ) + 1 < ‖x‖ := by
      intro k
      by_contra hk
      push Not at hk
      exact hb (isBounded_iff_forall_norm_le.2 ⟨k + 1, fun x hx => hk x hx⟩)
    choose x hx hn using hseq
    have hpos : ∀ k, 0 < ‖x k‖ := fun k => (by positivity : (0 : ℝ) < k + 1).trans (hn k)
    have hd : ∀ k, (‖x k‖⁻¹ • x k) ∈ Metric.sphere (0 : Fin n → ℝ) 1 := fun k => by
      rw [mem_sphere_zero_iff_norm, norm_smul, norm_inv, norm_norm, inv_mul_cancel₀ (hpos k).ne']
    obtain ⟨d, hdS, φ, hφ, hlim⟩ := (isCompact_sphere (0 : Fin n → ℝ) 1).tendsto_subseq hd
    have hd0 : d = 0 := by
      refine H d fun j => ?_
      have hc : Continuous fun v : Fin n → ℝ => P.mulVec v j := by
        have : Continuous fun v : Fin n → ℝ => P.mulVec v := by fun_prop
        exact (continuous_apply j).comp this
      have h1 := (hc.tendsto d).comp hlim
      have hinv : Tendsto (fun k => ‖x (φ k)‖⁻¹) atTop (𝓝 0) := by
        refine tendsto_inv_atTop_zero.comp (tendsto_atTop_mono (fun k => (hn (φ k)).le) ?_)
        exact tendsto_atTop_add_const_right _ _ (tendsto_natCast_atTop_atTop.comp hφ.tendsto_atTop)
      have h2 : Tendsto (fun k => ‖x (φ k)‖⁻¹ * q j) atTop (𝓝 0) := by simpa using hinv.mul_const (q j)
      refine le_of_tendsto_of_tendsto' h1 h2 fun k => ?_
      simp only [Function.comp, Matrix.mulVec_smul, Pi.smul_apply, smul_eq_mul]
      exact mul_le_mul_of_nonneg_left (hx (φ k) j) (inv_nonneg.2 (norm_nonneg _))
    rw [hd0] at hdS
    simp at hdS
  · intro hb x hx
    obtain ⟨x0, hx0⟩ := hne
    obtain ⟨C, hC⟩ := isBounded_iff_forall_norm_le.1 hb
    by_contra hxn
    have hpos : 0 < ‖x‖ := norm_pos_iff.2 hxn
    have hC0 : 0 ≤ C := (norm_nonneg _).trans (hC x0 hx0)
    have hray : ∀ t : ℝ, 0 ≤ t → ‖x0 + t • x‖ ≤ C := by
      intro t ht
      refine hC _ ?_
      rw [Set.mem_ofPred_eq, Matrix.mulVec_add, Matrix.mulVec_smul]
      intro j
      have h1 := mul_nonpos_of_nonneg_of_nonpos ht (hx j)
      have h2 := hx0 j
      simp only [Pi.add_apply, Pi.smul_apply, smul_eq_mul]
      have h1 : t * P.mulVec x j ≤ 0 := h1
      linarith
    have h1 := hray ((2 * C + 1) / ‖x‖) (by positivity)
    have h2 : ‖((2 * C + 1) / ‖x‖) • x‖ = 2 * C + 1 := by
      rw [norm_smul, Real.norm_of_nonneg (by positivity), div_mul_cancel₀ _ hpos.ne']
    have h3 : ‖((2 * C + 1) / ‖x‖) • x‖ ≤ ‖x0 + ((2 * C + 1) / ‖x‖) • x‖ + ‖x0‖ := by
      have := norm_sub_le (x0 + ((2 * C + 1) / ‖x‖) • x) x0
      simpa using this
    have h4 := hC x0 hx0
    linarith

/-- The solver returns a nearest point of the polyhedron if there is a point in it. -/
def NearestPoint (solve : Matrix (Fin m) (Fin n) ℝ → (Fin m → ℝ) → EuclideanSpace ℝ (Fin n) → Option (EuclideanSpace ℝ (Fin n))) :
    Prop :=
  ∀ A b x, (∃ z : EuclideanSpace ℝ (Fin n), A.mulVec z ≤ b) → ∃ y, solve A b x = some y ∧ A.mulVec y ≤ b ∧
    ∀ z : EuclideanSpace ℝ (Fin n), A.mulVec z ≤ b → ‖x - y‖ ≤ ‖x - z‖

/-- The nearest point makes an obtuse angle with the points of the polyhedron. -/
theorem project_inner {A : Matrix (Fin m) (Fin n) ℝ} {b : Fin m → ℝ} {x y : EuclideanSpace ℝ (Fin n)} (hy : A.mulVec y ≤ b)
    (hmin : ∀ z : EuclideanSpace ℝ (Fin n), A.mulVec z ≤ b → ‖x - y‖ ≤ ‖x - z‖) (z : EuclideanSpace ℝ (Fin n))
    (hz : A.mulVec z ≤ b) : inner ℝ (x - y) (z - y) ≤ 0 := by
  have hconv : Convex ℝ {z : EuclideanSpace ℝ (Fin n) | A.mulVec z ≤ b} := by
    intro u hu v hv s t hs ht hst j
    have h1 := mul_le_mul_of_nonneg_left (hu j) hs
    have h2 := mul_le_mul_of_nonneg_left (hv j) ht
    have e : A.mulVec (s • u + t • v : EuclideanSpace ℝ (Fin n)) j = s * A.mulVec u j + t * A.mulVec v j := by
      change A.mulVec (s • (u : Fin n → ℝ) + t • (v : Fin n → ℝ)) j = _
      rw [Matrix.mulVec_add, Matrix.mulVec_smul, Matrix.mulVec_smul]
      rfl
    rw [e]
    have : b j = s * b j + t * b j := by rw [← add_mul, hst, one_mul]
    linarith
  have : Nonempty {z : EuclideanSpace ℝ (Fin n) | A.mulVec z ≤ b} := ⟨⟨y, hy⟩⟩
  refine (norm_eq_iInf_iff_real_inner_le_zero hconv hy).1 (le_antisymm (le_ciInf fun w => hmin w w.2) ?_) z hz
  exact ciInf_le ⟨0, by rintro _ ⟨w, rfl⟩; exact norm_nonneg _⟩ (⟨y, hy⟩ : {z : EuclideanSpace ℝ (Fin n) | A.mulVec z ≤ b})

/-- C98. `project_to_polyhedron` returns the point of the polyhedron that is nearer to `x` than all others, `x` itself if it is in the
polyhedron. -/
theorem C98_project {solve} (h : NearestPoint (m := m) (n := n) solve) (A : Matrix (Fin m) (Fin n) ℝ) (b : Fin m → ℝ)
    (x : EuclideanSpace ℝ (Fin n)) (hne : ∃ z : EuclideanSpace ℝ (Fin n), A.mulVec z ≤ b) :
    ∃ y, projectToPolyhedron solve A b x = some y ∧ A.mulVec y ≤ b ∧ (A.mulVec x ≤ b → y = x) ∧
      ∀ z : EuclideanSpace ℝ (Fin n), A.mulVec z ≤ b → z ≠ y → ‖x - y‖ < ‖x - z‖ := by
  by_cases hx : A.mulVec x ≤ b
  · refine ⟨x, by rw [projectToPolyhedron, if_pos hx], hx, fun _ => rfl, fun z _ hz => ?_⟩
    rw [sub_self, norm_zero]
    exact norm_pos_iff.2 (sub_ne_zero.2 hz.symm)
  · obtain ⟨y, h1, h2, h3⟩ := h A b x hne
    refine ⟨y, by rw [projectToPolyhedron, if_neg hx, h1], h2, fun h => absurd h hx, fun z hz hzy => ?_⟩
    have hin := project_inner h2 h3 z hz
    have e : ‖x - z‖ ^ 2 = ‖x - y‖ ^ 2 - 2 * inner ℝ (x - y) (z - y) + ‖z - y‖ ^ 2 := by
      rw [← norm_sub_sq_real]
      congr 2
      abel
    have hp : 0 < ‖z - y‖ := norm_pos_iff.2 (sub_ne_zero.2 hzy)
    have : ‖x - y‖ ^ 2 < ‖x - z‖ ^ 2 := by
      rw [e]
      have := pow_pos hp 2
      linarith
    exact lt_of_pow_lt_pow_left₀ 2 (norm_nonneg _) this

/-- C98. Projection does not increase distances. -/
theorem C98_nonexpansive {solve} (h : NearestPoint (m := m) (n := n) solve) (A : Matrix (Fin m) (Fin n) ℝ) (b : Fin m → ℝ)
    (hne : ∃ z : EuclideanSpace ℝ (Fin n), A.mulVec z ≤ b) (x1 x2 y1 y2 : EuclideanSpace ℝ (Fin n))
    (h1 : projectToPolyhedron solve A b x1 = some y1) (h2 : projectToPolyhedron solve A b x2 = some y2) :
    ‖y1 - y2‖ ≤ ‖x1 - x2‖ := by
  have key : ∀ x y, projectToPolyhedron solve A b x = some y → A.mulVec y ≤ b ∧
      ∀ z : EuclideanSpace ℝ (Fin n), A.mulVec z ≤ b → inner ℝ (x - y) (z - y) ≤ 0 := by
    intro x y hxy
    obtain ⟨y', e1, e2, -, e4⟩ := C98_project h A b x hne
    rw [hxy] at e1
    obtain rfl := Option.some.inj e1
    refine ⟨e2, fun z hz => project_inner e2 (fun z hz => ?_) z hz⟩
    rcases eq_or_ne z y with rfl | hzy
    · exact le_rfl
    · exact (e4 z hz hzy).le
  obtain ⟨f1, g1⟩ := key x1 y1 h1
  obtain ⟨f2, g2⟩ := key x2 y2 h2
  have a1 := g1 y2 f2
  have a2 := g2 y1 f1
  have e : inner ℝ (x1 - x2) (y1 - y2) = ‖y1 - y2‖ ^ 2 - inner ℝ (x1 - y1) (y2 - y1) - inner ℝ (x2 - y2) (y1 - y2) := by
    rw [← real_inner_self_eq_norm_sq]
    have : y2 - y1 = -(y1 - y2) := by abel
    rw [this, inner_neg_right]
    have e1 : x1 - x2 = (y1 - y2) + (x1 - y1) - (x2 - y2) := by abel
    conv_lhs => rw [e1]
    rw [inner_sub_left, inner_add_left]
    ring
  have hcs := real_inner_le_norm (x1 - x2) (y1 - y2)
  rcases (norm_nonneg (y1 - y2)).eq_or_lt with h0 | h0
  · rw [← h0]
    exact norm_nonneg _
  · have : ‖y1 - y2‖ * ‖y1 - y2‖ ≤ ‖x1 - x2‖ * ‖y1 - y2‖ := by nlinarith
    exact le_of_mul_le_mul_right this h0

namespace PolyhedronExample

open Classical in
/-- A solver with the exact status. -/
noncomputable def status (P : Matrix (Fin m) (Fin n) ℝ) (i : Fin n) (c : ℝ) : Bool :=
  decide (¬ ∃ x : Fin n → ℝ, P.mulVec x ≤ 0 ∧ x i = c)

open Classical in
/-- Its status is exact. -/
theorem status_exact : ExactStatus (status (m := m) (n := n)) := fun P i c => by
  unfold status
  exact decide_eq_true_iff

/-- The rows of the interval `-1 <= x <= 1`. -/
def interval : Matrix (Fin 2) (Fin 1) ℝ := !![1; -1]

/-- The row of the half line `x <= 1`. -/
def halfLine : Matrix (Fin 1) (Fin 1) ℝ := !![1]

/-- The interval is found bounded. -/
example : isPolyhedronBounded status interval = true := by
  refine (C98_cone status_exact _).2 fun x hx => ?_
  have h0 := hx 0
  have h1 := hx 1
  simp [interval, Matrix.mulVec, dotProduct] at h0 h1
  ext i
  fin_cases i
  exact le_antisymm h0 h1

/-- The half line is not. -/
example : isPolyhedronBounded status halfLine = false := by
  rw [Bool.eq_false_iff]
  intro h
  have := (C98_cone status_exact _).1 h (fun _ => -1) (by
    intro j
    fin_cases j
    simp [halfLine, Matrix.mulVec, dotProduct])
  have := congrFun this 0
  norm_num at this

/-- The set of the interval's points is bounded. -/
example (h : isPolyhedronBounded status interval = true) :
    Bornology.IsBounded {x : Fin 1 → ℝ | interval.mulVec x ≤ fun _ => 1} :=
  (C98_bounded status_exact interval (fun _ => 1) ⟨0, by rw [Matrix.mulVec_zero]; intro j; simp⟩).1 h

end PolyhedronExample

open Classical in
/-- Every polyhedron with a point in it has a nearest point, so a solver as in `NearestPoint` exists. -/
theorem nearestPoint_exists : ∃ solve, NearestPoint (m := m) (n := n) solve := by
  have key : ∀ (A : Matrix (Fin m) (Fin n) ℝ) (b : Fin m → ℝ) (x : EuclideanSpace ℝ (Fin n)),
      (∃ z : EuclideanSpace ℝ (Fin n), A.mulVec z ≤ b) → ∃ y : EuclideanSpace ℝ (Fin n), A.mulVec y ≤ b ∧
        ∀ z : EuclideanSpace ℝ (Fin n), A.mulVec z ≤ b → ‖x - y‖ ≤ ‖x - z‖ := by
    intro A b x hne
    have hcont : Continuous fun z : EuclideanSpace ℝ (Fin n) => A.mulVec (z : Fin n → ℝ) := by fun_prop
    have hcl : IsClosed {z : EuclideanSpace ℝ (Fin n) | A.mulVec z ≤ b} := isClosed_le hcont continuous_const
    obtain ⟨y, hy, hd⟩ := hcl.exists_infDist_eq_dist hne x
    refine ⟨y, hy, fun z hz => ?_⟩
    rw [← dist_eq_norm, ← dist_eq_norm, ← hd]
    exact Metric.infDist_le_dist_of_mem hz
  refine ⟨fun A b x => if h : ∃ z : EuclideanSpace ℝ (Fin n), A.mulVec z ≤ b then some (key A b x h).choose else none, ?_⟩
  intro A b x h
  exact ⟨_, dif_pos h, (key A b x h).choose_spec⟩

/-- Projection onto a half line that does not contain the point. -/
example : ∃ (solve : _) (y : EuclideanSpace ℝ (Fin 1)),
    projectToPolyhedron solve PolyhedronExample.halfLine (fun _ => 1) (WithLp.toLp 2 fun _ => 3) = some y ∧
      ¬ PolyhedronExample.halfLine.mulVec (fun _ => (3 : ℝ)) ≤ (fun _ => (1 : ℝ)) ∧
      PolyhedronExample.halfLine.mulVec y ≤ (fun _ => (1 : ℝ)) := by
  obtain ⟨solve, h⟩ := nearestPoint_exists (m := 1) (n := 1)
  obtain ⟨y, h1, h2, -⟩ := C98_project h PolyhedronExample.halfLine (fun _ => 1) (WithLp.toLp 2 fun _ => 3)
    ⟨0, by intro j; fin_cases j; simp [PolyhedronExample.halfLine, Matrix.mulVec, dotProduct]⟩
  refine ⟨solve, y, h1, fun h => ?_, h2⟩
  have := h 0
  norm_num [PolyhedronExample.halfLine, Matrix.mulVec, dotProduct] at this

end NNL.Props
