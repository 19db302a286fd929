import Verif.Props.Lyapunov
import Verif.Model.LyapStrengthen
import Mathlib.Topology.Algebra.InfiniteSum.Real
import Mathlib.Analysis.SpecificLimits.Basic

/-!
# C34, C35: what non-positive optima say about trajectories; strengthening keeps the verdict
-/

set_option linter.unusedSectionVars false

namespace NNL.Props

open NNL NNL.Model NNL.Spec

variable {K : Type*} [Field K] [LinearOrder K] [IsStrictOrderedRing K]

theorem norm1_nonneg (x : Vec K) : 0 ≤ norm1 x := by
  unfold norm1
  apply List.sum_nonneg
  intro a ha
  simp only [List.mem_map] at ha
  obtain ⟨b, -, rfl⟩ := ha
  exact abs_nonneg b

theorem err_nonneg (R : Mat K) (xe x : Vec K) : 0 ≤ err R xe x := norm1_nonneg _

/-! ### C34 -/

/-- The optimum of a maximisation program is at most zero. -/
def OptNonpos (m : Mip K) : Prop := ∀ v, m.Feas v → m.objVal v ≤ 0

/-- **C34**, exponential convergence: when both optima are at most zero, every trajectory that stays in the
box satisfies `ε₁ |R (x_n - x*)|_1 ≤ (1 - ε₂)^n V(x_0)`. -/
theorem C34_exponential (L : Lyap K) (hL : L.NetOk) {R : Option (Tensor2 K)} {R' : Mat K} {xe : Vec K}
    (h : L.EqOk R R' xe) (lam eps1 eps2 : K) {sys : SysConstr K} {Dom Rel : Vec K → Vec K → Prop}
    (hsys : SysEnc sys L.dim Dom Rel) {m : Mip K} {xv : List ℕ} {D : DerivRet K}
    (hp : L.positivity xe lam eps1 R = some (m, xv)) (hpo : OptNonpos m)
    (hd : L.derivative sys xe lam eps2 .expLower R none none .binary = some D) (hdo : OptNonpos D.m)
    (he : eps2 ≤ 1) (x : ℕ → Vec K) (hx : Traj Dom x) (hbox : ∀ n, InBox L.xLo L.xUp (x n)) (n : ℕ) :
    eps1 * err R' xe (x n) ≤ (1 - eps2) ^ n * lyapV L.net R' lam xe (x 0) := by
  have hpos := (C32_verdict L hL h lam eps1 hp).1 hpo
  obtain ⟨D', e, -, -, -, s, c⟩ := C33_program L hL h lam eps2 .expLower none none hsys
  rw [e] at hd
  simp only [Option.some.injEq] at hd
  subst hd
  refine (hpos _ (hbox n)).trans ?_
  induction n with
  | zero => simp
  | succ n ih =>
    obtain ⟨v, hv, e1, e2⟩ := c (x n) (x (n + 1)) (hbox n) (hbox (n + 1)) (hx n) (by simp [Between])
    have hob := hdo v hv
    rw [(s v hv).2.2.2.2.2.2, e1, e2] at hob
    simp only [decrease] at hob
    have h1 : (1 - eps2) * lyapV L.net R' lam xe (x n)
        ≤ (1 - eps2) * ((1 - eps2) ^ n * lyapV L.net R' lam xe (x 0)) :=
      mul_le_mul_of_nonneg_left ih (by linarith)
    rw [pow_succ]
    linarith [mul_comm ((1 - eps2) ^ n) (1 - eps2),
      mul_assoc (1 - eps2) ((1 - eps2) ^ n) (lyapV L.net R' lam xe (x 0))]

/-- **C34** with an upper bound on `V` (`lyapunov_upper`): the same for trajectories that start in the
sub-level set. -/
theorem C34_exponential_sublevel (L : Lyap K) (hL : L.NetOk) {R : Option (Tensor2 K)} {R' : Mat K}
    {xe : Vec K} (h : L.EqOk R R' xe) (lam eps1 eps2 rho : K) {sys : SysConstr K}
    {Dom Rel : Vec K → Vec K → Prop}
    (hsys : SysEnc sys L.dim Dom Rel) {m : Mip K} {xv : List ℕ} {D : DerivRet K}
    (hp : L.positivity xe lam eps1 R = some (m, xv)) (hpo : OptNonpos m)
    (hd : L.derivative sys xe lam eps2 .expLower R none (some rho) .binary = some D)
    (hdo : OptNonpos D.m) (he0 : 0 ≤ eps2) (he : eps2 ≤ 1) (he1 : 0 ≤ eps1) (x : ℕ → Vec K)
    (hx : Traj Dom x) (hbox : ∀ n, InBox L.xLo L.xUp (x n)) (h0 : lyapV L.net R' lam xe (x 0) ≤ rho)
    (n : ℕ) :
    lyapV L.net R' lam xe (x n) ≤ rho ∧
      eps1 * err R' xe (x n) ≤ (1 - eps2) ^ n * lyapV L.net R' lam xe (x 0) := by
  have hpos := (C32_verdict L hL h lam eps1 hp).1 hpo
  obtain ⟨D', e, -, -, -, s, c⟩ := C33_program L hL h lam eps2 .expLower none (some rho) hsys
  rw [e] at hd
  simp only [Option.some.injEq] at hd
  subst hd
  suffices hs : lyapV L.net R' lam xe (x n) ≤ rho ∧
      lyapV L.net R' lam xe (x n) ≤ (1 - eps2) ^ n * lyapV L.net R' lam xe (x 0) from
    ⟨hs.1, (hpos _ (hbox n)).trans hs.2⟩
  induction n with
  | zero => simpa using h0
  | succ n ih =>
    obtain ⟨v, hv, e1, e2⟩ := c (x n) (x (n + 1)) (hbox n) (hbox (n + 1)) (hx n)
      ⟨by simp, by rintro _ ⟨⟩; exact ih.1⟩
    have hob := hdo v hv
    rw [(s v hv).2.2.2.2.2.2, e1, e2] at hob
    simp only [decrease] at hob
    have h1 : (1 - eps2) * lyapV L.net R' lam xe (x n)
        ≤ (1 - eps2) * ((1 - eps2) ^ n * lyapV L.net R' lam xe (x 0)) :=
      mul_le_mul_of_nonneg_left ih.2 (by linarith)
    have hv0 : 0 ≤ lyapV L.net R' lam xe (x n) :=
      (mul_nonneg he1 (err_nonneg _ _ _)).trans (hpos _ (hbox n))
    have h2 := mul_nonneg he0 hv0
    constructor
    · linarith [ih.1]
    · rw [pow_succ]
      linarith [mul_comm ((1 - eps2) ^ n) (1 - eps2),
        mul_assoc (1 - eps2) ((1 - eps2) ^ n) (lyapV L.net R' lam xe (x 0))]

/-- **C34**, the other direction (`ExpUpper`): the value does not decrease faster than the rate. -/
theorem C34_not_faster (L : Lyap K) (hL : L.NetOk) {R : Option (Tensor2 K)} {R' : Mat K} {xe : Vec K}
    (h : L.EqOk R R' xe) (lam eps2 : K) {sys : SysConstr K} {Dom Rel : Vec K → Vec K → Prop}
    (hsys : SysEnc sys L.dim Dom Rel) {D : DerivRet K}
    (hd : L.derivative sys xe lam eps2 .expUpper R none none .binary = some D) (hdo : OptNonpos D.m)
    (he : eps2 ≤ 1) (x : ℕ → Vec K) (hx : Traj Dom x) (hbox : ∀ n, InBox L.xLo L.xUp (x n)) (n : ℕ) :
    (1 - eps2) ^ n * lyapV L.net R' lam xe (x 0) ≤ lyapV L.net R' lam xe (x n) := by
  obtain ⟨D', e, -, -, -, s, c⟩ := C33_program L hL h lam eps2 .expUpper none none hsys
  rw [e] at hd
  simp only [Option.some.injEq] at hd
  subst hd
  induction n with
  | zero => simp
  | succ n ih =>
    obtain ⟨v, hv, e1, e2⟩ := c (x n) (x (n + 1)) (hbox n) (hbox (n + 1)) (hx n) (by simp [Between])
    have hob := hdo v hv
    rw [(s v hv).2.2.2.2.2.2, e1, e2] at hob
    simp only [decrease] at hob
    have h1 : (1 - eps2) * ((1 - eps2) ^ n * lyapV L.net R' lam xe (x 0))
        ≤ (1 - eps2) * lyapV L.net R' lam xe (x n) :=
      mul_le_mul_of_nonneg_left ih (by linarith)
    rw [pow_succ]
    linarith [mul_comm ((1 - eps2) ^ n) (1 - eps2),
      mul_assoc (1 - eps2) ((1 - eps2) ^ n) (lyapV L.net R' lam xe (x 0))]

/-- **C34**, asymptotic convergence: the sum of the errors along the trajectory is bounded by `V(x_0)`. -/
theorem C34_asymptotic_sum (L : Lyap K) (hL : L.NetOk) {R : Option (Tensor2 K)} {R' : Mat K} {xe : Vec K}
    (h : L.EqOk R R' xe) (lam eps1 eps2 : K) {sys : SysConstr K} {Dom Rel : Vec K → Vec K → Prop}
    (hsys : SysEnc sys L.dim Dom Rel) {m : Mip K} {xv : List ℕ} {D : DerivRet K}
    (hp : L.positivity xe lam eps1 R = some (m, xv)) (hpo : OptNonpos m)
    (hd : L.derivative sys xe lam eps2 .asymp R none none .binary = some D) (hdo : OptNonpos D.m)
    (he : 0 ≤ eps1) (x : ℕ → Vec K) (hx : Traj Dom x) (hbox : ∀ n, InBox L.xLo L.xUp (x n)) (n : ℕ) :
    eps2 * ∑ k ∈ Finset.range n, err R' xe (x k) ≤ lyapV L.net R' lam xe (x 0) := by
  have hpos := (C32_verdict L hL h lam eps1 hp).1 hpo
  obtain ⟨D', e, -, -, -, s, c⟩ := C33_program L hL h lam eps2 .asymp none none hsys
  rw [e] at hd
  simp only [Option.some.injEq] at hd
  subst hd
  have key : ∀ n, eps2 * ∑ k ∈ Finset.range n, err R' xe (x k) + lyapV L.net R' lam xe (x n)
      ≤ lyapV L.net R' lam xe (x 0) := by
    intro n
    induction n with
    | zero => simp
    | succ n ih =>
      obtain ⟨v, hv, e1, e2⟩ := c (x n) (x (n + 1)) (hbox n) (hbox (n + 1)) (hx n) (by simp [Between])
      have hob := hdo v hv
      rw [(s v hv).2.2.2.2.2.2, e1, e2] at hob
      simp only [decrease] at hob
      rw [Finset.sum_range_succ, mul_add]
      linarith
  have h0 := (mul_nonneg he (err_nonneg R' xe (x n))).trans (hpos _ (hbox n))
  linarith [key n]

/-- **C34**, asymptotic convergence over the reals: the errors are summable and tend to zero. -/
theorem C34_asymptotic_tendsto (L : Lyap ℝ) (hL : L.NetOk) {R : Option (Tensor2 ℝ)} {R' : Mat ℝ}
    {xe : Vec ℝ} (h : L.EqOk R R' xe) (lam eps1 eps2 : ℝ) {sys : SysConstr ℝ}
    {Dom Rel : Vec ℝ → Vec ℝ → Prop}
    (hsys : SysEnc sys L.dim Dom Rel) {m : Mip ℝ} {xv : List ℕ} {D : DerivRet ℝ}
    (hp : L.positivity xe lam eps1 R = some (m, xv)) (hpo : OptNonpos m)
    (hd : L.derivative sys xe lam eps2 .asymp R none none .binary = some D) (hdo : OptNonpos D.m)
    (he : 0 ≤ eps1) (he2 : 0 < eps2) (x : ℕ → Vec ℝ) (hx : Traj Dom x)
    (hbox : ∀ n, InBox L.xLo L.xUp (x n)) :
    Summable (fun n => err R' xe (x n)) ∧
      Filter.Tendsto (fun n => err R' xe (x n)) Filter.atTop (nhds 0) := by
  have hs : Summable (fun n => err R' xe (x n)) := by
    refine summable_of_sum_range_le (c := lyapV L.net R' lam xe (x 0) / eps2)
      (fun n => err_nonneg _ _ _) fun n => ?_
    rw [le_div_iff₀ he2, mul_comm]
    exact C34_asymptotic_sum L hL h lam eps1 eps2 hsys hp hpo hd hdo he x hx hbox n
  exact ⟨hs, hs.tendsto_atTop_zero⟩

/-- **C34**, exponential convergence over the reals: the errors tend to zero. -/
theorem C34_exponential_tendsto (L : Lyap ℝ) (hL : L.NetOk) {R : Option (Tensor2 ℝ)} {R' : Mat ℝ}
    {xe : Vec ℝ} (h : L.EqOk R R' xe) (lam eps1 eps2 : ℝ) {sys : SysConstr ℝ}
    {Dom Rel : Vec ℝ → Vec ℝ → Prop}
    (hsys : SysEnc sys L.dim Dom Rel) {m : Mip ℝ} {xv : List ℕ} {D : DerivRet ℝ}
    (hp : L.positivity xe lam eps1 R = some (m, xv)) (hpo : OptNonpos m)
    (hd : L.derivative sys xe lam eps2 .expLower R none none .binary = some D) (hdo : OptNonpos D.m)
    (he : 0 < eps1) (he2 : 0 < eps2) (he3 : eps2 ≤ 1) (x : ℕ → Vec ℝ) (hx : Traj Dom x)
    (hbox : ∀ n, InBox L.xLo L.xUp (x n)) :
    Filter.Tendsto (fun n => err R' xe (x n)) Filter.atTop (nhds 0) := by
  have hb : ∀ n, err R' xe (x n) ≤ (1 - eps2) ^ n * (lyapV L.net R' lam xe (x 0) / eps1) := by
    intro n
    have := C34_exponential L hL h lam eps1 eps2 hsys hp hpo hd hdo he3 x hx hbox n
    rw [← mul_div_assoc, le_div_iff₀ he, mul_comm]
    exact this
  have ht : Filter.Tendsto (fun n : ℕ => (1 - eps2) ^ n * (lyapV L.net R' lam xe (x 0) / eps1))
      Filter.atTop (nhds 0) := by
    have := (tendsto_pow_atTop_nhds_zero_of_lt_one (by linarith : 0 ≤ 1 - eps2)
      (by linarith : 1 - eps2 < 1)).mul_const (lyapV L.net R' lam xe (x 0) / eps1)
    simpa using this
  exact squeeze_zero (fun n => err_nonneg _ _ _) hb ht

theorem abs_dot_le (p y : Vec K) : |dot p y| ≤ norm1 p * norm1 y := by
  induction p generalizing y with
  | nil => simp [norm1]
  | cons a p ih => cases y with
    | nil => simp [norm1]
    | cons b y =>
      have h1 := ih y
      have h2 : 0 ≤ norm1 p := norm1_nonneg p
      have h3 : 0 ≤ norm1 y := norm1_nonneg y
      have e1 : norm1 (a :: p) = |a| + norm1 p := by simp [norm1]
      have e2 : norm1 (b :: y) = |b| + norm1 y := by simp [norm1]
      rw [dot_cons, e1, e2]
      calc |a * b + dot p y| ≤ |a * b| + |dot p y| := abs_add_le _ _
        _ ≤ |a| * |b| + norm1 p * norm1 y := by rw [abs_mul]; linarith
        _ ≤ (|a| + norm1 p) * (|b| + norm1 y) := by
          nlinarith [mul_nonneg (abs_nonneg a) h3, mul_nonneg h2 (abs_nonneg b)]

/-- **C34**: with a left inverse of `R` (`R` of full column rank) the error controls every coordinate of
the state. -/
theorem C34_error_controls_state (R P : Mat K) (n : ℕ) (hP : P.length = n)
    (hinv : ∀ y : Vec K, y.length = n → matVec P (matVec R y) = y) (xe x : Vec K) (hxe : xe.length = n)
    (hx : x.length = n) (i : ℕ) (hi : i < n) :
    |x.getD i 0 - xe.getD i 0| ≤ norm1 (P.getD i []) * err R xe x := by
  have e : (vsub x xe).getD i 0 = dot (P.getD i []) (matVec R (vsub x xe)) := by
    conv_lhs => rw [← hinv (vsub x xe) (by simp [hx, hxe])]
    simp [matVec, List.getD, hP, hi]
  rw [getD_vsub _ _ _ (by omega)] at e
  rw [e]
  exact abs_dot_le _ _

/-- **C34**: so the states converge to the equilibrium, coordinate by coordinate. -/
theorem C34_states_converge (R P : Mat ℝ) (n : ℕ) (hP : P.length = n)
    (hinv : ∀ y : Vec ℝ, y.length = n → matVec P (matVec R y) = y) (xe : Vec ℝ) (hxe : xe.length = n)
    (x : ℕ → Vec ℝ) (hx : ∀ k, (x k).length = n)
    (ht : Filter.Tendsto (fun k => err R xe (x k)) Filter.atTop (nhds 0)) (i : ℕ) (hi : i < n) :
    Filter.Tendsto (fun k => (x k).getD i 0) Filter.atTop (nhds (xe.getD i 0)) := by
  rw [tendsto_iff_dist_tendsto_zero]
  have h2 : Filter.Tendsto (fun k => norm1 (P.getD i []) * err R xe (x k)) Filter.atTop (nhds 0) := by
    have := ht.const_mul (norm1 (P.getD i []))
    simpa using this
  refine squeeze_zero (fun k => dist_nonneg) (fun k => ?_) h2
  rw [Real.dist_eq]
  exact C34_error_controls_state R P n hP hinv xe (x k) hxe (hx k) i hi

/-! ### C35 -/

theorem objCon_ok {m : Mip K} (hw : m.WF) (v : ℕ → K) (o : MilpObj K) (ho : m.obj = some o)
    (hl : o.c_r.length = m.r.length) : m.objCon.Ok v ↔ 0 ≤ m.objVal v := by
  unfold Mip.objCon Mip.objVal GCon.Ok
  rw [ho]
  simp only [Sense.Rel, List.map_append]
  rw [dot_append _ _ _ _ (by simp [hl])]
  constructor <;> intro h <;> linarith

/-- The solver's answer INFEASIBLE is right. -/
def Truthful (infeasible : Mip K → Bool) : Prop := ∀ p, infeasible p = true → ∀ v, ¬ p.Feas v

theorem addLConstr_frame {m m' : Mip K} {coeffs : List (Vec K)} {xs : List (List ℕ)} {sense : Sense}
    {rhs : K} (h : m.addLConstr coeffs xs sense rhs = some m') :
    m'.r = m.r ∧ m'.zeta = m.zeta ∧ m'.obj = m.obj := by
  unfold Mip.addLConstr at h
  split_ifs at h
  simp only at h
  split at h
  · cases h
  · cases sense <;>
    · simp only [Option.some.injEq] at h
      subst h
      exact ⟨rfl, rfl, rfl⟩

theorem strengthenLoop_spec {infeasible : Mip K → Bool} (ht : Truthful infeasible) (r rn : ReluMIC K)
    (beta betaN : List ℕ) :
    ∀ (is : List ℕ) (m m' : Mip K), m.WF → (m.obj ≠ none) → ObjSized m →
      (∀ i ∈ is, ∀ v, m.Feas v → (v (beta.getD i 0) = 0 ∨ v (beta.getD i 0) = 1) ∧
        (v (betaN.getD i 0) = 0 ∨ v (betaN.getD i 0) = 1)) →
      strengthenLoop infeasible r rn beta betaN is m = some m' →
      (∀ v, m'.Feas v → m.Feas v) ∧ (∀ v, m.Feas v → 0 ≤ m.objVal v → m'.Feas v) ∧
        ∀ v, m'.objVal v = m.objVal v := by
  intro is
  induction is with
  | nil =>
    intro m m' _ _ _ _ h
    simp only [strengthenLoop, Option.some.injEq] at h
    subst h
    exact ⟨fun v h => h, fun v h _ => h, fun v => rfl⟩
  | cons i is ih =>
    intro m m' hw ho hs hb h
    rw [strengthenLoop] at h
    split_ifs at h with hc
    · simp only [Bool.and_eq_true] at hc
      cases h1 : m.addLConstr [[1, -1]] [[beta.getD i 0, betaN.getD i 0]] .eq 0 with
      | none => rw [h1] at h; cases h
      | some m1 =>
        rw [h1] at h
        replace h : strengthenLoop infeasible r rn beta betaN is m1 = some m' := h
        have S := step_addLConstr h1 hw
        obtain ⟨f1, f2, f3⟩ := addLConstr_frame h1
        have hval : ∀ v, m1.objVal v = m.objVal v := fun v => by
          unfold Mip.objVal
          rw [f1, f2, f3]
        have hsub : ∀ v, m1.Feas v → m.Feas v := fun v hv => ((S.feas v).1 hv).1
        obtain ⟨a1, a2, a3⟩ := ih m1 m' S.wf (by rw [f3]; exact ho)
          (by intro o h'; rw [f3] at h'; rw [f1]; exact hs o h')
          (fun j hj v hv => hb j (by simp [hj]) v (hsub v hv)) h
        refine ⟨fun v hv => hsub v (a1 v hv), fun v hv hobj => a2 v ?_ (by rw [hval]; exact hobj),
          fun v => by rw [a3, hval]⟩
        rw [S.feas]
        refine ⟨hv, ?_⟩
        obtain ⟨b1, b2⟩ := hb i (by simp) v hv
        have hne : ¬ (v (beta.getD i 0) + v (betaN.getD i 0) = 1) := by
          intro hsum
          refine ht _ hc.2 v ⟨hv.1, ?_⟩
          intro c hcm
          simp only [Mip.probe, List.mem_append, List.mem_cons, List.not_mem_nil, or_false] at hcm
          rcases hcm with hcm | rfl | rfl
          · exact hv.2 c hcm
          · cases hobjm : m.obj with
            | none => exact absurd hobjm ho
            | some o => exact (objCon_ok hw v o hobjm (hs o hobjm)).2 hobj
          · simp only [GCon.Ok, Sense.Rel, List.map_cons, List.map_nil, dot_cons, dot_nil_left]
            linarith
        simp only [Sense.Rel, List.flatten_cons, List.flatten_nil, List.append_nil, List.map_cons,
          List.map_nil, dot_cons, dot_nil_left]
        rcases b1 with b1 | b1 <;> rcases b2 with b2 | b2 <;> rw [b1, b2] at hne ⊢ <;>
          first | ring1 | (exfalso; apply hne; ring1)
    · exact ih m m' hw ho hs (fun j hj v hv => hb j (by simp [hj]) v hv) h

/-- **C35**: strengthening a program (whose `beta`, `beta_next` are binary) removes no point with
non-negative objective, adds none and keeps the objective, whatever the solver answers for each unit, as
long as its answers INFEASIBLE are right. -/
theorem C35_keeps_violations {infeasible : Mip K → Bool} (ht : Truthful infeasible) (D : DerivRet K)
    (m' : Mip K) (hw : D.m.WF) (ho : D.m.obj ≠ none) (hs : ObjSized D.m)
    (hb : ∀ v, D.m.Feas v → IsBin (D.beta.map v) ∧ IsBin (D.betaNext.map v))
    (h : strengthenBinary infeasible D = some m') :
    (∀ v, m'.Feas v → D.m.Feas v) ∧ (∀ v, D.m.Feas v → 0 ≤ D.m.objVal v → m'.Feas v) ∧
      ∀ v, m'.objVal v = D.m.objVal v := by
  unfold strengthenBinary at h
  split_ifs at h with hl
  refine strengthenLoop_spec ht _ _ _ _ _ _ _ hw ho hs ?_ h
  intro i hi v hv
  have hi' : i < D.beta.length := List.mem_range.1 hi
  have hi2 : i < D.betaNext.length := by omega
  obtain ⟨b1, b2⟩ := hb v hv
  refine ⟨b1 _ (List.mem_map.2 ⟨D.beta.getD i 0, ?_, rfl⟩), b2 _ (List.mem_map.2 ⟨D.betaNext.getD i 0, ?_, rfl⟩)⟩
  · simp [List.getD, hi']
  · simp [List.getD, hi2]

/-- **C35**: the verdict is unchanged. -/
theorem C35_same_verdict {infeasible : Mip K → Bool} (ht : Truthful infeasible) (D : DerivRet K)
    (m' : Mip K) (hw : D.m.WF) (ho : D.m.obj ≠ none) (hs : ObjSized D.m)
    (hb : ∀ v, D.m.Feas v → IsBin (D.beta.map v) ∧ IsBin (D.betaNext.map v))
    (h : strengthenBinary infeasible D = some m') : OptNonpos m' ↔ OptNonpos D.m := by
  obtain ⟨a1, a2, a3⟩ := C35_keeps_violations ht D m' hw ho hs hb h
  constructor
  · intro hm v hv
    by_contra hc
    have := hm v (a2 v hv (not_le.1 hc).le)
    rw [a3] at this
    exact hc this
  · intro hm v hv
    rw [a3]
    exact hm v (a1 v hv)

theorem strengthenLoop_isSome (infeasible : Mip K → Bool) (r rn : ReluMIC K) (beta betaN : List ℕ) :
    ∀ (is : List ℕ) (m : Mip K), m.WF →
      (∀ i ∈ is, beta.getD i 0 < m.n ∧ betaN.getD i 0 < m.n ∧ beta.getD i 0 ≠ betaN.getD i 0) →
      ∃ m', strengthenLoop infeasible r rn beta betaN is m = some m' := by
  intro is
  induction is with
  | nil => exact fun m _ _ => ⟨m, rfl⟩
  | cons i is ih =>
    intro m hw hb
    rw [strengthenLoop]
    split_ifs with hc
    · obtain ⟨h1, h2, h3⟩ := hb i (by simp)
      obtain ⟨m1, hm1⟩ := addLConstr_isSome m hw [[1, -1]] [[beta.getD i 0, betaN.getD i 0]] .eq 0
        rfl rfl (by simpa using h3) (by simpa using ⟨h1, h2⟩)
      have S := step_addLConstr hm1 hw
      obtain ⟨m', h'⟩ := ih m1 S.wf (fun j hj => by
        have := hb j (by simp [hj])
        have e := S.n
        omega)
      exact ⟨m', by rw [hm1]; exact h'⟩
    · exact ih m hw fun j hj => hb j (by simp [hj])

/-- **C35**: `strengthen_lyapunov_derivative_milp_binary` always succeeds on a program built by
`lyapunov_derivative_as_milp`; the strengthened program certifies exactly the same decrease condition. -/
theorem C35_derivative_program (L : Lyap K) (hL : L.NetOk) {R : Option (Tensor2 K)} {R' : Mat K}
    {xe : Vec K} (h : L.EqOk R R' xe) (lam eps : K) (et : EpsType) (lower upper : Option K)
    {sys : SysConstr K} {Rel : Vec K → Vec K → Prop} (hsys : SysEnc sys L.dim Rel Rel)
    {infeasible : Mip K → Bool} (ht : Truthful infeasible) {D : DerivRet K}
    (hd : L.derivative sys xe lam eps et R lower upper .binary = some D) :
    ∃ m', strengthenBinary infeasible D = some m' ∧
      (∀ v, m'.Feas v → D.m.Feas v) ∧ (∀ v, D.m.Feas v → 0 ≤ D.m.objVal v → m'.Feas v) ∧
      (∀ v, m'.objVal v = D.m.objVal v) ∧
      (OptNonpos m' ↔ ∀ y yn, InBox L.xLo L.xUp y → InBox L.xLo L.xUp yn → Rel y yn →
        Between lower upper (lyapV L.net R' lam xe y) →
        decrease et eps (lyapV L.net R' lam xe yn) (lyapV L.net R' lam xe y) (err R' xe y) ≤ 0) := by
  have hver := C33_verdict L hL h lam eps et lower upper hsys hd
  obtain ⟨D', e, -, -, k, s, -⟩ := C33_program L hL h lam eps et lower upper hsys
  rw [e] at hd
  simp only [Option.some.injEq] at hd
  subst hd
  have ho : D'.m.obj ≠ none := by
    intro hn
    have := k.obj
    simp [hn] at this
  obtain ⟨m', hm'⟩ := strengthenLoop_isSome infeasible D'.ret D'.retNext D'.beta D'.betaNext
    (List.range D'.beta.length) D'.m k.wf (fun i hi => by
      have hi' : i < D'.beta.length := List.mem_range.1 hi
      have hi2 : i < D'.betaNext.length := by rw [← k.len]; exact hi'
      have m1 : D'.beta.getD i 0 ∈ D'.beta := by simp [List.getD, hi']
      have m2 : D'.betaNext.getD i 0 ∈ D'.betaNext := by simp [List.getD, hi2]
      refine ⟨k.lt _ (by simp only [List.mem_append]; exact Or.inl m1),
        k.lt _ (by simp only [List.mem_append]; exact Or.inr m2), fun he => ?_⟩
      rw [he] at m1
      exact k.disj _ m1 m2)
  have hm2 : strengthenBinary infeasible D' = some m' := by
    unfold strengthenBinary
    rw [if_pos k.len]
    exact hm'
  have hb : ∀ v, D'.m.Feas v → IsBin (D'.beta.map v) ∧ IsBin (D'.betaNext.map v) :=
    fun v hv => ⟨(s v hv).2.2.2.2.1, (s v hv).2.2.2.2.2.1⟩
  obtain ⟨a1, a2, a3⟩ := C35_keeps_violations ht D' m' k.wf ho k.sized hb hm2
  exact ⟨m', hm2, a1, a2, a3, (C35_same_verdict ht D' m' k.wf ho k.sized hb hm2).trans hver⟩

/-! ### A concrete case: `φ(x) = |x|`, `V(x) = 3/2 |x|`, `x⁺ = x / 2` on `[-1, 1]` -/

/-- One input, `φ(x) = relu(x) + relu(-x)`, over the reals. -/
noncomputable def absLyap : Lyap ℝ :=
  { xLo := [-1], xUp := [1]
    net := { hidden := [(⟨1, [[1], [-1]], some [0, 0]⟩, .relu)]
             last := ⟨2, [[1, 1]], some [0]⟩ } }

theorem absLyap_ok : absLyap.NetOk := by
  refine Lyap.netOk_ia rfl rfl ?_ ?_ rfl (by simp [absLyap, numUnits])
  · intro i hi
    have : i < 1 := hi
    interval_cases i
    norm_num [absLyap]
  · simp [absLyap, Net.Ok, HidOk, Lin.Ok, HasCols, Lin.b, Lyap.dim]

theorem absEq_ok : absLyap.EqOk none (eye 1) [0] := by
  refine ⟨rfl, by simp [getR, absLyap, Lyap.dim], ?_, by simp [absLyap, Lyap.dim, eye], rfl, rfl, ?_⟩
  · simp [HasCols, absLyap, Lyap.dim, eye, eyeRow]
  · intro i hi
    have : i < 1 := hi
    interval_cases i
    norm_num [absLyap]

theorem abs_err (a : ℝ) : err (eye 1) [0] [a] = |a| := by
  simp [err, norm1, matVec, eye, eyeRow, vsub, dot]

theorem abs_V (a : ℝ) : lyapV absLyap.net (eye 1) (1 / 2) [0] [a] = 3 / 2 * |a| := by
  unfold lyapV
  rw [abs_err]
  simp only [Net.val, Net.eval, absLyap, hiddenOut, Lin.eval, Lin.b, matVec, vadd, dot, List.map_cons,
    List.map_nil, List.zipWith_cons_cons, List.zipWith_nil_left, List.getD_cons_zero,
    Option.getD_some, List.sum_cons, List.sum_nil]
  rcases le_total 0 a with h | h
  · simp [Act.f, Spec.relu, abs_of_nonneg h, h]
    try ring
  · simp [Act.f, Spec.relu, abs_of_nonpos h, h]
    try ring

theorem absSys_enc : SysEnc (linSys 1 [[1 / 2]]) absLyap.dim
    (fun y yn => yn = matVec [[(1 / 2 : ℝ)]] y) fun y yn => yn = matVec [[(1 / 2 : ℝ)]] y :=
  linSys_enc 1 _ (by simp [HasCols]) rfl

theorem singleton_of_inBox {y : Vec ℝ} (h : InBox absLyap.xLo absLyap.xUp y) : ∃ a, y = [a] := by
  have : y.length = 1 := h.1
  match y, this with
  | [a], _ => exact ⟨a, rfl⟩

theorem abs_programs : ∃ m xv D, absLyap.positivity [0] (1 / 2) (1 / 4) none = some (m, xv) ∧
    OptNonpos m ∧
    absLyap.derivative (linSys 1 [[1 / 2]]) [0] (1 / 2) (1 / 10) .expLower none none none .binary = some D ∧
    OptNonpos D.m := by
  obtain ⟨m, xv, e, -⟩ := C32_program absLyap absLyap_ok absEq_ok (1 / 2) (1 / 4)
  obtain ⟨D, e', -⟩ := C33_program absLyap absLyap_ok absEq_ok (1 / 2) (1 / 10) .expLower none none
    absSys_enc
  refine ⟨m, xv, D, e, (C32_verdict absLyap absLyap_ok absEq_ok (1 / 2) (1 / 4) e).2 ?_, e',
    (C33_verdict absLyap absLyap_ok absEq_ok (1 / 2) (1 / 10) .expLower none none absSys_enc e').2 ?_⟩
  · intro y hy
    obtain ⟨a, rfl⟩ := singleton_of_inBox hy
    rw [abs_V, abs_err]
    linarith [abs_nonneg a]
  · rintro y _ hy - rfl -
    obtain ⟨a, rfl⟩ := singleton_of_inBox hy
    have : matVec [[(1 / 2 : ℝ)]] [a] = [1 / 2 * a] := by simp [matVec, dot]
    rw [this, abs_V, abs_V]
    simp only [decrease, abs_mul]
    rw [abs_of_pos (by norm_num : (0 : ℝ) < 1 / 2)]
    linarith [abs_nonneg a]

/-- The hypotheses of the exponential case of C34 hold for this system and its trajectory `2^{-n}`, and
its conclusion is that the state tends to zero. -/
example : Filter.Tendsto (fun n : ℕ => err (eye 1) [0] [(1 / 2 : ℝ) ^ n]) Filter.atTop (nhds 0) := by
  obtain ⟨m, xv, D, e, o, e', o'⟩ := abs_programs
  refine C34_exponential_tendsto absLyap absLyap_ok absEq_ok (1 / 2) (1 / 4) (1 / 10) absSys_enc e o e' o'
    (by norm_num) (by norm_num) (by norm_num) (fun n => [(1 / 2 : ℝ) ^ n]) ?_ ?_
  · intro n
    simp [matVec, dot, pow_succ, mul_comm]
  · intro n
    refine ⟨rfl, rfl, fun i hi => ?_⟩
    have h1 : (0 : ℝ) < (1 / 2) ^ n := by positivity
    have h2 : ((1 : ℝ) / 2) ^ n ≤ 1 := pow_le_one₀ (by norm_num) (by norm_num)
    have : i < 1 := hi
    interval_cases i
    simp only [absLyap, List.getD_cons_zero]
    constructor <;> linarith

/-- And strengthening its program keeps the certificate, for any truthful solver (for instance one that
never answers). -/
example : ∃ D m', absLyap.derivative (linSys 1 [[1 / 2]]) [0] (1 / 2) (1 / 10) .expLower none none none
    .binary = some D ∧ strengthenBinary (fun _ => false) D = some m' ∧ OptNonpos m' := by
  obtain ⟨m, xv, D, -, -, e', o'⟩ := abs_programs
  have ht : Truthful (fun _ : Mip ℝ => false) := by intro p hp; cases hp
  obtain ⟨m', hm', -, -, -, hv⟩ := C35_derivative_program absLyap absLyap_ok absEq_ok (1 / 2) (1 / 10)
    .expLower none none absSys_enc ht e'
  refine ⟨D, m', e', hm', hv.2 ?_⟩
  exact (C33_verdict absLyap absLyap_ok absEq_ok (1 / 2) (1 / 10) .expLower none none absSys_enc e').1 o'

end NNL.Props


