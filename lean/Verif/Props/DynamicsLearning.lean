import Verif.Model.DynamicsLearning
import Verif.Props.Losses
import Verif.Props.Converge

/-!
# C100, C101: losses and rollouts of the learned dynamics
-/

set_option linter.unusedSectionVars false

namespace NNL.Props

open NNL NNL.Spec NNL.Model

variable {K : Type*} [Field K] [LinearOrder K] [IsStrictOrderedRing K]

theorem mem_keepSamples {lo up x : Vec K} {xs : List (Vec K)} (hl : lo.length = up.length) (hx : x.length = lo.length) :
    x ∈ keepSamples lo up xs ↔ x ∈ xs ∧ InBox lo up x := by
  simp only [keepSamples, List.mem_filter, decide_eq_true_eq, InBox, hx, hl, true_and]
  constructor
  · rintro ⟨⟨h, h1⟩, h2⟩
    exact ⟨h, fun i hi => ⟨h2 i hi, h1 i hi⟩⟩
  · rintro ⟨h, h1⟩
    exact ⟨⟨h, fun i hi => (h1 i hi).2⟩, fun i hi => (h1 i hi).1⟩

theorem keepSamples_subset {lo up x : Vec K} {xs : List (Vec K)} (h : x ∈ keepSamples lo up xs) : x ∈ xs :=
  List.mem_of_mem_filter (List.mem_of_mem_filter h)

theorem mem_zip_map {α β : Type*} (f : α → β) (l : List α) (P : α × β → Prop) :
    (∀ p ∈ l.zip (l.map f), P p) ↔ ∀ x ∈ l, P (x, f x) := by
  induction l with
  | nil => simp
  | cons a l ih => rw [List.map_cons, List.zip_cons_cons, List.forall_mem_cons, List.forall_mem_cons, ih]

theorem weighted {w p : K} {P : Prop} (hw : 0 < w) (h : 0 ≤ p ∧ (p = 0 ↔ P)) : 0 ≤ w * p ∧ (w * p = 0 ↔ P) :=
  ⟨mul_nonneg hw.le h.1, by rw [mul_eq_zero, or_iff_right hw.ne', h.2]⟩

/-- C100. The three losses at samples are nonnegative, and zero exactly if the samples in the box satisfy the positivity condition, the
lower and the upper bound of the decrease. -/
theorem C100_samples (L : Lyap K) (step : Vec K → Vec K) (xe : Vec K) (o : DynOptions K) {R' : Mat K} (hR : getR o.R L.dim = some R')
    (hw : 0 < o.wPos ∧ 0 < o.wLo ∧ 0 < o.wUp) {lo up : Vec K} (hl : lo.length = up.length) {xs : List (Vec K)}
    (hx : ∀ x ∈ xs, x.length = lo.length) {p l u : K} (h : L.SampleLosses step xe o xs lo up (p, l, u)) :
    (0 ≤ p ∧ (p = 0 ↔ ∀ x ∈ xs, InBox lo up x → o.epsPos * err R' xe x ≤ lyapV L.net R' o.lam xe x)) ∧
      (0 ≤ l ∧ (l = 0 ↔ ∀ x ∈ xs, InBox lo up x →
        lyapV L.net R' o.lam xe (step x) ≤ (1 - o.epsLo) * lyapV L.net R' o.lam xe x)) ∧
      (0 ≤ u ∧ (u = 0 ↔ ∀ x ∈ xs, InBox lo up x →
        (1 - o.epsUp) * lyapV L.net R' o.lam xe x ≤ lyapV L.net R' o.lam xe (step x))) := by
  have key : ∀ P : Vec K → Prop, (∀ x ∈ keepSamples lo up xs, P x) ↔ ∀ x ∈ xs, InBox lo up x → P x := by
    intro P
    constructor
    · exact fun hP x hm hb => hP x ((mem_keepSamples hl (hx x hm)).2 ⟨hm, hb⟩)
    · intro hP x hm
      have hm' := keepSamples_subset hm
      exact hP x hm' ((mem_keepSamples hl (hx x hm')).1 hm).2
  simp only [Lyap.SampleLosses] at h
  split_ifs at h with h0
  · have hn : keepSamples lo up xs = [] := List.length_eq_zero_iff.1 h0
    simp only [Prod.mk.injEq] at h
    obtain ⟨rfl, rfl, rfl⟩ := h
    simp only [le_refl, true_and, true_iff]
    refine ⟨?_, ?_, ?_⟩ <;> refine (key _).1 ?_ <;> simp [hn]
  · obtain ⟨p', l', u', hp, hl', hu, e⟩ := h
    simp only [Prod.mk.injEq] at e
    obtain ⟨rfl, rfl, rfl⟩ := e
    have hnone : WeightsPos (none : Option (Vec K)) := by intro w hw; cases hw
    refine ⟨weighted hw.1 ?_, weighted hw.2.1 ?_, weighted hw.2.2 ?_⟩
    · have := C38_positivity L _ xe o.lam o.epsPos hR 0 .mean none hnone p' hp
      rw [← key]
      simpa using this
    · have := C38_derivative L _ _ xe o.lam o.epsLo .expLower hR 0 .mean none hnone l' hl'
      rw [mem_zip_map] at this
      rw [← key]
      refine ⟨this.1, this.2.trans (forall₂_congr fun x _ => ?_)⟩
      simp only [decrease]
      constructor <;> intro h <;> linarith
    · have := C38_derivative L _ _ xe o.lam o.epsUp .expUpper hR 0 .mean none hnone u' hu
      rw [mem_zip_map] at this
      rw [← key]
      refine ⟨this.1, this.2.trans (forall₂_congr fun x _ => ?_)⟩
      simp only [decrease]
      constructor <;> intro h <;> linarith

/-- C100. The losses at samples are always defined. -/
theorem C100_samples_defined (L : Lyap K) (step : Vec K → Vec K) (xe : Vec K) (o : DynOptions K) {R' : Mat K}
    (hR : getR o.R L.dim = some R') (xs : List (Vec K)) (lo up : Vec K) : ∃ r, L.SampleLosses step xe o xs lo up r := by
  simp only [Lyap.SampleLosses]
  split_ifs with h0
  · exact ⟨_, rfl⟩
  · have hn : keepSamples lo up xs ≠ [] := fun e => h0 (by simp [e])
    obtain ⟨a, as, e⟩ := List.exists_cons_of_ne_nil hn
    have hp : ∃ l, L.positivityHinge (keepSamples lo up xs) xe o.lam o.epsPos o.R 0 = some l ∧ l ≠ [] := by
      simp only [Lyap.positivityHinge, hR, C31_values L o.R R' hR, Option.bind_eq_bind, Option.bind_some]
      exact ⟨_, rfl, by simp [e]⟩
    have hd : ∀ eps et, ∃ l, L.derivativeHinge (keepSamples lo up xs) ((keepSamples lo up xs).map step) xe o.lam eps et o.R 0 = some l ∧
        l ≠ [] := by
      intro eps et
      simp only [Lyap.derivativeHinge, hR, C31_values L o.R R' hR, Option.bind_eq_bind, Option.bind_some, List.length_map, if_true]
      exact ⟨_, rfl, by simp [e]⟩
    obtain ⟨l1, a1, b1⟩ := hp
    obtain ⟨l2, a2, b2⟩ := hd o.epsLo .expLower
    obtain ⟨l3, a3, b3⟩ := hd o.epsUp .expUpper
    exact ⟨(o.wPos * vmean l1, o.wLo * vmean l2, o.wUp * vmean l3), vmean l1, vmean l2, vmean l3, ⟨l1, a1, b1, rfl⟩, ⟨l2, a2, b2, rfl⟩,
      ⟨l3, a3, b3, rfl⟩, rfl⟩

theorem foldlM_rollout (L : Lyap K) (step : Vec K → Vec K) (xe : Vec K) (o : DynOptions K) {R' : Mat K}
    (hR : getR o.R L.dim = some R') (x0 : Vec K) (N : ℕ) :
    (List.range N).foldlM (L.rolloutStep step xe o) ([x0], [lyapV L.net R' o.lam xe x0]) =
      some ((List.range (N + 1)).map fun n => step^[n] x0, (List.range (N + 1)).map fun n => lyapV L.net R' o.lam xe (step^[n] x0)) := by
  induction N with
  | zero => simp
  | succ N ih =>
    rw [List.range_succ, List.foldlM_append, ih]
    simp [Lyap.rolloutStep, C31_value L o.R R' hR, List.range_succ (n := N + 1), Function.iterate_succ_apply']

/-- C100. `rollout` returns the states reached after 0, ..., N steps and the values of the Lyapunov function at them. -/
theorem C100_rollout (L : Lyap K) (step : Vec K → Vec K) (xe : Vec K) (o : DynOptions K) {R' : Mat K} (hR : getR o.R L.dim = some R')
    (x0 : Vec K) (h0 : x0.length = L.dim) (N : ℕ) :
    L.rollout step xe o x0 N =
      some ((List.range (N + 1)).map fun n => step^[n] x0, (List.range (N + 1)).map fun n => lyapV L.net R' o.lam xe (step^[n] x0)) := by
  rw [Lyap.rollout, if_pos h0, C31_value L o.R R' hR]
  exact foldlM_rollout L step xe o hR x0 N

/-- C100. If the losses of the decrease vanish at the states of a rollout and these are in the box, the values along the rollout lie
between the two exponential bounds. -/
theorem C100_decay (L : Lyap K) (step : Vec K → Vec K) (xe : Vec K) (o : DynOptions K) {R' : Mat K} (hR : getR o.R L.dim = some R')
    (hw : 0 < o.wPos ∧ 0 < o.wLo ∧ 0 < o.wUp) (he : o.epsLo ≤ 1 ∧ o.epsUp ≤ 1) {lo up : Vec K} {x0 : Vec K} (h0 : x0.length = L.dim)
    {N : ℕ} {xs : List (Vec K)} {vs : Vec K} (hr : L.rollout step xe o x0 N = some (xs, vs)) (hb : ∀ x ∈ xs, InBox lo up x) {p : K}
    (h : L.SampleLosses step xe o xs lo up (p, 0, 0)) {n : ℕ} {v0 v : K} (hv0 : vs[0]? = some v0) (hv : vs[n]? = some v) :
    (1 - o.epsUp) ^ n * v0 ≤ v ∧ v ≤ (1 - o.epsLo) ^ n * v0 := by
  rw [C100_rollout L step xe o hR x0 h0 N] at hr
  simp only [Option.some.injEq, Prod.mk.injEq] at hr
  obtain ⟨rfl, rfl⟩ := hr
  have hbx : InBox lo up x0 := hb _ (List.mem_map.2 ⟨0, by simp, rfl⟩)
  obtain ⟨-, ⟨-, hlo⟩, -, hup⟩ := C100_samples L step xe o hR hw (hbx.1.symm.trans hbx.2.1) (fun x hx => (hb x hx).1) h
  replace hlo := hlo.1 rfl
  replace hup := hup.1 rfl
  have e0 : v0 = lyapV L.net R' o.lam xe x0 := by simpa using hv0.symm
  have hn : n < N + 1 := by
    by_contra hc
    rw [List.getElem?_eq_none (by simpa using hc)] at hv
    cases hv
  have e1 : v = lyapV L.net R' o.lam xe (step^[n] x0) := by
    have := hv
    simp only [List.getElem?_map, List.getElem?_range hn, Option.map_some, Option.some.injEq] at this
    exact this.symm
  subst e0 e1
  clear hv hv0
  induction n with
  | zero => simp
  | succ n ih =>
    obtain ⟨i1, i2⟩ := ih (by omega)
    have hm : step^[n] x0 ∈ (List.range (N + 1)).map fun n => step^[n] x0 := List.mem_map.2 ⟨n, by simp; omega, rfl⟩
    have a := hlo _ hm (hb _ hm)
    have b := hup _ hm (hb _ hm)
    have a' := mul_le_mul_of_nonneg_left i2 (sub_nonneg.2 he.1)
    have b' := mul_le_mul_of_nonneg_left i1 (sub_nonneg.2 he.2)
    rw [Function.iterate_succ_apply', pow_succ', pow_succ', mul_assoc, mul_assoc]
    exact ⟨b'.trans b, a.trans a'⟩

theorem meanSq_nonneg (a b : Vec K) : 0 ≤ meanSq a b := by
  refine div_nonneg (List.sum_nonneg fun y hy => ?_) (by positivity)
  obtain ⟨z, -, rfl⟩ := List.mem_map.1 hy
  exact sq_nonneg z

theorem meanSq_zero {a b : Vec K} (hl : a.length = b.length) (h0 : a ≠ []) : meanSq a b = 0 ↔ a = b := by
  have hs : vsub a b ≠ [] := by
    intro e
    have : (vsub a b).length = a.length := by simp [hl]
    rw [e] at this
    exact h0 (List.length_eq_zero_iff.1 this.symm)
  rw [meanSq, vmean, div_eq_zero_iff, or_iff_left (by
    rw [List.length_map, Nat.cast_eq_zero, List.length_eq_zero_iff]
    exact hs)]
  clear hs
  clear h0
  induction a generalizing b with
  | nil => cases b <;> simp_all [vsub]
  | cons x a ih =>
    cases b with
    | nil => simp at hl
    | cons y b =>
      have hl' : a.length = b.length := by simpa using hl
      have e : vsub (x :: a) (y :: b) = (x - y) :: vsub a b := by simp [vsub]
      have hn : 0 ≤ ((vsub a b).map fun e => e ^ 2).sum := List.sum_nonneg fun y hy => by
        obtain ⟨z, -, rfl⟩ := List.mem_map.1 hy
        exact sq_nonneg z
      rw [e, List.map_cons, List.sum_cons, add_eq_zero_iff_of_nonneg (sq_nonneg _) hn, sq_eq_zero_iff, sub_eq_zero, List.cons.injEq]
      exact and_congr Iff.rfl (ih hl')

/-- C100. The loss of a rollout has one entry for each state, is zero at the first state, nonnegative, and zero everywhere exactly if
the rollout follows the dynamics. -/
theorem C100_rollout_loss (L : Lyap K) (step : Vec K → Vec K) (xe : Vec K) (o : DynOptions K) {R' : Mat K}
    (hR : getR o.R L.dim = some R') (hd : 0 < L.dim) (hs : ∀ x, x.length = L.dim → (step x).length = L.dim) {rows : List (Vec K)}
    (h0 : rows ≠ []) (hx : ∀ x ∈ rows, x.length = L.dim) :
    ∃ ls, L.rolloutLoss step xe o rows = some ls ∧ ls.length = rows.length ∧ ls[0]? = some 0 ∧ (∀ e ∈ ls, 0 ≤ e) ∧
      ((∀ e ∈ ls, e = 0) ↔ ∀ n x y, rows[n]? = some x → rows[n + 1]? = some y → y = step x) := by
  obtain ⟨x0, rest, rfl⟩ := List.exists_cons_of_ne_nil h0
  have hx0 := hx x0 (by simp)
  have hit : ∀ n, (step^[n] x0).length = L.dim := by
    intro n
    induction n with
    | zero => exact hx0
    | succ n ih => rw [Function.iterate_succ_apply']; exact hs _ ih
  have hne : ∀ x : Vec K, x.length = L.dim → x ≠ [] := by
    rintro x hx rfl
    simp at hx
    omega
  set rows := x0 :: rest with hrows
  set ls := List.zipWith meanSq rows ((List.range (rest.length + 1)).map fun n => step^[n] x0) with hls
  have hget : ∀ n x, rows[n]? = some x → ls[n]? = some (meanSq x (step^[n] x0)) := by
    intro n x hn
    have hlt : n < rest.length + 1 := by
      have := (List.getElem?_eq_some_iff.1 hn).1
      simpa [hrows] using this
    simp [hls, List.getElem?_zipWith, hn, List.getElem?_range hlt]
  have hlen : ls.length = rows.length := by simp [hls, hrows]
  refine ⟨ls, ?_, hlen, ?_, ?_, ?_⟩
  · have e0 : rows[0]? = some x0 := rfl
    have e1 : rows.length - 1 = rest.length := by simp [hrows]
    simp only [Lyap.rolloutLoss, e0, e1, Option.bind_eq_bind, Option.bind_some, C100_rollout L step xe o hR x0 hx0]
    rw [if_pos (by simp [hrows])]
  · rw [hget 0 x0 rfl]
    exact congrArg some ((meanSq_zero rfl (hne _ hx0)).2 rfl)
  · intro e he
    obtain ⟨n, hn, rfl⟩ := List.mem_iff_getElem.1 he
    have hn' : n < rows.length := hlen ▸ hn
    have := hget n _ (List.getElem?_eq_getElem hn')
    rw [List.getElem?_eq_getElem hn, Option.some.injEq] at this
    rw [this]
    exact meanSq_nonneg _ _
  · have key : (∀ e ∈ ls, e = 0) ↔ ∀ n x, rows[n]? = some x → x = step^[n] x0 := by
      constructor
      · intro h n x hn
        have hm := h _ (List.mem_of_getElem? (hget n x hn))
        have hxl := hx x (List.mem_of_getElem? hn)
        exact (meanSq_zero (hxl.trans (hit n).symm) (hne _ hxl)).1 hm
      · intro h e he
        obtain ⟨n, hn, rfl⟩ := List.mem_iff_getElem.1 he
        have hn' : n < rows.length := hlen ▸ hn
        have g := List.getElem?_eq_getElem hn'
        have := hget n _ g
        rw [List.getElem?_eq_getElem hn, Option.some.injEq] at this
        rw [this]
        exact (meanSq_zero ((hx _ (List.mem_of_getElem? g)).trans (hit n).symm) (hne _ (hx _ (List.mem_of_getElem? g)))).2 (h n _ g)
    rw [key]
    constructor
    · intro h n x y hx hy
      rw [h _ _ hy, h _ _ hx, Function.iterate_succ_apply']
    · intro h n
      induction n with
      | zero =>
        intro x hn
        simpa [hrows] using hn.symm
      | succ n ih =>
        intro y hy
        have hlt : n < rows.length := by
          have := (List.getElem?_eq_some_iff.1 hy).1
          omega
        have g := List.getElem?_eq_getElem hlt
        rw [h n _ y g hy, ih _ g, Function.iterate_succ_apply']

/-- `v` is an optimal solution of a program that is maximized. -/
def IsMax (m : Mip K) (v : ℕ → K) : Prop := m.Feas v ∧ ∀ w, m.Feas w → m.objVal w ≤ m.objVal v

theorem isMax_nonpos {m : Mip K} {v : ℕ → K} (h : IsMax m v) {w : K} (hw : 0 < w) : w * m.objVal v ≤ 0 ↔ OptNonpos m := by
  have : w * m.objVal v ≤ 0 ↔ m.objVal v ≤ 0 := by
    constructor
    · intro hv
      by_contra hc
      exact absurd hv (not_le.2 (mul_pos hw (not_le.1 hc)))
    · exact fun hv => mul_nonpos_of_nonneg_of_nonpos hw.le hv
  rw [this]
  exact ⟨fun hv u hu => (h.2 u hu).trans hv, fun hm => hm v h.1⟩

/-- C100. With optimal solutions of the three programs, `lyapunov_loss` is at most zero in each component exactly if the condition holds
at every state of the box (for the decrease: at every state whose successor is in the box). -/
theorem C100_programs (L : Lyap K) (hL : L.NetOk) (o : DynOptions K) {R' : Mat K} {xe : Vec K} (h : L.EqOk o.R R' xe) {sys : SysConstr K}
    {Rel : Vec K → Vec K → Prop} (hsys : SysEnc sys L.dim Rel Rel) {w : K × K × K} (hw : 0 < w.1 ∧ 0 < w.2.1 ∧ 0 < w.2.2) :
    ∃ P x D E, L.positivity xe o.lam o.epsPos o.R = some (P, x) ∧
      L.derivative sys xe o.lam o.epsLo .expLower o.R none none .binary = some D ∧
      L.derivative sys xe o.lam o.epsUp .expUpper o.R none none .binary = some E ∧
      ∀ v1 v2 v3, IsMax P v1 → IsMax D.m v2 → IsMax E.m v3 → ∃ p l u, L.programLosses sys xe o w v1 v2 v3 = some (p, l, u) ∧
        (p ≤ 0 ↔ ∀ y, InBox L.xLo L.xUp y → o.epsPos * err R' xe y ≤ lyapV L.net R' o.lam xe y) ∧
        (l ≤ 0 ↔ ∀ y yn, InBox L.xLo L.xUp y → InBox L.xLo L.xUp yn → Rel y yn →
          lyapV L.net R' o.lam xe yn ≤ (1 - o.epsLo) * lyapV L.net R' o.lam xe y) ∧
        (u ≤ 0 ↔ ∀ y yn, InBox L.xLo L.xUp y → InBox L.xLo L.xUp yn → Rel y yn →
          (1 - o.epsUp) * lyapV L.net R' o.lam xe y ≤ lyapV L.net R' o.lam xe yn) := by
  obtain ⟨P, x, eP, -⟩ := C32_program L hL h o.lam o.epsPos
  obtain ⟨D, eD, -⟩ := C33_program L hL h o.lam o.epsLo .expLower none none hsys
  obtain ⟨E, eE, -⟩ := C33_program L hL h o.lam o.epsUp .expUpper none none hsys
  refine ⟨P, x, D, E, eP, eD, eE, fun v1 v2 v3 h1 h2 h3 => ⟨w.1 * P.objVal v1, w.2.1 * D.m.objVal v2, w.2.2 * E.m.objVal v3, ?_, ?_, ?_, ?_⟩⟩
  · simp only [Lyap.programLosses, eP, eD, eE, Option.bind_eq_bind, Option.bind_some]
  · rw [isMax_nonpos h1 hw.1]
    exact C32_verdict L hL h o.lam o.epsPos eP
  · rw [isMax_nonpos h2 hw.2.1]
    refine (C33_verdict L hL h o.lam o.epsLo .expLower none none hsys eD).trans ?_
    simp only [Between, decrease]
    constructor
    · intro hh y yn a b c
      linarith [hh y yn a b c (by simp)]
    · intro hh y yn a b c _
      linarith [hh y yn a b c]
  · rw [isMax_nonpos h3 hw.2.2]
    refine (C33_verdict L hL h o.lam o.epsUp .expUpper none none hsys eE).trans ?_
    simp only [Between, decrease]
    constructor
    · intro hh y yn a b c
      linarith [hh y yn a b c (by simp)]
    · intro hh y yn a b c _
      linarith [hh y yn a b c]

/-! ### C101 -/

theorem mem_poolStates {m : Mip K} {x : List ℕ} {pool : List (ℕ → K)} {s : Vec K} :
    s ∈ poolStates m x pool ↔ ∃ v ∈ pool, 0 < m.objVal v ∧ x.map v = s := by
  simp [poolStates, and_assoc]

/-- C101. When `adversarial_samples` returns, its states are in the box and violate the positivity condition, the lower and the upper
bound of the decrease (at a successor in the box). Missing: it does not return if one of the decrease conditions is not violated by the
solutions found, see `C101_adversarial_raises`. -/
theorem C101_adversarial_partial (L : Lyap K) (hL : L.NetOk) (o : DynOptions K) {R' : Mat K} {xe : Vec K} (h : L.EqOk o.R R' xe)
    {sys : SysConstr K} {Dom Rel : Vec K → Vec K → Prop} (hsys : SysEnc sys L.dim Dom Rel) :
    ∃ P x D E, L.positivity xe o.lam o.epsPos o.R = some (P, x) ∧
      L.derivative sys xe o.lam o.epsLo .expLower o.R none none .binary = some D ∧
      L.derivative sys xe o.lam o.epsUp .expUpper o.R none none .binary = some E ∧
      ∀ p1 p2 p3, (∀ v ∈ p1, P.Feas v) → (∀ v ∈ p2, D.m.Feas v) → (∀ v ∈ p3, E.m.Feas v) →
        ∀ pos lo up, L.adversarialSamples sys xe o p1 p2 p3 = some (pos, lo, up) →
          (∀ s ∈ pos, InBox L.xLo L.xUp s ∧ lyapV L.net R' o.lam xe s < o.epsPos * err R' xe s) ∧
          (∀ s ∈ lo, InBox L.xLo L.xUp s ∧ ∃ sn, InBox L.xLo L.xUp sn ∧ Rel s sn ∧
            (1 - o.epsLo) * lyapV L.net R' o.lam xe s < lyapV L.net R' o.lam xe sn) ∧
          (∀ s ∈ up, InBox L.xLo L.xUp s ∧ ∃ sn, InBox L.xLo L.xUp sn ∧ Rel s sn ∧
            lyapV L.net R' o.lam xe sn < (1 - o.epsUp) * lyapV L.net R' o.lam xe s) ∧
          (∀ v ∈ p1, 0 < P.objVal v → x.map v ∈ pos) ∧ (∀ v ∈ p2, 0 < D.m.objVal v → D.x.map v ∈ lo) ∧
          ∀ v ∈ p3, 0 < E.m.objVal v → E.x.map v ∈ up := by
  obtain ⟨P, x, eP, -, -, sP, -⟩ := C32_program L hL h o.lam o.epsPos
  obtain ⟨D, eD, -, -, -, sD, -⟩ := C33_program L hL h o.lam o.epsLo .expLower none none hsys
  obtain ⟨E, eE, -, -, -, sE, -⟩ := C33_program L hL h o.lam o.epsUp .expUpper none none hsys
  refine ⟨P, x, D, E, eP, eD, eE, fun p1 p2 p3 f1 f2 f3 pos lo up hr => ?_⟩
  simp only [Lyap.adversarialSamples, eP, eD, eE, Option.bind_eq_bind, Option.bind_some, Option.ite_none_right_eq_some,
    Option.some.injEq, Prod.mk.injEq] at hr
  obtain ⟨-, rfl, rfl, rfl⟩ := hr
  refine ⟨fun s hs => ?_, fun s hs => ?_, fun s hs => ?_, fun v hv h0 => mem_poolStates.2 ⟨v, hv, h0, rfl⟩,
    fun v hv h0 => mem_poolStates.2 ⟨v, hv, h0, rfl⟩, fun v hv h0 => mem_poolStates.2 ⟨v, hv, h0, rfl⟩⟩
  · obtain ⟨v, hv, h0, rfl⟩ := mem_poolStates.1 hs
    obtain ⟨a, b⟩ := sP v (f1 v hv)
    exact ⟨a, by linarith⟩
  · obtain ⟨v, hv, h0, rfl⟩ := mem_poolStates.1 hs
    obtain ⟨a, b, c, -, -, -, d⟩ := sD v (f2 v hv)
    simp only [decrease] at d
    exact ⟨a, _, b, c, by linarith⟩
  · obtain ⟨v, hv, h0, rfl⟩ := mem_poolStates.1 hs
    obtain ⟨a, b, c, -, -, -, d⟩ := sE v (f3 v hv)
    simp only [decrease] at d
    exact ⟨a, _, b, c, by linarith⟩

/-- C101 (contradicted). If the lower bound of the decrease holds at every state of the box whose successor is in the box,
`adversarial_samples` raises for whatever solutions, instead of reporting that there are no violations. -/
theorem C101_adversarial_raises (L : Lyap K) (hL : L.NetOk) (o : DynOptions K) {R' : Mat K} {xe : Vec K} (h : L.EqOk o.R R' xe)
    {sys : SysConstr K} {Rel : Vec K → Vec K → Prop} (hsys : SysEnc sys L.dim Rel Rel)
    (hc : ∀ y yn, InBox L.xLo L.xUp y → InBox L.xLo L.xUp yn → Rel y yn →
      lyapV L.net R' o.lam xe yn ≤ (1 - o.epsLo) * lyapV L.net R' o.lam xe y) :
    ∃ D, L.derivative sys xe o.lam o.epsLo .expLower o.R none none .binary = some D ∧
      ∀ p1 p2 p3, (∀ v ∈ p2, D.m.Feas v) → L.adversarialSamples sys xe o p1 p2 p3 = none := by
  obtain ⟨P, x, eP, -⟩ := C32_program L hL h o.lam o.epsPos
  obtain ⟨D, eD, -, -, -, sD, -⟩ := C33_program L hL h o.lam o.epsLo .expLower none none hsys
  obtain ⟨E, eE, -⟩ := C33_program L hL h o.lam o.epsUp .expUpper none none hsys
  refine ⟨D, eD, fun p1 p2 p3 f2 => ?_⟩
  have hn : poolStates D.m D.x p2 = [] := by
    rw [List.eq_nil_iff_forall_not_mem]
    intro s hs
    obtain ⟨v, hv, h0, rfl⟩ := mem_poolStates.1 hs
    obtain ⟨a, b, c, -, -, -, d⟩ := sD v (f2 v hv)
    simp only [decrease] at d
    linarith [hc _ _ a b c]
  simp [Lyap.adversarialSamples, eP, eD, eE, hn]

theorem foldlM_validation (loss : List (Vec K) → Option (Vec K)) (N : ℕ) (rs : List (List (Vec K))) (ls : List (Vec K))
    (h : List.Forall₂ (fun r l => loss r = some l ∧ l.length = N) rs ls) (acc : Vec K) (ha : acc.length = N) :
    ∃ s, rs.foldlM (fun acc r => do
      let l ← loss r
      if l.length = acc.length then some (List.zipWith (· + ·) acc l) else none) acc = some s ∧ s.length = N ∧
      ∀ i, s.getD i 0 = acc.getD i 0 + (ls.map fun l => l.getD i 0).sum := by
  induction h generalizing acc with
  | nil => exact ⟨acc, rfl, ha, by simp⟩
  | @cons r l rs ls hrl _ ih =>
    obtain ⟨s, e, hl, hs⟩ := ih (List.zipWith (· + ·) acc l) (by simp [ha, hrl.2])
    refine ⟨s, ?_, hl, fun i => ?_⟩
    · rw [List.foldlM_cons]
      simp only [hrl.1, Option.bind_eq_bind, Option.bind_some, hrl.2, ha, if_true]
      exact e
    · have : (List.zipWith (· + ·) acc l).getD i 0 = acc.getD i 0 + l.getD i 0 := by
        simp only [List.getD_eq_getElem?_getD, List.getElem?_zipWith]
        rcases lt_or_ge i N with hi | hi
        · rw [List.getElem?_eq_getElem (by omega), List.getElem?_eq_getElem (by rw [hrl.2]; omega)]
          simp
        · rw [List.getElem?_eq_none (by omega), List.getElem?_eq_none (by rw [hrl.2]; omega)]
          simp
      rw [hs i, this, List.map_cons, List.sum_cons, add_assoc]

/-- C101. For rollouts of equal length `rollout_validation` returns the sum of their losses. This is the mean that the documentation
announces only for one rollout or for losses that add up to zero. -/
theorem C101_validation_partial (loss : List (Vec K) → Option (Vec K)) (N : ℕ) (rs : List (List (Vec K))) (h0 : rs ≠ [])
    (hN : ∀ r ∈ rs, r.length = N) (ls : List (Vec K)) (h : List.Forall₂ (fun r l => loss r = some l ∧ l.length = N) rs ls) :
    ∃ s, rolloutValidation loss rs = some s ∧ s.length = N ∧ ∀ i, s.getD i 0 = (ls.map fun l => l.getD i 0).sum ∧
      (s.getD i 0 = (ls.map fun l => l.getD i 0).sum / ls.length ↔ rs.length = 1 ∨ (ls.map fun l => l.getD i 0).sum = 0) := by
  obtain ⟨r, rest, rfl⟩ := List.exists_cons_of_ne_nil h0
  obtain ⟨s, e, hl, hs⟩ := foldlM_validation loss N _ ls h (List.replicate N 0) (by simp)
  have hsum : ∀ i, s.getD i 0 = (ls.map fun l => l.getD i 0).sum := by
    intro i
    rw [hs i]
    simp only [List.getD_eq_getElem?_getD, List.getElem?_replicate]
    split_ifs <;> simp
  refine ⟨s, ?_, hl, fun i => ⟨hsum i, ?_⟩⟩
  · simp only [rolloutValidation, List.getElem?_cons_zero, Option.bind_eq_bind, Option.bind_some, hN r (by simp)]
    exact e
  · have hlen : ls.length = rest.length + 1 := by simpa using h.length_eq.symm
    have hp : (ls.length : K) ≠ 0 := by
      rw [hlen]
      positivity
    rw [hsum i, eq_div_iff hp, mul_right_eq_self₀, hlen, Nat.cast_eq_one, List.length_cons]

/-- C101 (contradicted). `reconstruction_loss` ignores all images of the batch but the first. -/
theorem C101_reconstruction_first (a b : Vec K) (as bs as' bs' : List (Vec K)) (h : as.length = bs.length) (h' : as'.length = bs'.length) :
    reconstructionLoss (a :: as) (b :: bs) = reconstructionLoss (a :: as') (b :: bs') := by
  simp [reconstructionLoss, h, h']

/-- C101 (contradicted). A batch whose second image is not reconstructed at all has the loss zero. -/
theorem C101_reconstruction_blind : reconstructionLoss [[1, 2], [1, 1]] [[1, 2], [0, 0]] = some (0 : ℚ) := by
  simp [reconstructionLoss, meanSq, vmean, vsub]

/-- C101. For a batch of one image the loss is the mean of the squared differences; it is zero exactly if the image is reconstructed.
Missing: the other images of a batch, see `C101_reconstruction_first`. -/
theorem C101_reconstruction_partial (a b : Vec K) (h : a.length = b.length) (h0 : a ≠ []) :
    ∃ r, reconstructionLoss [a] [b] = some r ∧ r = ((List.zipWith (fun x y => (x - y) ^ 2) a b).sum) / a.length ∧ 0 ≤ r ∧ (r = 0 ↔ a = b) := by
  refine ⟨meanSq a b, by simp [reconstructionLoss], ?_, meanSq_nonneg a b, meanSq_zero h h0⟩
  simp [meanSq, vmean, vsub, List.map_zipWith, h]

/-! ### A concrete case -/

namespace DynExample

/-- Options for `absLyap`, `V(x) = 3/2 |x|`, and the dynamics `x⁺ = x / 2`. -/
noncomputable def opt : DynOptions ℝ := ⟨1 / 2, 1 / 4, 1 / 10, 3 / 5, none, 1, 2, 3⟩

noncomputable def step (x : Vec ℝ) : Vec ℝ := matVec [[1 / 2]] x

theorem hR : getR opt.R absLyap.dim = some (eye 1) := by simp [getR, opt, absLyap, Lyap.dim]

theorem iter (n : ℕ) : step^[n] [1] = [(1 / 2 : ℝ) ^ n] := by
  induction n with
  | zero => simp
  | succ n ih => rw [Function.iterate_succ_apply', ih]; simp [step, matVec, dot, pow_succ']

theorem inBox {a : ℝ} (h : |a| ≤ 1) : InBox [-1] [1] [a] := by
  refine ⟨rfl, rfl, fun i hi => ?_⟩
  have : i = 0 := by simpa using hi
  subst this
  simpa [abs_le] using h

theorem iter_box (n : ℕ) : InBox [-1] [1] (step^[n] [(1 : ℝ)]) := by
  rw [iter]
  refine inBox ?_
  rw [abs_of_nonneg (by positivity)]
  exact pow_le_one₀ (by norm_num) (by norm_num)

/-- The losses of the decrease vanish at the states of the rollout from 1, which are in the box. -/
example (N : ℕ) : ∃ xs vs p, absLyap.rollout step [0] opt [1] N = some (xs, vs) ∧ (∀ x ∈ xs, InBox [-1] [1] x) ∧
    absLyap.SampleLosses step [0] opt xs [-1] [1] (p, 0, 0) := by
  have hb : ∀ x ∈ (List.range (N + 1)).map fun n => step^[n] [(1 : ℝ)], InBox [-1] [1] x := by
    intro x hx
    obtain ⟨n, -, rfl⟩ := List.mem_map.1 hx
    exact iter_box n
  obtain ⟨⟨p, l, u⟩, hr⟩ := C100_samples_defined absLyap step [0] opt hR ((List.range (N + 1)).map fun n => step^[n] [(1 : ℝ)]) [-1] [1]
  obtain ⟨-, ⟨-, hl⟩, -, hu⟩ := C100_samples absLyap step [0] opt hR (by norm_num [opt]) (lo := [-1]) (up := [1]) rfl
    (fun x hx => (hb x hx).1) hr
  have el : l = 0 := hl.2 fun x hx _ => by
    obtain ⟨n, -, rfl⟩ := List.mem_map.1 hx
    have hp : (0 : ℝ) < (1 / 2) ^ n := by positivity
    have e1 : step^[n] [(1 : ℝ)] = [(1 / 2) ^ n] := iter n
    have e2 : step [(1 / 2 : ℝ) ^ n] = [1 / 2 * (1 / 2) ^ n] := by simp [step, matVec, dot]
    simp only [e1, e2, opt, abs_V]
    rw [abs_of_pos hp, abs_of_pos (by positivity)]
    linarith
  have eu : u = 0 := hu.2 fun x hx _ => by
    obtain ⟨n, -, rfl⟩ := List.mem_map.1 hx
    have hp : (0 : ℝ) < (1 / 2) ^ n := by positivity
    have e1 : step^[n] [(1 : ℝ)] = [(1 / 2) ^ n] := iter n
    have e2 : step [(1 / 2 : ℝ) ^ n] = [1 / 2 * (1 / 2) ^ n] := by simp [step, matVec, dot]
    simp only [e1, e2, opt, abs_V]
    rw [abs_of_pos hp, abs_of_pos (by positivity)]
    linarith
  subst el eu
  exact ⟨_, _, p, C100_rollout absLyap step [0] opt hR [1] rfl N, hb, hr⟩

/-- `adversarial_samples` raises for this system, although the lower bound of the decrease is certified. -/
example : ∃ D, absLyap.derivative (linSys 1 [[1 / 2]]) [0] (1 / 2) (1 / 10) .expLower none none none .binary = some D ∧
    ∀ p1 p2 p3, (∀ v ∈ p2, D.m.Feas v) → absLyap.adversarialSamples (linSys 1 [[1 / 2]]) [0] opt p1 p2 p3 = none := by
  refine C101_adversarial_raises absLyap absLyap_ok opt absEq_ok absSys_enc ?_
  rintro y _ hy - rfl
  obtain ⟨a, rfl⟩ := singleton_of_inBox hy
  have e2 : matVec [[(1 / 2 : ℝ)]] [a] = [1 / 2 * a] := by simp [matVec, dot]
  simp only [e2, opt, abs_V, abs_mul]
  rw [abs_of_pos (by norm_num : (0 : ℝ) < 1 / 2)]
  linarith [abs_nonneg a]

/-- The programs of `lyapunov_loss` for this system. -/
example := C100_programs absLyap absLyap_ok opt absEq_ok absSys_enc (w := (1, 2, 3)) (by norm_num)

/-- With the rates exchanged both bounds are violated at 1, and `adversarial_samples` returns states. -/
noncomputable def opt' : DynOptions ℝ := ⟨1 / 2, 1 / 4, 3 / 5, 1 / 10, none, 1, 2, 3⟩

example : ∃ p2 p3 r, absLyap.adversarialSamples (linSys 1 [[1 / 2]]) [0] opt' [] p2 p3 = some r ∧ r.2 = ([[1]], [[1]]) := by
  obtain ⟨P, x, eP, -⟩ := C32_program absLyap absLyap_ok absEq_ok (1 / 2) (1 / 4)
  obtain ⟨D, eD, -, -, -, sD, cD⟩ := C33_program absLyap absLyap_ok absEq_ok (1 / 2) (3 / 5) .expLower none none absSys_enc
  obtain ⟨E, eE, -, -, -, sE, cE⟩ := C33_program absLyap absLyap_ok absEq_ok (1 / 2) (1 / 10) .expUpper none none absSys_enc
  have b1 : InBox absLyap.xLo absLyap.xUp [(1 : ℝ)] := inBox (by norm_num)
  have b2 : InBox absLyap.xLo absLyap.xUp [(1 / 2 : ℝ)] := inBox (by rw [abs_of_pos] <;> norm_num)
  obtain ⟨v, hv, ev, evn⟩ := cD _ _ b1 b2 (by simp [matVec, dot]) (by simp [Between])
  obtain ⟨w, hw, ew, ewn⟩ := cE _ _ b1 b2 (by simp [matVec, dot]) (by simp [Between])
  have ov : 0 < D.m.objVal v := by
    rw [(sD v hv).2.2.2.2.2.2, ev, evn]
    simp only [decrease, abs_V]
    rw [abs_of_pos (by norm_num : (0 : ℝ) < 1 / 2), abs_one]
    norm_num
  have ow : 0 < E.m.objVal w := by
    rw [(sE w hw).2.2.2.2.2.2, ew, ewn]
    simp only [decrease, abs_V]
    rw [abs_of_pos (by norm_num : (0 : ℝ) < 1 / 2), abs_one]
    norm_num
  refine ⟨[v], [w], ([], [[1]], [[1]]), ?_, rfl⟩
  simp only [Lyap.adversarialSamples, opt', eP, eD, eE, Option.bind_eq_bind, Option.bind_some]
  simp [poolStates, ov, ow, ev, ew]

/-- The loss of a rollout that follows the dynamics vanishes. -/
example : ∃ ls, absLyap.rolloutLoss step [0] opt [[1], [1 / 2]] = some ls ∧ ∀ e ∈ ls, e = 0 := by
  obtain ⟨ls, e, -, -, -, h⟩ := C100_rollout_loss absLyap step [0] opt hR (by simp [absLyap, Lyap.dim])
    (fun x _ => by simp [step, matVec, absLyap, Lyap.dim]) (rows := [[1], [1 / 2]]) (by simp) (by simp [absLyap, Lyap.dim])
  refine ⟨ls, e, h.2 fun n x y hx hy => ?_⟩
  match n with
  | 0 => simp at hx hy; subst hx hy; simp [step, matVec, dot]
  | n + 1 => simp at hy

/-- Two rollouts with losses 1 and 3: the validation loss is 4, their mean is 2. -/
example : rolloutValidation (fun r => some (r.map fun x => x.getD 0 0)) [[[1]], [[3]]] = some [(4 : ℚ)] := by
  simp [rolloutValidation]
  norm_num

end DynExample

end NNL.Props
