import Verif.Model.TrainUtil
import Mathlib.Algebra.Order.Archimedean.Basic

/-! # Properties C57, C58, C59, C61: training utilities -/

set_option linter.unusedSectionVars false

namespace NNL.Props

open NNL NNL.Model

variable {K : Type*} [Field K] [LinearOrder K] [IsStrictOrderedRing K]

/-! ## C59 -/

theorem dot_self_nonneg (a : Vec K) : 0 ≤ dot a a := by
  induction a with
  | nil => simp
  | cons x a ih => rw [dot_cons]; exact add_nonneg (mul_self_nonneg x) ih

theorem perp_spec {a b p : Vec K} (hl : a.length = b.length) (h : perp a b = some p) :
    dot p b = 0 ∧ 0 ≤ dot p a ∧ p.length = a.length := by
  unfold perp at h
  split at h
  · cases h
  · rename_i h0
    cases h
    have hlen : (vsmul (dot a b / dot b b) b).length = b.length := by simp
    have h1 : dot (vsub a (vsmul (dot a b / dot b b) b)) b = 0 := by
      rw [dot_vsub_left _ _ _ (by rw [hlen, hl]), dot_vsmul_left, div_mul_cancel₀ _ h0, sub_self]
    refine ⟨h1, ?_, by simp [hl]⟩
    have h2 := dot_self_nonneg (vsub a (vsmul (dot a b / dot b b) b))
    rw [dot_vsub_right _ _ _ (by rw [hlen, hl]), dot_vsmul_right, h1, mul_zero, sub_zero] at h2
    exact h2

theorem addO_some {a b : Option (Vec K)} {g : Vec K} :
    addO a b = some g ↔ ∃ u v, a = some u ∧ b = some v ∧ g = vadd u v := by
  cases a <;> cases b <;> simp [addO, eq_comm]

theorem zeros_vadd (a : Vec K) (n : ℕ) (h : a.length = n) : vadd (zeros n) a = a := by
  apply vec_ext (by simp [h])
  intro i hi
  have hi2 : i < a.length := by simp at hi; omega
  have hn : i < n := by omega
  simp [vadd, zeros, hn, hi2]

theorem addO_zeros {n : ℕ} {b : Option (Vec K)} (h : ∀ v, b = some v → v.length = n) :
    addO (some (zeros n)) b = b := by
  cases b with
  | none => rfl
  | some v => simp [addO, zeros_vadd v n (h v rfl)]

/-- C59: projection is reported as needed exactly if the gradients do not form an acute angle. -/
theorem C59_flag (mode : PGMode) (n1 n2 : Vec K) :
    (projectGradient mode n1 n2).1 = true ↔ dot n1 n2 ≤ 0 := by
  unfold projectGradient
  split
  · rename_i h; simpa using h
  · rename_i h; simpa using h

/-- C59: if the gradients agree, the direction is their sum, which has positive inner product with
both. -/
theorem C59_agree (mode : PGMode) {n1 n2 : Vec K} (hl : n1.length = n2.length) (h : 0 < dot n1 n2) :
    ∃ g, (projectGradient mode n1 n2).2 = some g ∧ g = vadd n1 n2 ∧ 0 < dot g n1 ∧ 0 < dot g n2 := by
  refine ⟨vadd n1 n2, by simp [projectGradient, h], rfl, ?_, ?_⟩
  · rw [dot_vadd_left _ _ _ hl, dot_comm n2 n1]
    linarith [dot_self_nonneg n1]
  · rw [dot_vadd_left _ _ _ hl]
    linarith [dot_self_nonneg n2]

/-- C59: in mode BOTH the direction has non-negative inner product with both gradients. -/
theorem C59_both {n1 n2 g : Vec K} (hl : n1.length = n2.length)
    (h : (projectGradient .both n1 n2).2 = some g) : 0 ≤ dot g n1 ∧ 0 ≤ dot g n2 := by
  by_cases hc : dot n1 n2 > 0
  · obtain ⟨g', h1, -, h2, h3⟩ := C59_agree .both hl hc
    rw [h1] at h; cases h
    exact ⟨h2.le, h3.le⟩
  · simp only [projectGradient, hc, if_false, reduceCtorEq, true_or, or_true, if_true] at h
    rw [addO_zeros (fun v hv => (perp_spec hl hv).2.2)] at h
    obtain ⟨u, v, hu, hv, rfl⟩ := addO_some.1 h
    obtain ⟨a1, a2, a3⟩ := perp_spec hl hu
    obtain ⟨b1, b2, b3⟩ := perp_spec hl.symm hv
    have huv : u.length = v.length := by omega
    rw [dot_vadd_left _ _ _ huv, dot_vadd_left _ _ _ huv, a1, b1]
    constructor <;> linarith

/-- C59: in mode LOSS1, if the gradients conflict, the direction is orthogonal to the second gradient
and does not increase the first loss. -/
theorem C59_loss1 {n1 n2 g : Vec K} (hl : n1.length = n2.length) (hc : dot n1 n2 ≤ 0)
    (h : (projectGradient .loss1 n1 n2).2 = some g) : dot g n2 = 0 ∧ 0 ≤ dot g n1 := by
  simp only [projectGradient, gt_iff_lt, not_lt.2 hc, if_false, reduceCtorEq, or_false, if_true] at h
  rw [addO_zeros (fun v hv => (perp_spec hl hv).2.2)] at h
  exact ⟨(perp_spec hl h).1, (perp_spec hl h).2.1⟩

/-- C59: in mode LOSS2, if the gradients conflict, the direction is orthogonal to the first gradient and
does not increase the second loss. -/
theorem C59_loss2 {n1 n2 g : Vec K} (hl : n1.length = n2.length) (hc : dot n1 n2 ≤ 0)
    (h : (projectGradient .loss2 n1 n2).2 = some g) : dot g n1 = 0 ∧ 0 ≤ dot g n2 := by
  simp only [projectGradient, gt_iff_lt, not_lt.2 hc, if_false, reduceCtorEq, or_false, if_true] at h
  rw [addO_zeros (fun v hv => by rw [(perp_spec hl.symm hv).2.2, hl])] at h
  exact ⟨(perp_spec hl.symm h).1, (perp_spec hl.symm h).2.1⟩

/-- C59: in mode EMPHASIZE_LOSS1 the direction never increases the first loss; if the gradients
conflict its inner product with the first gradient is that of the first gradient with itself. -/
theorem C59_emphasize1 {n1 n2 g : Vec K} (hl : n1.length = n2.length)
    (h : (projectGradient .emphasizeLoss1 n1 n2).2 = some g) :
    0 ≤ dot g n1 ∧ (dot n1 n2 ≤ 0 → dot g n1 = dot n1 n1) := by
  by_cases hc : dot n1 n2 > 0
  · obtain ⟨g', h1, -, h2, h3⟩ := C59_agree .emphasizeLoss1 hl hc
    rw [h1] at h; cases h
    exact ⟨h2.le, fun h => absurd hc (not_lt.2 h)⟩
  · simp only [projectGradient, hc, if_false, reduceCtorEq, or_true, if_true, or_false] at h
    rw [addO_zeros (by rintro v hv; cases hv; rfl)] at h
    obtain ⟨u, v, hu, hv, rfl⟩ := addO_some.1 h
    cases hu
    obtain ⟨b1, b2, b3⟩ := perp_spec hl.symm hv
    rw [dot_vadd_left _ _ _ (by omega), b1, add_zero]
    exact ⟨dot_self_nonneg n1, fun _ => rfl⟩

/-- C59: in mode EMPHASIZE_LOSS2 the direction never increases the second loss. -/
theorem C59_emphasize2 {n1 n2 g : Vec K} (hl : n1.length = n2.length)
    (h : (projectGradient .emphasizeLoss2 n1 n2).2 = some g) :
    0 ≤ dot g n2 ∧ (dot n1 n2 ≤ 0 → dot g n2 = dot n2 n2) := by
  by_cases hc : dot n1 n2 > 0
  · obtain ⟨g', h1, -, h2, h3⟩ := C59_agree .emphasizeLoss2 hl hc
    rw [h1] at h; cases h
    exact ⟨h3.le, fun h => absurd hc (not_lt.2 h)⟩
  · simp only [projectGradient, hc, if_false, reduceCtorEq, or_true, if_true, or_false] at h
    rw [addO_zeros (fun v hv => (perp_spec hl hv).2.2)] at h
    obtain ⟨u, v, hu, hv, rfl⟩ := addO_some.1 h
    cases hv
    obtain ⟨b1, b2, b3⟩ := perp_spec hl hu
    rw [dot_vadd_left _ _ _ (by omega), b1, zero_add]
    exact ⟨dot_self_nonneg n2, fun _ => rfl⟩

/-- C59: the direction is a number (not NaN) whenever neither gradient is zero. -/
theorem C59_defined (mode : PGMode) {n1 n2 : Vec K} (h1 : dot n1 n1 ≠ 0) (h2 : dot n2 n2 ≠ 0) :
    ((projectGradient mode n1 n2).2).isSome := by
  unfold projectGradient
  split
  · rfl
  · cases mode <;> simp [perp, h1, h2, addO]

/-- If a gradient is zero (one loss is already optimal), mode BOTH yields NaN instead of the other
gradient. -/
theorem C59_nan_of_zero (n1 : Vec K) (n : ℕ) :
    (projectGradient .both n1 (zeros n)).2 = none ∧ (projectGradient .both (zeros n) n1).2 = none := by
  have h1 : dot n1 (zeros n : Vec K) = 0 := by rw [dot_comm, dot_zeros_left]
  constructor
  · simp [projectGradient, h1, perp, addO]
  · simp [projectGradient, perp, addO]

theorem distribute_spec : ∀ (sizes : List ℕ) (off : ℕ) (g : Vec K), off + sizes.sum = g.length →
    (distribute sizes off g).flatten = g.drop off ∧ (distribute sizes off g).map List.length = sizes := by
  intro sizes
  induction sizes with
  | nil => intro off g h; simp at h; simp [distribute, h]
  | cons n ns ih =>
    intro off g h
    rw [List.sum_cons] at h
    obtain ⟨i1, i2⟩ := ih (off + n) g (by omega)
    constructor
    · rw [distribute, List.flatten_cons, i1, ← List.drop_drop, List.take_append_drop]
    · rw [distribute, List.map_cons, i2, List.length_take, List.length_drop, Nat.min_eq_left (by omega)]

/-- C59: the direction is handed out to the parameters without loss: the pieces have the sizes of the
parameters and are, in order, the direction. -/
theorem C59_distribute (sizes : List ℕ) (g : Vec K) (h : sizes.sum = g.length) :
    (distribute sizes 0 g).flatten = g ∧ (distribute sizes 0 g).map List.length = sizes := by
  have := distribute_spec sizes 0 g (by omega)
  simpa using this

/-- The hypotheses of C59 are met by conflicting gradients. -/
example : (projectGradient .both ([1, 0] : Vec ℚ) [-1, 1]) = (true, some [1 / 2, 3 / 2]) ∧
    (projectGradient .loss1 ([1, 0] : Vec ℚ) [-1, 1]) = (true, some [1 / 2, 1 / 2]) := by
  constructor <;>
  norm_num [projectGradient, perp, addO, vadd, vsub, vsmul, zeros, List.replicate_succ] <;>
  simp
  norm_num

/-! ## C57 -/

/-- `L` cuts the list into its maximal runs of elements close to their predecessor. -/
def IsRuns {α : Type*} (near : α → α → Prop) : List (List α) → List α → Prop
  | [], s => s = []
  | [] :: _, _ => False
  | (a :: r) :: L, s => (a :: r).IsChain near ∧
    ∃ s', s = (a :: r) ++ s' ∧ IsRuns near L s' ∧ ∀ b ∈ s'.head?, ¬ near ((a :: r).getLast (by simp)) b

/-- The states that are farther than `r` from their predecessor. -/
def farFrom (r : K) : Vec K → List (Vec K) → List (Vec K)
  | _, [] => []
  | a, b :: t => if sqDist b a > r ^ 2 then b :: farFrom r b t else farFrom r b t

/-- The positions of these states. -/
def posFrom (r : K) : ℕ → Vec K → List (Vec K) → List ℕ
  | _, _, [] => []
  | i, a, b :: t => if sqDist b a > r ^ 2 then (i + 1) :: posFrom r (i + 1) b t
    else posFrom r (i + 1) b t

theorem kept_eq (a : Vec K) (t : List (Vec K)) (r : K) :
    keptStates (a :: t) r = a :: farFrom r a t := by
  simp only [keptStates, stepDist, List.tail_cons]
  congr 1
  induction t generalizing a with
  | nil => rfl
  | cons b t ih =>
    simp only [List.zipWith_cons_cons, List.zip_cons_cons, List.filter_cons, farFrom]
    by_cases h : sqDist b a > r ^ 2
    · simp only [h, decide_true, if_true, List.map_cons, ih b]
    · simp [h, ih b]

theorem newIndex_eq (a : Vec K) (t : List (Vec K)) (r : K) :
    newIndex (a :: t) r = posFrom r 0 a t := by
  have : ∀ (t : List (Vec K)) (a : Vec K) (i : ℕ),
      (((List.range' i t.length).zip (List.zipWith sqDist t (a :: t))).filter fun p =>
        decide (p.2 > r ^ 2)).map (fun p => p.1 + 1) = posFrom r i a t := by
    intro t
    induction t with
    | nil => intro a i; rfl
    | cons b t ih =>
      intro a i
      simp only [List.length_cons, List.range'_succ, List.zipWith_cons_cons, List.zip_cons_cons,
        List.filter_cons, posFrom]
      by_cases h : sqDist b a > r ^ 2
      · simp only [h, decide_true, if_true, List.map_cons, ih b]
      · simp only [h, decide_false, if_false]
        simpa using ih b (i + 1)
  have e := this t a 0
  rw [← List.range_eq_range'] at e
  simpa [newIndex, stepDist] using e

/-- Start positions of runs of the given lengths. -/
def starts {α : Type*} : ℕ → List (List α) → List ℕ
  | _, [] => []
  | o, x :: xs => o :: starts (o + x.length) xs

/-- Within the radius. -/
def Near (r : K) (a b : Vec K) : Prop := sqDist b a ≤ r ^ 2

theorem run_skip (r : K) (s' : List (Vec K)) : ∀ (w : List (Vec K)) (b : Vec K) (i : ℕ),
    (b :: w).IsChain (Near r) →
    farFrom r b (w ++ s') = farFrom r ((b :: w).getLast (by simp)) s' ∧
    posFrom r i b (w ++ s') = posFrom r (i + w.length) ((b :: w).getLast (by simp)) s' := by
  intro w
  induction w with
  | nil => intro b i _; simp
  | cons c w ihw =>
    intro b i hch
    have hbc : ¬ sqDist c b > r ^ 2 := by
      have := (List.isChain_cons_cons.1 hch).1
      simpa [Near] using this
    obtain ⟨e1, e2⟩ := ihw c (i + 1) (List.isChain_cons_cons.1 hch).2
    simp only [List.cons_append, farFrom, posFrom, hbc, if_false, e1, e2, List.length_cons]
    constructor
    · simp
    · rw [show i + 1 + w.length = i + (w.length + 1) by omega]; simp

theorem runs_rec (r : K) : ∀ (L : List (List (Vec K))) (s : List (Vec K)) (z : Vec K) (i : ℕ),
    IsRuns (Near r) L s → (∀ c ∈ s.head?, ¬ Near r z c) →
    farFrom r z s = L.map (fun x => x.headD []) ∧ posFrom r i z s = starts (i + 1) L := by
  intro L
  induction L with
  | nil => intro s z i h _; simp only [IsRuns] at h; subst h; simp [farFrom, posFrom, starts]
  | cons x L ihL =>
    intro s z i h hz
    cases x with
    | nil => exact absurd h (by simp [IsRuns])
    | cons c v =>
      obtain ⟨hc, s', rfl, k2, k3⟩ := h
      have hzc : sqDist c z > r ^ 2 := by
        have := hz c (by simp)
        simpa [Near] using this
      obtain ⟨e1, e2⟩ := run_skip r s' v c (i + 1) hc
      obtain ⟨f1, f2⟩ := ihL s' ((c :: v).getLast (by simp)) (i + 1 + v.length) k2 k3
      constructor
      · rw [List.cons_append, farFrom, if_pos hzc, e1, f1]; rfl
      · rw [List.cons_append, posFrom, if_pos hzc, e2, f2, starts, List.length_cons]
        rw [show i + 1 + v.length + 1 = i + 1 + (v.length + 1) by omega]

theorem runs_all (r : K) {a : Vec K} {u : List (Vec K)} {L : List (List (Vec K))} {s : List (Vec K)}
    (h : IsRuns (Near r) ((a :: u) :: L) s) :
    keptStates s r = ((a :: u) :: L).map (fun x => x.headD []) ∧
    newIndex s r = starts (u.length + 1) L ∧ s = ((a :: u) :: L).flatten := by
  have hfl : ∀ (L : List (List (Vec K))) (s : List (Vec K)), IsRuns (Near r) L s → s = L.flatten := by
    intro L
    induction L with
    | nil => intro s h; simpa [IsRuns] using h
    | cons x L ih =>
      intro s h
      cases x with
      | nil => exact absurd h (by simp [IsRuns])
      | cons c v =>
        obtain ⟨hc, s', rfl, k2, k3⟩ := h
        rw [ih s' k2]; rfl
  have hs := hfl _ _ h
  obtain ⟨hc, s', rfl, k2, k3⟩ := h
  obtain ⟨e1, e2⟩ := run_skip r s' u a 0 hc
  obtain ⟨f1, f2⟩ := runs_rec r L s' _ (0 + u.length) k2 k3
  refine ⟨?_, ?_, hs⟩
  · rw [List.cons_append, kept_eq, e1, f1]; rfl
  · rw [List.cons_append, newIndex_eq, e2, f2, Nat.zero_add]

theorem exists_runs {α : Type*} (near : α → α → Prop) (s : List α) : ∃ L, IsRuns near L s := by
  classical
  induction s with
  | nil => exact ⟨[], rfl⟩
  | cons a s ih =>
    obtain ⟨L, hL⟩ := ih
    cases L with
    | nil =>
      simp only [IsRuns] at hL
      subst hL
      exact ⟨[[a]], by simp [IsRuns]⟩
    | cons x L =>
      cases x with
      | nil => exact absurd hL (by simp [IsRuns])
      | cons b v =>
        by_cases hn : near a b
        · obtain ⟨hc, s', rfl, k2, k3⟩ := hL
          refine ⟨(a :: b :: v) :: L, List.isChain_cons_cons.2 ⟨hn, hc⟩, s', rfl, k2, ?_⟩
          simpa using k3
        · refine ⟨[a] :: (b :: v) :: L, by simp, s, rfl, hL, ?_⟩
          obtain ⟨hc, s', rfl, k2, k3⟩ := hL
          simpa using hn

theorem diffs_starts {α : Type*} : ∀ (L : List (List α)) (x : List α) (o : ℕ),
    List.zipWith (fun a b => a - b) (starts o (x :: L)).tail (starts o (x :: L))
      = (x :: L).dropLast.map List.length := by
  intro L
  induction L with
  | nil => intro x o; simp [starts]
  | cons y L ih =>
    intro x o
    have := ih y (o + x.length)
    simp only [starts, List.tail_cons, List.zipWith_cons_cons, List.dropLast_cons_cons, List.map_cons] at this ⊢
    rw [this]
    congr 1
    omega

theorem last_starts {α : Type*} : ∀ (L : List (List α)) (x : List α) (o : ℕ),
    o + (x :: L).flatten.length - (starts o (x :: L)).getLastD 0 = ((x :: L).getLast (by simp)).length := by
  intro L
  induction L with
  | nil => intro x o; simp [starts]
  | cons y L ih =>
    intro x o
    have := ih y (o + x.length)
    rw [List.getLast_cons (by simp), ← this]
    simp only [starts, List.flatten_cons, List.length_append]
    congr 1
    omega

theorem repetition_eq (r : K) {a : Vec K} {u : List (Vec K)} {L : List (List (Vec K))} {s : List (Vec K)}
    (h : IsRuns (Near r) ((a :: u) :: L) s) :
    repetition s r = if L.length ≤ 1 then [s.length] else ((a :: u) :: L).map List.length := by
  obtain ⟨-, h2, h3⟩ := runs_all r h
  unfold repetition
  rw [h2]
  rcases L with _ | ⟨x, _ | ⟨y, L⟩⟩
  · simp [starts]
  · simp [starts]
  · have hd := diffs_starts (y :: L) x (u.length + 1)
    have hl := last_starts (y :: L) x (u.length + 1)
    simp only [hd]
    rw [if_neg (by simp), if_neg (by simp)]
    have hlen : s.length = u.length + 1 + (x :: y :: L).flatten.length := by
      rw [h3]; simp; omega
    rw [hlen, hl]
    conv_rhs => rw [← List.dropLast_append_getLast (l := x :: y :: L) (by simp)]
    simp [starts]

theorem cluster_eq {s : List (Vec K)} (hs : s ≠ []) (r : K) :
    clusterStates s r = (keptStates s r, repetition s r) := by
  cases s with
  | nil => exact absurd rfl hs
  | cons a t => rfl

/-- C57: every list of states splits into runs of states within the radius of their predecessor. -/
theorem C57_runs_exist (s : List (Vec K)) (r : K) : ∃ L, IsRuns (Near r) L s := exists_runs _ s

/-- C57: the states kept are exactly the first states of the runs. -/
theorem C57_representatives {s : List (Vec K)} {L : List (List (Vec K))} {r : K} (hs : s ≠ [])
    (h : IsRuns (Near r) L s) : (clusterStates s r).1 = L.map (fun x => x.headD []) := by
  rcases L with _ | ⟨_ | ⟨a, u⟩, L⟩
  · exact absurd h hs
  · exact absurd h (by simp [IsRuns])
  · rw [cluster_eq hs]; exact (runs_all r h).1

/-- C57: the repetition counts add up to the number of states. -/
theorem C57_total {s : List (Vec K)} (hs : s ≠ []) (r : K) : (clusterStates s r).2.sum = s.length := by
  obtain ⟨L, h⟩ := exists_runs (Near r) s
  rcases L with _ | ⟨_ | ⟨a, u⟩, L⟩
  · exact absurd h hs
  · exact absurd h (by simp [IsRuns])
  · rw [cluster_eq hs]; show (repetition s r).sum = _
    rw [repetition_eq r h]
    split
    · simp
    · rw [(runs_all r h).2.2, List.length_flatten]

/-- C57, the part that holds: unless there are exactly two runs, each kept state comes with the size of
its run. Missing: two runs, see `C57_two_clusters_counterexample`. -/
theorem C57_counts_partial {s : List (Vec K)} {L : List (List (Vec K))} {r : K} (hs : s ≠ [])
    (h : IsRuns (Near r) L s) (h2 : L.length ≠ 2) : (clusterStates s r).2 = L.map List.length := by
  rcases L with _ | ⟨_ | ⟨a, u⟩, L⟩
  · exact absurd h hs
  · exact absurd h (by simp [IsRuns])
  · rw [cluster_eq hs]; show repetition s r = _
    rw [repetition_eq r h]
    split
    · rename_i hl
      have hL : L = [] := by
        rcases L with _ | ⟨x, L⟩
        · rfl
        · simp at hl h2; simp [hl] at h2
      subst hL
      rw [(runs_all r h).2.2]; simp
    · rfl

/-- C57, negative part: for every list with exactly two runs, two states are kept but a single count is
returned. -/
theorem C57_two_clusters {s : List (Vec K)} {L : List (List (Vec K))} {r : K}
    (h : IsRuns (Near r) L s) (h2 : L.length = 2) :
    (clusterStates s r).1.length = 2 ∧ (clusterStates s r).2 = [s.length] := by
  rcases L with _ | ⟨_ | ⟨a, u⟩, L⟩
  · simp at h2
  · exact absurd h (by simp [IsRuns])
  · have hs : s ≠ [] := by rw [(runs_all r h).2.2]; simp
    rw [cluster_eq hs]
    constructor
    · show (keptStates s r).length = 2
      rw [(runs_all r h).1]; simpa using h2
    · show repetition s r = _
      rw [repetition_eq r h, if_pos (by simp at h2; omega)]

/-- Such a list: three states, the last one far from the other two. -/
theorem C57_two_clusters_counterexample :
    clusterStates ([[0], [1 / 2], [5]] : List (Vec ℚ)) 1 = ([[0], [5]], [3]) := by
  norm_num [clusterStates, keptStates, repetition, newIndex, stepDist, sqDist, vsub,
    List.range_succ, List.filter_cons]

/-- Three runs. -/
example : clusterStates ([[0], [1 / 2], [5], [9]] : List (Vec ℚ)) 1 = ([[0], [5], [9]], [2, 1, 1]) := by
  norm_num [clusterStates, keptStates, repetition, newIndex, stepDist, sqDist, vsub,
    List.range_succ, List.filter_cons]

/-! ## C58 -/

/-- Parameters, steps and directions fit together. -/
def Fits (p : Params K) (t : List K) (d : Params K) : Prop :=
  t.length = p.length ∧ List.Forall₂ (fun q e => q.length = e.length) p d

theorem vadd_vsmul_vsmul (q e : Vec K) (a b : K) (h : q.length = e.length) :
    vadd (vadd q (vsmul a e)) (vsmul b e) = vadd q (vsmul (a + b) e) := by
  induction q generalizing e with
  | nil => simp [vadd]
  | cons x q ih =>
    cases e with
    | nil => simp at h
    | cons y e =>
      have := ih e (by simpa using h)
      simp only [vadd, vsmul, List.map_cons, List.zipWith_cons_cons] at this ⊢
      rw [this]
      congr 1
      ring

theorem addStep_addStep {p : Params K} {t : List K} {d : Params K} (h : Fits p t d) (a b : K) :
    addStep (addStep p a t d) b t d = addStep p (a + b) t d := by
  obtain ⟨h1, h2⟩ := h
  induction h2 generalizing t with
  | nil => simp [addStep]
  | @cons q e p d hq hr ih =>
    cases t with
    | nil => simp at h1
    | cons s t =>
      have := ih (t := t) (by simpa using h1)
      simp only [addStep, List.zip_cons_cons, List.zipWith_cons_cons] at this ⊢
      rw [this, vadd_vsmul_vsmul _ _ _ _ hq]
      congr 3
      ring

theorem addStep_zero {p : Params K} {t : List K} {d : Params K} (h : Fits p t d) :
    addStep p 0 t d = p := by
  obtain ⟨h1, h2⟩ := h
  induction h2 generalizing t with
  | nil => simp [addStep]
  | @cons q e p d hq hr ih =>
    cases t with
    | nil => simp at h1
    | cons s t =>
      have := ih (t := t) (by simpa using h1)
      simp only [addStep, List.zip_cons_cons, List.zipWith_cons_cons] at this ⊢
      rw [this]
      congr 1
      have h0 : vsmul (0 * s) e = zeros e.length := by
        simp [vsmul, zeros]
      rw [h0, ← hq]
      induction q with
      | nil => rfl
      | cons x q ihq =>
        clear this ih ihq h0 h1 hr hq
        induction q generalizing x with
        | nil => simp [vadd, zeros]
        | cons y q ih =>
          have := ih y
          simp only [vadd, zeros, List.length_cons, List.replicate_succ, List.zipWith_cons_cons,
            add_zero] at this ⊢
          rw [this]

/-- What the search does once the step is short enough. -/
def lsEnd (p : Params K) : Option K → LSResult K
  | some l => .returned l p false
  | none => .unbound

theorem lsLoop_succ (f : Params K → K) (accept : K → K → Bool) (minStep red : K) (t : List K)
    (d : Params K) (fuel : ℕ) (p : Params K) (prev alpha : K) (last : Option K) :
    lsLoop f accept minStep red t d (fuel + 1) p prev alpha last =
      if alpha > minStep then
        if accept alpha (f (addStep p (alpha - prev) t d)) then
          .returned (f (addStep p (alpha - prev) t d)) (addStep p (alpha - prev) t d) true
        else lsLoop f accept minStep red t d fuel (addStep p (alpha - prev) t d) alpha (alpha * red)
          (some (f (addStep p (alpha - prev) t d)))
      else lsEnd p last := by
  cases last <;> simp [lsLoop, lsEnd]

theorem lsLoop_spec (f : Params K → K) (accept : K → K → Bool) (minStep red : K) {t : List K}
    {d : Params K} {p0 : Params K} (hf : Fits p0 t d) : ∀ (fuel k : ℕ) (prev : K) (last : Option K)
    (loss : K) (p' : Params K) (early : Bool),
    (∀ j < k, accept (red ^ j) (f (addStep p0 (red ^ j) t d)) = false ∧ red ^ j > minStep) →
    (match k with
      | 0 => prev = 0 ∧ last = none
      | k + 1 => prev = red ^ k ∧ last = some (f (addStep p0 (red ^ k) t d))) →
    lsLoop f accept minStep red t d fuel (addStep p0 prev t d) prev (red ^ k) last
      = .returned loss p' early →
    ∃ m, p' = addStep p0 (red ^ m) t d ∧ loss = f p' ∧ (∀ j ≤ m, red ^ j > minStep) ∧
      (∀ j < m, accept (red ^ j) (f (addStep p0 (red ^ j) t d)) = false) ∧
      accept (red ^ m) loss = early ∧ (early = false → red ^ (m + 1) ≤ minStep) := by
  intro fuel
  induction fuel with
  | zero => intro k prev last loss p' early _ _ h; simp [lsLoop] at h
  | succ fuel ih =>
    intro k prev last loss p' early hprev hst h
    rw [lsLoop_succ] at h
    split at h
    · rename_i hgt
      have e : addStep (addStep p0 prev t d) (red ^ k - prev) t d = addStep p0 (red ^ k) t d := by
        rw [addStep_addStep hf]; congr 1; ring
      simp only [e] at h
      split at h
      · rename_i hacc
        cases h
        refine ⟨k, rfl, rfl, ?_, fun j hj => (hprev j hj).1, hacc, by simp⟩
        intro j hj
        rcases Nat.lt_or_eq_of_le hj with hj | rfl
        · exact (hprev j hj).2
        · exact hgt
      · rename_i hacc
        rw [← pow_succ] at h
        refine ih (k + 1) _ _ loss p' early ?_ ⟨rfl, rfl⟩ h
        intro j hj
        rcases Nat.lt_succ_iff_lt_or_eq.1 hj with hj | rfl
        · exact hprev j hj
        · exact ⟨by simpa using hacc, hgt⟩
    · rename_i hle
      cases k with
      | zero => rw [hst.2] at h; simp [lsEnd] at h
      | succ k =>
        obtain ⟨rfl, rfl⟩ := hst
        simp only [lsEnd] at h
        cases h
        refine ⟨k, rfl, rfl, ?_, fun j hj => (hprev j (by omega)).1, (hprev k (by omega)).1, ?_⟩
        · intro j hj; exact (hprev j (by omega)).2
        · intro _; exact not_lt.1 hle

/-- The trial steps `1, r, r², …` that are longer than the minimal one, none of them accepted before
the last; the last is accepted exactly if the search returned early, and otherwise it is the shortest one
allowed. `p'` are the parameters after exactly this step (earlier trials are undone). -/
def SearchResult (f : Params K → K) (accept : K → Params K → Prop) (minStep red : K) (t : List K)
    (d p0 : Params K) (loss : K) (p' : Params K) (early : Bool) : Prop :=
  ∃ m : ℕ, p' = addStep p0 (red ^ m) t d ∧ loss = f p' ∧ (∀ j ≤ m, minStep < red ^ j) ∧
    (∀ j < m, ¬ accept (red ^ j) (addStep p0 (red ^ j) t d)) ∧
    (early = true ↔ accept (red ^ m) p') ∧ (early = false → red ^ (m + 1) ≤ minStep)

/-- C58, line_search_gd: whatever the loss function, a finished line search leaves the parameters at
one trial step, with the loss of exactly these parameters; it stops early at the first trial that
satisfies the decrease test. -/
theorem C58_gd {fuel : ℕ} {loss0 : K} {f : Params K → K} {c red minStep minImp : K} {grads p d : Params K}
    {t loss : K} {p' : Params K} {early : Bool}
    (hf : List.Forall₂ (fun q e => q.length = e.length) p d)
    (h : lineSearchGD fuel loss0 f c red minStep minImp grads p t d = .returned loss p' early) :
    SearchResult f (fun _ q => f q ≤ loss0 + t * (c * slopeSum grads d) ∧ f q ≤ loss0 - minImp)
      minStep red (List.replicate p.length t) d p loss p' early := by
  have hfit : Fits p (List.replicate p.length t) d := ⟨by simp, hf⟩
  unfold lineSearchGD at h
  have h' := h
  rw [← addStep_zero hfit] at h'
  simp only [addStep_zero hfit] at h'
  have := lsLoop_spec f (fun _ loss => decide (loss ≤ loss0 + t * (c * slopeSum grads d) ∧
    loss ≤ loss0 - minImp)) minStep red hfit fuel 0 0 none loss p' early (by simp) ⟨rfl, rfl⟩
    (by rw [pow_zero, addStep_zero hfit]; exact h)
  obtain ⟨m, h1, h2, h3, h4, h5, h6⟩ := this
  refine ⟨m, h1, h2, h3, fun j hj => by simpa using h4 j hj, ?_, h6⟩
  rw [← h5, decide_eq_true_iff, h2]

/-- C58, line_search_adam with a minimal decrease. -/
theorem C58_adam {fuel : ℕ} {loss0 : K} {f : Params K → K} {c red minStep minImp : K}
    {grads p d : Params K} {t : List K} {loss : K} {p' : Params K} {early : Bool} (hf : Fits p t d)
    (h : lineSearchAdam fuel loss0 f (some c) red minStep minImp grads p t d
      = .returned loss p' early) :
    SearchResult f (fun a q => f q < loss0 + a * (c * slopeSumT t grads d) ∧ f q < loss0 - minImp)
      minStep red t d p loss p' early := by
  have := lsLoop_spec f (fun alpha loss => decide (loss < loss0 + alpha * (c * slopeSumT t grads d) ∧
    loss < loss0 - minImp)) minStep red hf fuel 0 0 none loss p' early (by simp) ⟨rfl, rfl⟩
    (by rw [pow_zero, addStep_zero hf]; exact h)
  obtain ⟨m, h1, h2, h3, h4, h5, h6⟩ := this
  refine ⟨m, h1, h2, h3, fun j hj => by simpa using h4 j hj, ?_, h6⟩
  rw [← h5, decide_eq_true_iff, h2]

/-- C58, line_search_adam without a minimal decrease: any improvement by `minImp` is taken. -/
theorem C58_adam_none {fuel : ℕ} {loss0 : K} {f : Params K → K} {red minStep minImp : K}
    {grads p d : Params K} {t : List K} {loss : K} {p' : Params K} {early : Bool} (hf : Fits p t d)
    (h : lineSearchAdam fuel loss0 f none red minStep minImp grads p t d = .returned loss p' early) :
    SearchResult f (fun _ q => f q < loss0 - minImp) minStep red t d p loss p' early := by
  have := lsLoop_spec f (fun _ loss => decide (loss < loss0 - minImp)) minStep red hf fuel 0 0 none
    loss p' early (by simp) ⟨rfl, rfl⟩ (by rw [pow_zero, addStep_zero hf]; exact h)
  obtain ⟨m, h1, h2, h3, h4, h5, h6⟩ := this
  refine ⟨m, h1, h2, h3, fun j hj => by simpa using h4 j hj, ?_, h6⟩
  rw [← h5, decide_eq_true_iff, h2]

/-- C58: an early return of line_search_gd satisfies the Armijo condition at the step taken, although
the code tests the full step: the full-step bound is the stronger one. -/
theorem C58_gd_armijo {fuel : ℕ} {loss0 : K} {f : Params K → K} {c red minStep minImp : K}
    {grads p d : Params K} {t loss : K} {p' : Params K}
    (hf : List.Forall₂ (fun q e => q.length = e.length) p d)
    (hslope : t * (c * slopeSum grads d) ≤ 0) (hr0 : 0 ≤ red) (hr1 : red ≤ 1)
    (h : lineSearchGD fuel loss0 f c red minStep minImp grads p t d = .returned loss p' true) :
    ∃ m : ℕ, p' = addStep p (red ^ m) (List.replicate p.length t) d ∧
      f p' ≤ loss0 + (red ^ m * t) * (c * slopeSum grads d) ∧ f p' ≤ loss0 - minImp := by
  obtain ⟨m, h1, h2, -, -, h5, -⟩ := C58_gd hf h
  obtain ⟨ha, hb⟩ := h5.1 rfl
  refine ⟨m, h1, ha.trans ?_, hb⟩
  have hp : red ^ m ≤ 1 := pow_le_one₀ hr0 hr1
  rw [mul_assoc]
  have := mul_le_mul_of_nonpos_right hp hslope
  linarith

theorem lsLoop_terminates (f : Params K → K) (accept : K → K → Bool) (minStep red : K) (t : List K)
    (d : Params K) : ∀ (n : ℕ) (fuel : ℕ) (p : Params K) (prev alpha : K) (last : Option K),
    n < fuel → alpha * red ^ n ≤ minStep →
    lsLoop f accept minStep red t d fuel p prev alpha last ≠ .outOfFuel := by
  intro n
  induction n with
  | zero =>
    intro fuel p prev alpha last hf h
    obtain ⟨fuel, rfl⟩ : ∃ k, fuel = k + 1 := ⟨fuel - 1, by omega⟩
    rw [lsLoop_succ, if_neg (by simpa using h)]
    cases last <;> simp [lsEnd]
  | succ n ih =>
    intro fuel p prev alpha last hf h
    obtain ⟨fuel, rfl⟩ : ∃ k, fuel = k + 1 := ⟨fuel - 1, by omega⟩
    rw [lsLoop_succ]
    split
    · split
      · simp
      · exact ih fuel _ _ _ _ (by omega) (by rw [mul_assoc, ← pow_succ']; exact h)
    · cases last <;> simp [lsEnd]

/-- C58: with a reduction factor below one and a positive minimal step the line search terminates,
whatever the loss function returns. -/
theorem C58_terminates [Archimedean K] {red minStep : K} (hr : red < 1) (hm : 0 < minStep) :
    ∃ N : ℕ, ∀ fuel > N, ∀ (loss0 : K) (f : Params K → K) (c minImp : K) (co : Option K)
      (grads p d : Params K) (t : K) (ts : List K),
      lineSearchGD fuel loss0 f c red minStep minImp grads p t d ≠ .outOfFuel ∧
      lineSearchAdam fuel loss0 f co red minStep minImp grads p ts d ≠ .outOfFuel := by
  obtain ⟨n, hn⟩ := exists_pow_lt_of_lt_one hm hr
  refine ⟨n, fun fuel hf loss0 f c minImp co grads p d t ts => ⟨?_, ?_⟩⟩
  · exact lsLoop_terminates _ _ _ _ _ _ n fuel _ _ _ _ hf (by rw [one_mul]; exact hn.le)
  · cases co <;> exact lsLoop_terminates _ _ _ _ _ _ n fuel _ _ _ _ hf (by rw [one_mul]; exact hn.le)

theorem lsLoop_some_ne_unbound (f : Params K → K) (accept : K → K → Bool) (minStep red : K) (t : List K)
    (d : Params K) : ∀ (fuel : ℕ) (p : Params K) (prev alpha l : K),
    lsLoop f accept minStep red t d fuel p prev alpha (some l) ≠ .unbound := by
  intro fuel
  induction fuel with
  | zero => intro p prev alpha l; simp [lsLoop]
  | succ fuel ih =>
    intro p prev alpha l
    rw [lsLoop_succ]
    split
    · split
      · simp
      · exact ih _ _ _ _
    · simp [lsEnd]

/-- C58: `return loss` raises exactly if the minimal step is at least one. -/
theorem C58_unbound_iff {fuel : ℕ} {loss0 : K} {f : Params K → K} {c red minStep minImp : K}
    {grads p d : Params K} {t : K} :
    lineSearchGD (fuel + 1) loss0 f c red minStep minImp grads p t d = .unbound ↔ 1 ≤ minStep := by
  unfold lineSearchGD
  simp only
  rw [lsLoop_succ]
  split
  · rename_i h
    split
    · simp [h]
    · simp [h, lsLoop_some_ne_unbound]
  · rename_i h
    simpa [lsEnd] using h

/-- The loss `x²` from `x = 1`, gradient 2, descent direction -2, full step 1: the search halves the
step once and stops at the minimum. -/
example : lineSearchGD 5 (1 : ℚ) (fun p => (p.headD []).headD 0 ^ 2) (1 / 10) (1 / 2) (1 / 100) 0 [[2]] [[1]]
    1 [[-2]] = .returned 0 [[0]] true := by
  norm_num [lineSearchGD, lsLoop, addStep, slopeSum, vadd, vsmul]

/-- An ascent direction: no trial is accepted and the parameters are left at the last trial, with a
larger loss than before. -/
theorem C58_failure_increases_loss :
    lineSearchGD 5 (1 : ℚ) (fun p => (p.headD []).headD 0 ^ 2) (-1 / 10) (1 / 2) (1 / 3) 0 [[2]] [[1]]
    1 [[2]] = .returned 4 [[2]] false := by
  norm_num [lineSearchGD, lsLoop, addStep, slopeSum, vadd, vsmul]

/-! ## C61 -/

section Buffers

variable {D L : Type*}

theorem getSamples_spec {V : D → Option L} : ∀ {draws : List D} {n : ℕ} {r : List D × List L},
    getSamples V n draws = some r →
    r.1.length = n ∧ r.2.length = n ∧ List.Forall₂ (fun x v => V x = some v) r.1 r.2 := by
  intro draws
  induction draws with
  | nil =>
    intro n r h
    cases n with
    | zero => simp [getSamples] at h; subst h; simp
    | succ n => simp [getSamples] at h
  | cons x draws ih =>
    intro n r h
    cases n with
    | zero => simp [getSamples] at h; subst h; simp
    | succ n =>
      rw [getSamples] at h
      split at h
      · rename_i v hv
        obtain ⟨q, hq, rfl⟩ := Option.map_eq_some_iff.1 h
        obtain ⟨h1, h2, h3⟩ := ih hq
        exact ⟨by simp [h1], by simp [h2], .cons hv h3⟩
      · exact ih h

/-- Every entry of the data buffers has its own label next to it. -/
def Labelled (P : D → L → Prop) (b : Buffers D L) : Prop :=
  List.Forall₂ P b.advData b.advLabel ∧ List.Forall₂ P b.randData b.randLabel ∧
    b.advData.length = b.randData.length

theorem Labelled.trim {P : D → L → Prop} {b : Buffers D L} (h : Labelled P b) (n limit : ℕ) :
    Labelled P (b.trim n limit) := by
  unfold Buffers.trim
  split
  · obtain ⟨h1, h2, h3⟩ := h
    exact ⟨List.forall₂_drop n h1, List.forall₂_drop n h2, by simp [h3]⟩
  · exact h

theorem Labelled.push {P : D → L → Prop} {b : Buffers D L} (h : Labelled P b) {ad : List D} {al : List L}
    {rd : List D} {rl : List L} (ha : List.Forall₂ P ad al) (hr : List.Forall₂ P rd rl)
    (hl : ad.length = rd.length) : Labelled P (b.push ad al rd rl) := by
  obtain ⟨h1, h2, h3⟩ := h
  exact ⟨List.rel_append h1 ha, List.rel_append h2 hr, by simp [Buffers.push, h3, hl]⟩

theorem trim_push_length (b : Buffers D L) (n limit M : ℕ) {ad : List D} {al : List L} {rd : List D}
    {rl : List L} (hn : ad.length = n) (h1 : b.advData.length ≤ M) (h2 : limit ≤ M) (h3 : n ≤ M) :
    ((b.trim n limit).push ad al rd rl).advData.length ≤ M := by
  unfold Buffers.trim Buffers.push
  split
  · simp [hn]; omega
  · simp [hn]; omega

theorem iter_spec {P : D → L → Prop} {useLimits : Bool} {numExtra limit : ℕ} {V : D → Option L}
    {b b' : Buffers D L} {w : Draws D L} (hb : Labelled P b) (hw : List.Forall₂ P w.advData w.advLabel)
    (hV : ∀ x v, V x = some v → P x v) (h : b.iter useLimits numExtra limit V w = some b') :
    Labelled P b' ∧ ∀ M, b.advData.length ≤ M → limit ≤ M → w.advData.length ≤ M → numExtra ≤ M →
      b'.advData.length ≤ M := by
  unfold Buffers.iter at h
  split at h
  swap
  · cases h
  simp only at h
  obtain ⟨r, hr, h⟩ := Option.bind_eq_some_iff.1 h
  obtain ⟨e, he, rfl⟩ := Option.map_eq_some_iff.1 h
  obtain ⟨e1, e2, e3⟩ := getSamples_spec he
  have hrs : r.1.length = w.advData.length ∧ List.Forall₂ P r.1 r.2 := by
    split at hr
    · rename_i hc
      obtain ⟨q, hq, hr⟩ := Option.bind_eq_some_iff.1 hr
      obtain ⟨l, hl, rfl⟩ := Option.map_eq_some_iff.1 hr
      obtain ⟨q1, q2, q3⟩ := getSamples_spec hq
      obtain ⟨l1, l2, l3⟩ := getSamples_spec hl
      refine ⟨by simp [q1, l1]; omega, List.rel_append (q3.imp hV) (l3.imp hV)⟩
    · obtain ⟨q1, q2, q3⟩ := getSamples_spec hr
      exact ⟨q1, q3.imp hV⟩
  have h1 : Labelled P ((b.trim w.advData.length limit).push w.advData w.advLabel r.1 r.2) :=
    (hb.trim _ _).push hw hrs.2 hrs.1.symm
  refine ⟨(h1.trim _ _).push (e3.imp hV) (e3.imp hV) rfl, ?_⟩
  intro M m1 m2 m3 m4
  exact trim_push_length _ _ _ _ e1 (trim_push_length _ _ _ _ rfl m1 m2 m3) m2 m4

/-- C61: through any number of training iterations the two pairs of buffers stay aligned: every state
in a buffer stands next to the label computed for it, and the two data buffers have the same length. -/
theorem C61_aligned {P : D → L → Prop} {useLimits : Bool} {numExtra limit : ℕ} {V : D → Option L}
    (hV : ∀ x v, V x = some v → P x v) : ∀ {ws : List (Draws D L)} {b b' : Buffers D L},
    Labelled P b → (∀ w ∈ ws, List.Forall₂ P w.advData w.advLabel) →
    Buffers.run useLimits numExtra limit V b ws = some b' → Labelled P b' := by
  intro ws
  induction ws with
  | nil => intro b b' hb _ h; simp [Buffers.run] at h; subst h; exact hb
  | cons w ws ih =>
    intro b b' hb hw h
    obtain ⟨b1, h1, h2⟩ := Option.bind_eq_some_iff.1 h
    exact ih (iter_spec hb (hw w (by simp)) hV h1).1 (fun w' hw' => hw w' (by simp [hw'])) h2

/-- C61: the buffers never grow beyond the larger of their initial size, the limit and the size of one
batch. -/
theorem C61_bounded {P : D → L → Prop} {useLimits : Bool} {numExtra limit M : ℕ} {V : D → Option L}
    (hV : ∀ x v, V x = some v → P x v) (hlim : limit ≤ M) (hex : numExtra ≤ M) :
    ∀ {ws : List (Draws D L)} {b b' : Buffers D L},
    Labelled P b → (∀ w ∈ ws, List.Forall₂ P w.advData w.advLabel ∧ w.advData.length ≤ M) →
    b.advData.length ≤ M → Buffers.run useLimits numExtra limit V b ws = some b' →
    b'.advData.length ≤ M ∧ b'.randData.length ≤ M := by
  intro ws
  induction ws with
  | nil =>
    intro b b' hb _ hM h; simp [Buffers.run] at h; subst h
    exact ⟨hM, hb.2.2 ▸ hM⟩
  | cons w ws ih =>
    intro b b' hb hw hM h
    obtain ⟨b1, h1, h2⟩ := Option.bind_eq_some_iff.1 h
    obtain ⟨k1, k2⟩ := iter_spec hb (hw w (by simp)).1 hV h1
    exact ih k1 (fun w' hw' => hw w' (by simp [hw'])) (k2 M hM hlim (hw w (by simp)).2 hex) h2

theorem getSamples_total {V : D → Option L} (hV : ∀ x, (V x).isSome) : ∀ {draws : List D} {n : ℕ},
    n ≤ draws.length → (getSamples V n draws).isSome := by
  intro draws
  induction draws with
  | nil => intro n h; have : n = 0 := by simpa using h
           subst this; rfl
  | cons x draws ih =>
    intro n h
    cases n with
    | zero => rfl
    | succ n =>
      rw [getSamples]
      obtain ⟨v, hv⟩ := Option.isSome_iff_exists.1 (hV x)
      rw [hv]
      simpa using ih (by simpa using h)

/-- C61: the assertion that the buffers agree in size never fires: if the value function is defined
everywhere and enough states are drawn, the loop runs to the end. -/
theorem C61_assertion {P : D → L → Prop} {useLimits : Bool} {numExtra limit : ℕ} {V : D → Option L}
    (hV : ∀ x v, V x = some v → P x v) (htot : ∀ x, (V x).isSome) :
    ∀ {ws : List (Draws D L)} {b : Buffers D L}, Labelled P b →
    (∀ w ∈ ws, List.Forall₂ P w.advData w.advLabel ∧ w.advData.length ≤ w.rand.length ∧
      w.advData.length ≤ w.lim.length ∧ numExtra ≤ w.extra.length) →
    (Buffers.run useLimits numExtra limit V b ws).isSome := by
  intro ws
  induction ws with
  | nil => intro b _ _; rfl
  | cons w ws ih =>
    intro b hb hw
    obtain ⟨w1, w2, w3, w4⟩ := hw w (by simp)
    have hi : (b.iter useLimits numExtra limit V w).isSome := by
      unfold Buffers.iter
      have hl1 := hb.1.length_eq
      have hl2 := hb.2.1.length_eq
      have hl3 := hb.2.2
      rw [if_pos ⟨hl3, by omega⟩]
      obtain ⟨e, he⟩ := Option.isSome_iff_exists.1 (getSamples_total htot w4)
      simp only [he]
      split
      · rename_i hc
        obtain ⟨q, hq⟩ := Option.isSome_iff_exists.1
          (getSamples_total htot (show 1 ≤ w.rand.length by omega))
        obtain ⟨l, hl⟩ := Option.isSome_iff_exists.1
          (getSamples_total htot (show w.advData.length - 1 ≤ w.lim.length by omega))
        simp [hq, hl]
      · obtain ⟨q, hq⟩ := Option.isSome_iff_exists.1 (getSamples_total htot w2)
        simp [hq]
    obtain ⟨b1, h1⟩ := Option.isSome_iff_exists.1 hi
    rw [Buffers.run, h1]
    exact ih (iter_spec hb w1 hV h1).1 (fun w' hw' => hw w' (by simp [hw']))

/-- C61: the initial fill brings both buffers to the requested size, aligned. -/
theorem C61_init {P : D → L → Prop} {size : ℕ} {V : D → Option L} {draws : List D} {b b' : Buffers D L}
    (hV : ∀ x v, V x = some v → P x v) (hb : Labelled P b) (h : b.init size V draws = some b') :
    Labelled P b' ∧ b'.advData.length = max b.advData.length size := by
  unfold Buffers.init at h
  split at h
  · rename_i hl
    obtain ⟨r, hr, rfl⟩ := Option.map_eq_some_iff.1 h
    obtain ⟨r1, r2, r3⟩ := getSamples_spec hr
    refine ⟨hb.push (r3.imp hV) (r3.imp hV) rfl, ?_⟩
    simp [Buffers.push, r1]; omega
  · rename_i hl
    cases h
    exact ⟨hb, by omega⟩

/-- One iteration, `V x = x + 100` except at 0, which has no value. -/
example : Buffers.run false 1 3 (fun x : ℕ => if x = 0 then none else some (x + 100)) ⟨[1, 2], [101, 102], [3, 4], [103, 104]⟩
    [⟨[5, 6], [105, 106], [0, 7, 8], [], [0, 9]⟩]
    = some ⟨[5, 6, 9], [105, 106, 109], [7, 8, 9], [107, 108, 109]⟩ := by
  rfl

end Buffers

end NNL.Props
