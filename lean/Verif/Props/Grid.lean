import Verif.Model.Grid
import Verif.Lemmas.Mic
import Mathlib.Data.List.Nodup
import Mathlib.Tactic.FieldSimp

/-!
# C46, C55: grids and partitions
-/

set_option linter.unusedSectionVars false

namespace NNL.Props

open NNL NNL.Model

variable {K : Type*} [Field K] [LinearOrder K] [IsStrictOrderedRing K]

/-! ## Products of lists -/

theorem mem_cart {α : Type*} : ∀ (ls : List (List α)) (r : List α), r ∈ cart ls ↔ List.Forall₂ (· ∈ ·) r ls
  | [], r => by simp [cart]
  | l :: ls, r => by
    simp only [cart, List.mem_flatMap, List.mem_map, mem_cart ls]
    constructor
    · rintro ⟨a, ha, s, hs, rfl⟩
      exact List.Forall₂.cons ha hs
    · intro h
      cases h with
      | cons ha hs => exact ⟨_, ha, _, hs, rfl⟩

theorem length_cart {α : Type*} : ∀ ls : List (List α), (cart ls).length = (ls.map List.length).prod
  | [] => rfl
  | l :: ls => by
    simp only [cart, List.length_flatMap, List.length_map, length_cart ls, List.map_cons, List.prod_cons]
    simp

theorem nodup_cart {α : Type*} : ∀ ls : List (List α), (∀ l ∈ ls, l.Nodup) → (cart ls).Nodup
  | [], _ => by simp [cart]
  | l :: ls, h => by
    have hl := h l (by simp)
    have ih := nodup_cart ls fun m hm => h m (by simp [hm])
    rw [cart, List.nodup_flatMap]
    refine ⟨fun a _ => ih.map fun x y e => by simpa using e, ?_⟩
    refine List.Pairwise.imp (fun {a b} hab => ?_) hl
    simp only [Function.onFun, List.disjoint_left, List.mem_map]
    rintro _ ⟨s, -, rfl⟩ ⟨t, -, e⟩
    simp only [List.cons.injEq] at e
    exact hab e.1.symm

theorem swap01_swap01 {α : Type*} (l : List α) : swap01 (swap01 l) = l := by
  match l with
  | [] => rfl
  | [a] => rfl
  | a :: b :: r => rfl

theorem forall₂_swap01 {α β : Type*} {R : α → β → Prop} {l : List α} {m : List β} (h : List.Forall₂ R l m) :
    List.Forall₂ R (swap01 l) (swap01 m) := by
  match h with
  | .nil => exact .nil
  | .cons h .nil => exact .cons h .nil
  | .cons h (.cons h' t) => exact .cons h' (.cons h t)

theorem mem_meshXY {α : Type*} (ls : List (List α)) (r : List α) :
    r ∈ meshXY ls ↔ List.Forall₂ (· ∈ ·) r ls := by
  simp only [meshXY, List.mem_map, mem_cart]
  constructor
  · rintro ⟨s, hs, rfl⟩
    have := forall₂_swap01 hs
    rwa [swap01_swap01] at this
  · intro h
    exact ⟨swap01 r, forall₂_swap01 h, swap01_swap01 r⟩

theorem length_meshXY {α : Type*} (ls : List (List α)) : (meshXY ls).length = (ls.map List.length).prod := by
  rw [meshXY, List.length_map, length_cart]
  match ls with
  | [] => rfl
  | [a] => rfl
  | a :: b :: r => simp [swap01]; ring

theorem nodup_meshXY {α : Type*} (ls : List (List α)) (h : ∀ l ∈ ls, l.Nodup) : (meshXY ls).Nodup := by
  refine (nodup_cart _ fun l hl => h l ?_).map fun x y e => ?_
  · match ls with
    | [] => exact hl
    | [a] => exact hl
    | a :: b :: r =>
      simp only [swap01, List.mem_cons] at hl ⊢
      tauto
  · have := congrArg swap01 e
    rwa [swap01_swap01, swap01_swap01] at this

theorem forall₂_iff_getD {α β : Type*} {R : α → β → Prop} (a : α) (b : β) : ∀ {l : List α} {m : List β},
    List.Forall₂ R l m ↔ l.length = m.length ∧ ∀ i, i < m.length → R (l.getD i a) (m.getD i b)
  | [], [] => by simp
  | [], _ :: _ => by simp
  | _ :: _, [] => by simp
  | x :: l, y :: m => by
    rw [List.forall₂_cons, forall₂_iff_getD a b (l := l) (m := m)]
    simp only [List.length_cons, Nat.add_right_cancel_iff]
    constructor
    · rintro ⟨h1, h2, h3⟩
      refine ⟨h2, fun i hi => ?_⟩
      cases i with
      | zero => simpa using h1
      | succ i => simpa using h3 i (by omega)
    · rintro ⟨h2, h3⟩
      exact ⟨by simpa using h3 0 (by omega), h2, fun i hi => by simpa using h3 (i + 1) (by omega)⟩

/-! ## linspace -/

theorem length_linspace (lo up : K) (n : ℕ) : (linspace lo up n).length = n := by simp [linspace]

theorem getD_linspace (lo up : K) (n k : ℕ) (h : k < n) :
    (linspace lo up n).getD k 0 = lo + (k : K) * ((up - lo) / ((n - 1 : ℕ) : K)) := by
  simp [linspace, List.getD, h]

theorem mem_linspace (lo up : K) (n : ℕ) (v : K) : v ∈ linspace lo up n ↔
    ∃ k, k < n ∧ v = lo + (k : K) * ((up - lo) / ((n - 1 : ℕ) : K)) := by
  simp [linspace, eq_comm]

theorem linspace_nodup (lo up : K) (n : ℕ) (h : lo < up) : (linspace lo up n).Nodup := by
  rcases Nat.lt_or_ge n 2 with hn | hn
  · match n, hn with
    | 0, _ => simp [linspace]
    | 1, _ => simp [linspace]
  · refine List.nodup_range.map fun a b e => ?_
    have h1 : ((n - 1 : ℕ) : K) > 0 := by
      have : 0 < n - 1 := by omega
      exact_mod_cast this
    have h2 : (up - lo) / ((n - 1 : ℕ) : K) ≠ 0 := by
      have : (up - lo) / ((n - 1 : ℕ) : K) > 0 := div_pos (by linarith) h1
      exact this.ne'
    have := mul_right_cancel₀ h2 (add_left_cancel e)
    exact_mod_cast this

theorem linspace_mem_Icc (lo up : K) (n : ℕ) (h : lo ≤ up) {v : K} (hv : v ∈ linspace lo up n) :
    lo ≤ v ∧ v ≤ up := by
  obtain ⟨k, hk, rfl⟩ := (mem_linspace _ _ _ _).1 hv
  have h0 : (0 : K) ≤ ((n - 1 : ℕ) : K) := Nat.cast_nonneg _
  have hd : 0 ≤ (up - lo) / ((n - 1 : ℕ) : K) := div_nonneg (by linarith) h0
  have hk0 : (0 : K) ≤ k := Nat.cast_nonneg _
  refine ⟨by nlinarith, ?_⟩
  rcases Nat.eq_zero_or_pos (n - 1) with e | e
  · have : k = 0 := by omega
    subst this
    simpa using h
  · have h1 : (k : K) ≤ ((n - 1 : ℕ) : K) := by
      have : k ≤ n - 1 := by omega
      exact_mod_cast this
    have hp : (0 : K) < ((n - 1 : ℕ) : K) := by exact_mod_cast e
    have h2 : (k : K) * ((up - lo) / ((n - 1 : ℕ) : K)) ≤ ((n - 1 : ℕ) : K) * ((up - lo) / ((n - 1 : ℕ) : K)) :=
      mul_le_mul_of_nonneg_right h1 hd
    rw [mul_div_cancel₀ _ hp.ne'] at h2
    linarith

/-! ## C55 -/

/-- C55. There are `prod(mesh_size)` samples. -/
theorem C55_count {lower upper : Vec K} {sizes : List ℕ} {l : List (Vec K)}
    (h : meshSamples lower upper sizes = some l) : l.length = sizes.prod := by
  unfold meshSamples at h
  split at h
  · simp only [Option.some.injEq] at h
    subst h
    rw [length_cart, List.map_map]
    congr 1
    apply List.ext_getElem (by simp)
    intro i h1 h2
    simp [length_linspace, List.getD_eq_getElem?_getD, List.getElem?_eq_getElem h2]
  · cases h

/-- C55. The samples are exactly the points of the grid. -/
theorem C55_grid {lower upper : Vec K} {sizes : List ℕ} {l : List (Vec K)}
    (h : meshSamples lower upper sizes = some l) (x : Vec K) :
    x ∈ l ↔ x.length = sizes.length ∧ ∀ i, i < sizes.length → ∃ k, k < sizes.getD i 0 ∧
      x.getD i 0 = lower.getD i 0 + k * ((upper.getD i 0 - lower.getD i 0) / ((sizes.getD i 0 - 1 : ℕ) : K)) := by
  unfold meshSamples at h
  split at h
  · simp only [Option.some.injEq] at h
    subst h
    rw [mem_cart, forall₂_iff_getD 0 []]
    simp only [List.length_map, List.length_range]
    refine and_congr_right fun _ => forall_congr' fun i => imp_congr_right fun hi => ?_
    rw [← mem_linspace]
    simp [List.getD, hi]
  · cases h

/-- C55. They lie in the box. -/
theorem C55_inside {lower upper : Vec K} {sizes : List ℕ} {l : List (Vec K)}
    (h : meshSamples lower upper sizes = some l)
    (hb : ∀ i, i < sizes.length → lower.getD i 0 ≤ upper.getD i 0) {x : Vec K} (hx : x ∈ l) :
    InBox lower upper x := by
  obtain ⟨h1, h2⟩ := (C55_grid h x).1 hx
  unfold meshSamples at h
  split at h
  · rename_i hc
    refine ⟨by rw [h1, hc.2.1], by rw [h1, hc.1], fun i hi => ?_⟩
    rw [h1] at hi
    exact linspace_mem_Icc _ _ (sizes.getD i 0) (hb i hi) ((mem_linspace _ _ _ _).2 (h2 i hi))
  · cases h

/-- C55. No point occurs twice if the box has positive widths. -/
theorem C55_nodup {lower upper : Vec K} {sizes : List ℕ} {l : List (Vec K)}
    (h : meshSamples lower upper sizes = some l)
    (hb : ∀ i, i < sizes.length → lower.getD i 0 < upper.getD i 0) : l.Nodup := by
  unfold meshSamples at h
  split at h
  · simp only [Option.some.injEq] at h
    subst h
    refine nodup_cart _ fun m hm => ?_
    simp only [List.mem_map, List.mem_range] at hm
    obtain ⟨i, hi, rfl⟩ := hm
    exact linspace_nodup _ _ _ (hb i hi)
  · cases h

/-- C55. The corners of the box are samples when every axis has at least two points. -/
theorem C55_corners {lower upper : Vec K} {sizes : List ℕ} {l : List (Vec K)}
    (h : meshSamples lower upper sizes = some l) (hs : ∀ i, i < sizes.length → 2 ≤ sizes.getD i 0) (x : Vec K)
    (hx : x.length = sizes.length)
    (hc : ∀ i, i < sizes.length → x.getD i 0 = lower.getD i 0 ∨ x.getD i 0 = upper.getD i 0) : x ∈ l := by
  rw [C55_grid h]
  refine ⟨hx, fun i hi => ?_⟩
  have h2 := hs i hi
  rcases hc i hi with e | e
  · exact ⟨0, by omega, by rw [e]; simp⟩
  · refine ⟨sizes.getD i 0 - 1, by omega, ?_⟩
    have : ((sizes.getD i 0 - 1 : ℕ) : K) ≠ 0 := by
      have : sizes.getD i 0 - 1 ≠ 0 := by omega
      exact_mod_cast this
    rw [e, mul_div_cancel₀ _ this]
    ring

/-- C55 applies to a 3 by 2 grid; the first axis varies slowest. -/
example : meshSamples [0, (1 : ℚ)] [2, 5] [3, 2] = some [[0, 1], [0, 5], [1, 1], [1, 5], [2, 1], [2, 5]] := by
  decide +kernel

/-! ## C46 -/

/-- The lower and upper end of cell `k` of the `n` cells of `[lo, up]`, widened by the fraction `d` of the width
of a cell and clipped. -/
def axisLo (lo up : K) (n k : ℕ) (d : K) : K := min (max (lo + (k - d) * ((up - lo) / n)) lo) up

def axisUp (lo up : K) (n k : ℕ) (d : K) : K := min (max (lo + (k + 1 + d) * ((up - lo) / n)) lo) up

/-- The cell with indices `kx`, `ku`. -/
structure IsCell (xLo xUp uLo uUp : Vec K) (nx nu : List ℕ) (dx du : Vec K) (kx ku : List ℕ) (c : Cell K) :
    Prop where
  len_x : c.x.length = xLo.length ∧ c.xLo.length = xLo.length ∧ c.xUp.length = xLo.length
  len_u : c.u.length = uLo.length ∧ c.uLo.length = uLo.length ∧ c.uUp.length = uLo.length
  x' : ∀ i, i < xLo.length → c.x.getD i 0 = xLo.getD i 0 +
    (kx.getD i 0 + 1 / 2) * ((xUp.getD i 0 - xLo.getD i 0) / (nx.getD i 0 : K))
  u' : ∀ i, i < uLo.length → c.u.getD i 0 = uLo.getD i 0 +
    (ku.getD i 0 + 1 / 2) * ((uUp.getD i 0 - uLo.getD i 0) / (nu.getD i 0 : K))
  xLo' : ∀ i, i < xLo.length → c.xLo.getD i 0 =
    axisLo (xLo.getD i 0) (xUp.getD i 0) (nx.getD i 0) (kx.getD i 0) (dx.getD i 0)
  xUp' : ∀ i, i < xLo.length → c.xUp.getD i 0 =
    axisUp (xLo.getD i 0) (xUp.getD i 0) (nx.getD i 0) (kx.getD i 0) (dx.getD i 0)
  uLo' : ∀ i, i < uLo.length → c.uLo.getD i 0 =
    axisLo (uLo.getD i 0) (uUp.getD i 0) (nu.getD i 0) (ku.getD i 0) (du.getD i 0)
  uUp' : ∀ i, i < uLo.length → c.uUp.getD i 0 =
    axisUp (uLo.getD i 0) (uUp.getD i 0) (nu.getD i 0) (ku.getD i 0) (du.getD i 0)

theorem limits_getD (lo up : K) (n k : ℕ) (h : k < n) : (limits lo up n).getD k (0, 0) =
    (lo + k * ((up - lo) / n), lo + (k + 1) * ((up - lo) / n)) := by
  have e1 := getD_linspace lo up (n + 1) k (by omega)
  have e2 := getD_linspace lo up (n + 1) (k + 1) (by omega)
  simp only [Nat.add_sub_cancel] at e1 e2
  have : (limits lo up n).getD k (0, 0) =
      ((linspace lo up (n + 1)).getD k 0, (linspace lo up (n + 1)).getD (k + 1) 0) := by
    simp [limits, List.getD, h]
  rw [this, e1, e2]
  push_cast
  rfl

theorem length_limits (lo up : K) (n : ℕ) : (limits lo up n).length = n := by simp [limits]

theorem getD_zipWith' {α β γ : Type*} (f : α → β → γ) (l : List α) (m : List β) (i : ℕ) (a : α) (b : β) (c : γ)
    (h1 : i < l.length) (h2 : i < m.length) : (List.zipWith f l m).getD i c = f (l.getD i a) (m.getD i b) := by
  simp [List.getD, List.getElem?_zipWith, List.getElem?_eq_getElem h1, List.getElem?_eq_getElem h2]

theorem getD_take' {α : Type*} (l : List α) (n i : ℕ) (a : α) (h : i < n) : (l.take n).getD i a = l.getD i a := by
  simp [List.getD, List.getElem?_take, h]

theorem getD_drop' {α : Type*} (l : List α) (n i : ℕ) (a : α) : (l.drop n).getD i a = l.getD (n + i) a := by
  simp [List.getD]

theorem getD_map_range {α : Type*} (f : ℕ → α) (n i : ℕ) (a : α) (h : i < n) :
    ((List.range n).map f).getD i a = f i := by
  simp [List.getD, h]

theorem getD_map' {α β : Type*} (f : α → β) (l : List α) (i : ℕ) (a : α) (b : β) (h : i < l.length) :
    (l.map f).getD i b = f (l.getD i a) := by
  simp [List.getD, List.getElem?_eq_getElem h]

theorem getD_deltaScaled (lo up d : Vec K) (n : List ℕ) (i : ℕ) (h1 : i < lo.length) (h2 : up.length = lo.length)
    (h3 : n.length = lo.length) (h4 : d.length = lo.length) : (deltaScaled lo up d n).getD i 0 =
      d.getD i 0 * ((up.getD i 0 - lo.getD i 0) / (n.getD i 0 : K)) := by
  unfold deltaScaled vsub
  rw [getD_zipWith' _ _ _ i 0 0 _ (by simp; omega) (by omega), getD_zipWith' _ _ _ i 0 0 _ (by omega) (by simp; omega),
    getD_zipWith' _ _ _ i 0 0 _ (by omega) (by omega), mul_div_assoc]

theorem getD_clampV (v lo up : Vec K) (i : ℕ) (h1 : i < v.length) (h2 : i < lo.length) (h3 : i < up.length) :
    (clampV v lo up).getD i 0 = min (max (v.getD i 0) (lo.getD i 0)) (up.getD i 0) := by
  unfold clampV
  rw [getD_zipWith' _ _ _ i 0 0 _ (by simp; omega) h3, getD_zipWith' _ _ _ i 0 0 _ h1 h2]

theorem getD_append_right' {α : Type*} (l m : List α) (i : ℕ) (a : α) :
    (l ++ m).getD (l.length + i) a = m.getD i a := by
  rw [List.getD_eq_getElem?_getD, List.getElem?_append_right (by omega), List.getD_eq_getElem?_getD]
  congr 2
  omega

/-- The cell computed for a tuple of indices. -/
theorem cellAt_isCell {xLo xUp uLo uUp : Vec K} {nx nu : List ℕ} {dx du : Vec K}
    (h1 : xUp.length = xLo.length) (h2 : uUp.length = uLo.length) (h3 : nx.length = xLo.length)
    (h4 : nu.length = uLo.length) (h5 : dx.length = xLo.length) (h6 : du.length = uLo.length) {ks : List ℕ}
    (hk : ks.length = (nx ++ nu).length) (hks : ∀ i, i < (nx ++ nu).length → ks.getD i 0 < (nx ++ nu).getD i 0) :
    IsCell xLo xUp uLo uUp nx nu dx du (ks.take xLo.length) (ks.drop xLo.length)
      (cellAt xLo xUp uLo uUp nx nu dx du ks) := by
  have hl : (nx ++ nu).length = xLo.length + uLo.length := by simp [h3, h4]
  have ex : ∀ i, i < xLo.length → (xLo ++ uLo).getD i 0 = xLo.getD i 0 ∧ (xUp ++ uUp).getD i 0 = xUp.getD i 0 ∧
      (nx ++ nu).getD i 0 = nx.getD i 0 ∧ (ks.take xLo.length).getD i 0 = ks.getD i 0 ∧
      ks.getD i 0 < nx.getD i 0 := by
    intro i hi
    have e : (nx ++ nu).getD i 0 = nx.getD i 0 := getD_append_lt _ _ _ _ (by omega)
    refine ⟨getD_append_lt _ _ _ _ hi, getD_append_lt _ _ _ _ (by omega), e, getD_take' _ _ _ _ hi, ?_⟩
    rw [← e]
    exact hks i (by omega)
  have eu : ∀ i, i < uLo.length → (xLo ++ uLo).getD (xLo.length + i) 0 = uLo.getD i 0 ∧
      (xUp ++ uUp).getD (xLo.length + i) 0 = uUp.getD i 0 ∧
      (nx ++ nu).getD (xLo.length + i) 0 = nu.getD i 0 ∧ (ks.drop xLo.length).getD i 0 = ks.getD (xLo.length + i) 0 ∧
      ks.getD (xLo.length + i) 0 < nu.getD i 0 := by
    intro i hi
    have e : (nx ++ nu).getD (xLo.length + i) 0 = nu.getD i 0 := by rw [← h3]; exact getD_append_right' _ _ _ _
    refine ⟨getD_append_right' _ _ _ _, by rw [← h1]; exact getD_append_right' _ _ _ _, e, getD_drop' _ _ _ _, ?_⟩
    rw [← e]
    exact hks _ (by omega)
  have lds : (deltaScaled xLo xUp dx nx).length = xLo.length := by simp [deltaScaled, vsub, h1, h3, h5]
  have ldu : (deltaScaled uLo uUp du nu).length = uLo.length := by simp [deltaScaled, vsub, h2, h4, h6]
  refine ⟨⟨?_, ?_, ?_⟩, ⟨?_, ?_, ?_⟩, fun i hi => ?_, fun i hi => ?_, fun i hi => ?_, fun i hi => ?_, fun i hi => ?_,
    fun i hi => ?_⟩
  · simp [cellAt, h3]
  · simp [cellAt, clampV, vsub, h3, h1, lds]
  · simp [cellAt, clampV, vadd, h3, h1, lds]
  · simp [cellAt, h3, h4]
  · simp [cellAt, clampV, vsub, h3, h4, h2, ldu]
  · simp [cellAt, clampV, vadd, h3, h4, h2, ldu]
  · obtain ⟨e1, e2, e3, e4, e5⟩ := ex i hi
    simp only [cellAt]
    rw [getD_take' _ _ _ _ hi, getD_map_range _ _ _ _ (by omega), e1, e2, e3,
      getD_map' _ _ _ (0, 0) _ (by rw [length_limits]; exact e5), limits_getD _ _ _ _ e5, e4]
    simp only
    ring
  · obtain ⟨e1, e2, e3, e4, e5⟩ := eu i hi
    simp only [cellAt]
    rw [getD_take' _ _ _ _ hi, getD_drop', getD_map_range _ _ _ _ (by omega), e1, e2, e3,
      getD_map' _ _ _ (0, 0) _ (by rw [length_limits]; exact e5), limits_getD _ _ _ _ e5, e4]
    simp only
    ring
  · obtain ⟨e1, e2, e3, e4, e5⟩ := ex i hi
    simp only [cellAt]
    rw [getD_clampV _ _ _ _ (by simp [vsub, lds, h3]; omega) hi (by omega), vsub,
      getD_zipWith' _ _ _ i 0 0 _ (by simp; omega) (by omega), getD_deltaScaled _ _ _ _ _ hi h1 h3 h5,
      getD_take' _ _ _ _ hi, getD_map' _ _ _ (0, 0) _ (by simp [h3]; omega), getD_map_range _ _ _ _ (by omega), e1,
      e2, e3, limits_getD _ _ _ _ e5, e4, axisLo]
    congr 2
    ring
  · obtain ⟨e1, e2, e3, e4, e5⟩ := ex i hi
    simp only [cellAt]
    rw [getD_clampV _ _ _ _ (by simp [vadd, lds, h3]; omega) hi (by omega), vadd,
      getD_zipWith' _ _ _ i 0 0 _ (by simp; omega) (by omega), getD_deltaScaled _ _ _ _ _ hi h1 h3 h5,
      getD_take' _ _ _ _ hi, getD_map' _ _ _ (0, 0) _ (by simp [h3]; omega), getD_map_range _ _ _ _ (by omega), e1,
      e2, e3, limits_getD _ _ _ _ e5, e4, axisUp]
    congr 2
    ring
  · obtain ⟨e1, e2, e3, e4, e5⟩ := eu i hi
    simp only [cellAt]
    rw [getD_clampV _ _ _ _ (by simp [vsub, ldu, h3, h4]; omega) hi (by omega), vsub,
      getD_zipWith' _ _ _ i 0 0 _ (by simp; omega) (by omega), getD_deltaScaled _ _ _ _ _ hi h2 h4 h6,
      getD_take' _ _ _ _ hi, getD_drop', getD_map' _ _ _ (0, 0) _ (by simp [h3, h4]; omega),
      getD_map_range _ _ _ _ (by omega), e1, e2, e3, limits_getD _ _ _ _ e5, e4, axisLo]
    congr 2
    ring
  · obtain ⟨e1, e2, e3, e4, e5⟩ := eu i hi
    simp only [cellAt]
    rw [getD_clampV _ _ _ _ (by simp [vadd, ldu, h3, h4]; omega) hi (by omega), vadd,
      getD_zipWith' _ _ _ i 0 0 _ (by simp; omega) (by omega), getD_deltaScaled _ _ _ _ _ hi h2 h4 h6,
      getD_take' _ _ _ _ hi, getD_drop', getD_map' _ _ _ (0, 0) _ (by simp [h3, h4]; omega),
      getD_map_range _ _ _ _ (by omega), e1, e2, e3, limits_getD _ _ _ _ e5, e4, axisUp]
    congr 2
    ring

/-- Indices of a cell. -/
def Indices (n k : List ℕ) : Prop := k.length = n.length ∧ ∀ i, i < n.length → k.getD i 0 < n.getD i 0

theorem partition_parts {xLo xUp uLo uUp : Vec K} {nx nu : List ℕ} {dx du : Vec K} {cells : List (Cell K)}
    (h : partition xLo xUp uLo uUp nx nu dx du = some cells) :
    (xUp.length = xLo.length ∧ uUp.length = uLo.length ∧ nx.length = xLo.length ∧ nu.length = uLo.length ∧
      dx.length = xLo.length ∧ du.length = uLo.length) ∧
    cells = (meshXY ((nx ++ nu).map List.range)).map (cellAt xLo xUp uLo uUp nx nu dx du) := by
  unfold partition at h
  split at h
  · rename_i hc
    simp only [Option.some.injEq] at h
    exact ⟨⟨hc.1, hc.2.1, hc.2.2.1, hc.2.2.2.1, hc.2.2.2.2.1, hc.2.2.2.2.2.1⟩, h.symm⟩
  · cases h

theorem mem_mesh_range (n ks : List ℕ) : ks ∈ meshXY (n.map List.range) ↔ Indices n ks := by
  rw [mem_meshXY, forall₂_iff_getD 0 [], List.length_map, Indices]
  refine and_congr_right fun _ => forall_congr' fun i => imp_congr_right fun hi => ?_
  rw [getD_map' _ _ _ 0 _ hi, List.mem_range]

/-- C46. There is one cell for every tuple of indices. -/
theorem C46_count {xLo xUp uLo uUp : Vec K} {nx nu : List ℕ} {dx du : Vec K} {cells : List (Cell K)}
    (h : partition xLo xUp uLo uUp nx nu dx du = some cells) : cells.length = nx.prod * nu.prod := by
  obtain ⟨-, rfl⟩ := partition_parts h
  rw [List.length_map, length_meshXY, List.map_map, ← List.prod_append]
  congr 1
  conv_rhs => rw [← List.map_id (nx ++ nu)]
  apply List.map_congr_left
  intro a _
  simp

/-- C46. Every tuple of indices has its cell ... -/
theorem C46_cells {xLo xUp uLo uUp : Vec K} {nx nu : List ℕ} {dx du : Vec K} {cells : List (Cell K)}
    (h : partition xLo xUp uLo uUp nx nu dx du = some cells) {kx ku : List ℕ} (hx : Indices nx kx)
    (hu : Indices nu ku) : ∃ c ∈ cells, IsCell xLo xUp uLo uUp nx nu dx du kx ku c := by
  obtain ⟨⟨h1, h2, h3, h4, h5, h6⟩, rfl⟩ := partition_parts h
  have hk : Indices (nx ++ nu) (kx ++ ku) := by
    refine ⟨by simp [hx.1, hu.1], fun i hi => ?_⟩
    rcases Nat.lt_or_ge i nx.length with hlt | hge
    · rw [getD_append_lt _ _ _ _ hlt, getD_append_lt _ _ _ _ (by rw [hx.1]; exact hlt)]
      exact hx.2 i hlt
    · obtain ⟨j, rfl⟩ := Nat.exists_eq_add_of_le hge
      rw [getD_append_right']
      conv_lhs => rw [← hx.1, getD_append_right']
      exact hu.2 j (by simp at hi; omega)
  refine ⟨_, List.mem_map.2 ⟨kx ++ ku, (mem_mesh_range _ _).2 hk, rfl⟩, ?_⟩
  have := cellAt_isCell h1 h2 h3 h4 h5 h6 hk.1 hk.2
  have e : xLo.length = kx.length := by rw [hx.1, h3]
  rwa [e, List.take_left, List.drop_left] at this

/-- C46. ... and every cell returned has its tuple. -/
theorem C46_only {xLo xUp uLo uUp : Vec K} {nx nu : List ℕ} {dx du : Vec K} {cells : List (Cell K)}
    (h : partition xLo xUp uLo uUp nx nu dx du = some cells) {c : Cell K} (hc : c ∈ cells) :
    ∃ kx ku, Indices nx kx ∧ Indices nu ku ∧ IsCell xLo xUp uLo uUp nx nu dx du kx ku c := by
  obtain ⟨⟨h1, h2, h3, h4, h5, h6⟩, rfl⟩ := partition_parts h
  obtain ⟨ks, hks, rfl⟩ := List.mem_map.1 hc
  have hk := (mem_mesh_range _ _).1 hks
  have hl : ks.length = nx.length + nu.length := by simpa using hk.1
  refine ⟨_, _, ⟨by simp [hl, h3], fun i hi => ?_⟩, ⟨by simp [hl, h3], fun i hi => ?_⟩,
    cellAt_isCell h1 h2 h3 h4 h5 h6 hk.1 hk.2⟩
  · have := hk.2 i (by simp; omega)
    rw [getD_append_lt _ _ _ _ hi] at this
    rwa [getD_take' _ _ _ _ (by omega)]
  · have := hk.2 (nx.length + i) (by simp; omega)
    rw [getD_append_right'] at this
    rwa [getD_drop', ← h3]

/-- The cells of one axis cover it. -/
theorem axis_cover (lo up : K) (n : ℕ) (hn : 1 ≤ n) (d : K) (hd : 0 ≤ d) (x : K) (h1 : lo ≤ x) (h2 : x ≤ up) :
    ∃ k, k < n ∧ axisLo lo up n k d ≤ x ∧ x ≤ axisUp lo up n k d := by
  have hn0 : (0 : K) < n := by exact_mod_cast hn
  have hw : 0 ≤ (up - lo) / n := div_nonneg (by linarith) hn0.le
  have key : ∀ m : ℕ, 1 ≤ m → x ≤ lo + m * ((up - lo) / n) →
      ∃ k, k < m ∧ lo + k * ((up - lo) / n) ≤ x ∧ x ≤ lo + (k + 1) * ((up - lo) / n) := by
    intro m
    induction m with
    | zero => intro h; omega
    | succ m ih =>
      intro _ hx
      rcases Nat.eq_zero_or_pos m with e | e
      · subst e
        exact ⟨0, by omega, by simpa using h1, by simpa using hx⟩
      · rcases le_total x (lo + m * ((up - lo) / n)) with h | h
        · obtain ⟨k, a, b, c⟩ := ih e h
          exact ⟨k, by omega, b, c⟩
        · exact ⟨m, by omega, h, by push_cast at hx; exact hx⟩
  obtain ⟨k, a, b, c⟩ := key n hn (by rw [mul_div_cancel₀ _ hn0.ne']; linarith)
  refine ⟨k, a, ?_, ?_⟩
  · exact min_le_of_left_le (max_le (by nlinarith) h1)
  · exact le_min (le_max_of_le_left (by nlinarith)) h2

/-- Choose indices axis by axis. -/
theorem choose_indices (n : List ℕ) (p : ℕ → ℕ → Prop) (h : ∀ i, i < n.length → ∃ k, k < n.getD i 0 ∧ p i k) :
    ∃ ks, Indices n ks ∧ ∀ i, i < n.length → p i (ks.getD i 0) := by
  have : ∀ i, ∃ k, i < n.length → k < n.getD i 0 ∧ p i k := by
    intro i
    by_cases hi : i < n.length
    · obtain ⟨k, hk⟩ := h i hi
      exact ⟨k, fun _ => hk⟩
    · exact ⟨0, fun h => absurd h hi⟩
  choose f hf using this
  refine ⟨(List.range n.length).map f, ⟨by simp, fun i hi => ?_⟩, fun i hi => ?_⟩
  · rw [getD_map_range _ _ _ _ hi]
    exact (hf i hi).1
  · rw [getD_map_range _ _ _ _ hi]
    exact (hf i hi).2

/-- C46. With margins that are not negative, the cells cover the box. -/
theorem C46_cover {xLo xUp uLo uUp : Vec K} {nx nu : List ℕ} {dx du : Vec K} {cells : List (Cell K)}
    (h : partition xLo xUp uLo uUp nx nu dx du = some cells)
    (hnx : ∀ i, i < nx.length → 1 ≤ nx.getD i 0) (hnu : ∀ i, i < nu.length → 1 ≤ nu.getD i 0)
    (hdx : ∀ i, i < dx.length → 0 ≤ dx.getD i 0) (hdu : ∀ i, i < du.length → 0 ≤ du.getD i 0)
    {x u : Vec K} (hx : InBox xLo xUp x) (hu : InBox uLo uUp u) :
    ∃ c ∈ cells, InBox c.xLo c.xUp x ∧ InBox c.uLo c.uUp u := by
  obtain ⟨⟨h1, h2, h3, h4, h5, h6⟩, -⟩ := partition_parts h
  obtain ⟨kx, ix, px⟩ := choose_indices nx (fun i k =>
      axisLo (xLo.getD i 0) (xUp.getD i 0) (nx.getD i 0) k (dx.getD i 0) ≤ x.getD i 0 ∧
      x.getD i 0 ≤ axisUp (xLo.getD i 0) (xUp.getD i 0) (nx.getD i 0) k (dx.getD i 0)) (by
    intro i hi
    have hi' : i < x.length := by rw [hx.1]; omega
    exact axis_cover _ _ _ (hnx i hi) _ (hdx i (by omega)) _ (hx.2.2 i hi').1 (hx.2.2 i hi').2)
  obtain ⟨ku, iu, pu⟩ := choose_indices nu (fun i k =>
      axisLo (uLo.getD i 0) (uUp.getD i 0) (nu.getD i 0) k (du.getD i 0) ≤ u.getD i 0 ∧
      u.getD i 0 ≤ axisUp (uLo.getD i 0) (uUp.getD i 0) (nu.getD i 0) k (du.getD i 0)) (by
    intro i hi
    have hi' : i < u.length := by rw [hu.1]; omega
    exact axis_cover _ _ _ (hnu i hi) _ (hdu i (by omega)) _ (hu.2.2 i hi').1 (hu.2.2 i hi').2)
  obtain ⟨c, hc, C⟩ := C46_cells h ix iu
  refine ⟨c, hc, ⟨by rw [hx.1, C.len_x.2.1], by rw [hx.1, C.len_x.2.2], fun i hi => ?_⟩,
    ⟨by rw [hu.1, C.len_u.2.1], by rw [hu.1, C.len_u.2.2], fun i hi => ?_⟩⟩
  · rw [hx.1] at hi
    rw [C.xLo' i hi, C.xUp' i hi]
    exact px i (by omega)
  · rw [hu.1] at hi
    rw [C.uLo' i hi, C.uUp' i hi]
    exact pu i (by omega)

theorem clamp_mem (a lo up : K) (h : lo ≤ up) : lo ≤ min (max a lo) up ∧ min (max a lo) up ≤ up :=
  ⟨le_min (le_max_right _ _) h, min_le_right _ _⟩

/-- C46. All cells lie in the box. -/
theorem C46_inside {xLo xUp uLo uUp : Vec K} {nx nu : List ℕ} {dx du : Vec K} {cells : List (Cell K)}
    (h : partition xLo xUp uLo uUp nx nu dx du = some cells)
    (hx : ∀ i, i < xLo.length → xLo.getD i 0 ≤ xUp.getD i 0)
    (hu : ∀ i, i < uLo.length → uLo.getD i 0 ≤ uUp.getD i 0) {c : Cell K} (hc : c ∈ cells) :
    InBox xLo xUp c.xLo ∧ InBox xLo xUp c.xUp ∧ InBox uLo uUp c.uLo ∧ InBox uLo uUp c.uUp := by
  obtain ⟨⟨h1, h2, h3, h4, h5, h6⟩, -⟩ := partition_parts h
  obtain ⟨kx, ku, -, -, C⟩ := C46_only h hc
  refine ⟨⟨C.len_x.2.1, by rw [C.len_x.2.1, h1], fun i hi => ?_⟩, ⟨C.len_x.2.2, by rw [C.len_x.2.2, h1], fun i hi => ?_⟩,
    ⟨C.len_u.2.1, by rw [C.len_u.2.1, h2], fun i hi => ?_⟩, ⟨C.len_u.2.2, by rw [C.len_u.2.2, h2], fun i hi => ?_⟩⟩
  · rw [C.len_x.2.1] at hi
    rw [C.xLo' i hi]
    exact clamp_mem _ _ _ (hx i hi)
  · rw [C.len_x.2.2] at hi
    rw [C.xUp' i hi]
    exact clamp_mem _ _ _ (hx i hi)
  · rw [C.len_u.2.1] at hi
    rw [C.uLo' i hi]
    exact clamp_mem _ _ _ (hu i hi)
  · rw [C.len_u.2.2] at hi
    rw [C.uUp' i hi]
    exact clamp_mem _ _ _ (hu i hi)

theorem axis_center (lo up : K) (n k : ℕ) (d : K) (h : lo ≤ up) (hk : k < n) (hd : -(1 / 2) ≤ d) :
    axisLo lo up n k d ≤ lo + (k + 1 / 2) * ((up - lo) / n) ∧
      lo + (k + 1 / 2) * ((up - lo) / n) ≤ axisUp lo up n k d := by
  have hn0 : (0 : K) < n := by
    have : 0 < n := by omega
    exact_mod_cast this
  have hw : 0 ≤ (up - lo) / n := div_nonneg (by linarith) hn0.le
  have hk0 : (0 : K) ≤ k := Nat.cast_nonneg _
  have hkn : (k : K) + 1 ≤ n := by exact_mod_cast hk
  have hu : n * ((up - lo) / n) = up - lo := mul_div_cancel₀ _ hn0.ne'
  constructor
  · exact min_le_of_left_le (max_le (by nlinarith) (by nlinarith))
  · exact le_min (le_max_of_le_left (by nlinarith)) (by nlinarith)

/-- C46. The sample of a cell lies in the cell unless a margin is below `-1/2`. -/
theorem C46_center {xLo xUp uLo uUp : Vec K} {nx nu : List ℕ} {dx du : Vec K} {cells : List (Cell K)}
    (h : partition xLo xUp uLo uUp nx nu dx du = some cells)
    (hx : ∀ i, i < xLo.length → xLo.getD i 0 ≤ xUp.getD i 0)
    (hu : ∀ i, i < uLo.length → uLo.getD i 0 ≤ uUp.getD i 0)
    (hdx : ∀ i, i < dx.length → -(1 / 2) ≤ dx.getD i 0) (hdu : ∀ i, i < du.length → -(1 / 2) ≤ du.getD i 0)
    {c : Cell K} (hc : c ∈ cells) : InBox c.xLo c.xUp c.x ∧ InBox c.uLo c.uUp c.u := by
  obtain ⟨⟨h1, h2, h3, h4, h5, h6⟩, -⟩ := partition_parts h
  obtain ⟨kx, ku, ix, iu, C⟩ := C46_only h hc
  refine ⟨⟨by rw [C.len_x.1, C.len_x.2.1], by rw [C.len_x.1, C.len_x.2.2], fun i hi => ?_⟩,
    ⟨by rw [C.len_u.1, C.len_u.2.1], by rw [C.len_u.1, C.len_u.2.2], fun i hi => ?_⟩⟩
  · rw [C.len_x.1] at hi
    rw [C.x' i hi, C.xLo' i hi, C.xUp' i hi]
    exact axis_center _ _ _ _ _ (hx i hi) (ix.2 i (by omega)) (hdx i (by omega))
  · rw [C.len_u.1] at hi
    rw [C.u' i hi, C.uLo' i hi, C.uUp' i hi]
    exact axis_center _ _ _ _ _ (hu i hi) (iu.2 i (by omega)) (hdu i (by omega))

/-- C46. With a negative margin there are gaps, as documented: no cell contains `1`. -/
theorem C46_gaps : (partition [(0 : ℚ)] [2] [] [] [2] [] [-1/4] []).map (fun cells =>
    cells.map fun c => (c.x, c.xLo, c.xUp)) = some [([1/2], [1/4], [3/4]), ([3/2], [5/4], [7/4])] := by
  decide +kernel

/-- An example with one state and one input: four cells, the second axis varies slowest. -/
example : (partition [(0 : ℚ)] [2] [0] [4] [2] [2] [0] [1/2]).map (fun cells =>
    cells.map fun c => (c.xLo, c.xUp, c.uLo, c.uUp)) =
    some [([0], [1], [0], [3]), ([1], [2], [0], [3]), ([0], [1], [1], [4]), ([1], [2], [1], [4])] := by
  decide +kernel

end NNL.Props
