import Verif.Model.SmallUtils
import Mathlib.Tactic.Linarith
import Mathlib.Tactic.NormNum
import Mathlib.Tactic.Ring
import Mathlib.Tactic.Push
import Mathlib.Data.Rat.Floor

/-!
# C138: small helpers do what their callers expect

The nearest entry of an array, the progress bar, resetting gradients and adding noise to a dataset.
-/

set_option linter.unusedSectionVars false

namespace NNL.Props

open NNL NNL.Model

variable {K : Type*} [Field K] [LinearOrder K] [IsStrictOrderedRing K]

/-! ## `find_nearest` -/

theorem argminFirst_spec : ∀ (l : List K) (i : ℕ), argminFirst l = some i →
    i < l.length ∧ (∀ j, j < l.length → l.getD i 0 ≤ l.getD j 0) ∧ (∀ j, j < i → l.getD i 0 < l.getD j 0)
  | [], i, h => by simp [argminFirst] at h
  | a :: as, i, h => by
    unfold argminFirst at h
    cases hr : argminFirst as with
    | none =>
      rw [hr] at h
      have hi : i = 0 := by simpa using h.symm
      have he : as = [] := by
        cases as with
        | nil => rfl
        | cons b bs =>
          exfalso
          unfold argminFirst at hr
          cases hq : argminFirst bs with
          | none => simp [hq] at hr
          | some k =>
            rw [hq] at hr
            simp only at hr
            split at hr <;> simp at hr
      subst hi; subst he
      refine ⟨by simp, ?_, by simp⟩
      intro j hj
      have : j = 0 := by simpa using hj
      simp [this]
    | some k =>
      rw [hr] at h
      obtain ⟨h1, h2, h3⟩ := argminFirst_spec as k hr
      simp only at h
      split at h
      · rename_i hle
        have hi : i = 0 := by simpa using h.symm
        subst hi
        refine ⟨by simp, ?_, by simp⟩
        intro j hj
        cases j with
        | zero => simp
        | succ j =>
          have := h2 j (by simpa using hj)
          simpa using le_trans hle this
      · rename_i hle
        have hi : i = k + 1 := by simpa using h.symm
        subst hi
        push Not at hle
        refine ⟨by simpa using h1, ?_, ?_⟩
        · intro j hj
          cases j with
          | zero => simpa using hle.le
          | succ j => simpa using h2 j (by simpa using hj)
        · intro j hj
          cases j with
          | zero => simpa using hle
          | succ j => simpa using h3 j (by omega)

theorem argminFirst_isSome {a : K} {as : List K} : (argminFirst (a :: as)).isSome := by
  unfold argminFirst
  cases argminFirst as with
  | none => rfl
  | some k => simp only; split <;> rfl

/-- **C138.** The answer of `find_nearest` is an entry of the array; no entry is nearer to the value, and every
earlier entry is strictly further away. -/
theorem C138_nearest (array : List K) (value y : K) (h : findNearest array value = some y) :
    ∃ i : ℕ, array[i]? = some y ∧ (∀ a ∈ array, |y - value| ≤ |a - value|) ∧
      ∀ (j : ℕ) (a : K), j < i → array[j]? = some a → |y - value| < |a - value| := by
  unfold findNearest at h
  obtain ⟨i, hi, hy⟩ := Option.bind_eq_some_iff.1 h
  obtain ⟨h1, h2, h3⟩ := argminFirst_spec _ _ hi
  have key : ∀ (j : ℕ) (a : K), array[j]? = some a → (array.map fun a => |a - value|).getD j 0 = |a - value| := by
    intro j a hj
    simp [List.getD_eq_getElem?_getD, hj]
  refine ⟨i, hy, ?_, ?_⟩
  · intro a ha
    obtain ⟨j, hj⟩ := List.mem_iff_getElem?.1 ha
    have hl : j < (array.map fun a => |a - value|).length := by
      have := (List.getElem?_eq_some_iff.1 hj).1
      simpa using this
    have := h2 j hl
    rwa [key i y hy, key j a hj] at this
  · intro j a hji hj
    have := h3 j hji
    rwa [key i y hy, key j a hj] at this

/-- **C138.** `find_nearest` answers exactly for the arrays which are not empty. -/
theorem C138_nearest_defined (array : List K) (value : K) : (findNearest array value).isSome ↔ array ≠ [] := by
  cases array with
  | nil => simp [findNearest, argminFirst]
  | cons a as =>
    simp only [ne_eq, reduceCtorEq, not_false_eq_true, iff_true]
    unfold findNearest
    have hs : (argminFirst ((a :: as).map fun a => |a - value|)).isSome := argminFirst_isSome
    obtain ⟨i, hi⟩ := Option.isSome_iff_exists.1 hs
    have h1 := (argminFirst_spec _ _ hi).1
    rw [hi]
    simp only [Option.bind_some]
    rw [List.getElem?_eq_getElem (by simpa using h1)]
    rfl

/-- **C138.** A value which is in the array is returned itself. -/
theorem C138_nearest_self (array : List K) (value : K) (h : value ∈ array) :
    findNearest array value = some value := by
  have hs := (C138_nearest_defined array value).2 (List.ne_nil_of_mem h)
  obtain ⟨y, hy⟩ := Option.isSome_iff_exists.1 hs
  obtain ⟨_, _, h2, _⟩ := C138_nearest array value y hy
  have := h2 value h
  rw [sub_self, abs_zero] at this
  have := abs_nonpos_iff.1 this
  rw [hy, sub_eq_zero.1 this]

/-- Two entries are equally near: the first one is returned. -/
example : findNearest [5, 1, (3 : ℚ)] 2 = some 1 := by
  norm_num [findNearest, argminFirst, abs_of_nonneg, abs_of_neg]

/-! ## `update_progress` -/

variable [FloorRing K]

/-- Python's `round` is within one half. -/
theorem pyRound_near (x : K) : |(pyRound x : K) - x| ≤ 1 / 2 := by
  have h1 := Int.floor_le x
  have h2 := Int.lt_floor_add_one x
  unfold pyRound
  rw [abs_le]
  split_ifs <;> constructor <;> push_cast <;> linarith

/-- The clamped fraction, as a user reads it. -/
theorem clampProgress_eq (p : Progress K) : clampProgress p = max 0 (min 1
    (match p with | .int n => (n : K) | .float x => x | .other => 0)) := by
  have key : ∀ x : K, (if (if x < 0 then 0 else x) ≥ 1 then 1 else if x < 0 then 0 else x) = max 0 (min 1 x) := by
    intro x
    rcases lt_or_ge x 0 with h | h
    · rw [if_pos h, if_neg (by norm_num), min_eq_right (by linarith), max_eq_left h.le]
    · rw [if_neg (not_lt.2 h)]
      rcases lt_or_ge x 1 with h1 | h1
      · rw [if_neg (not_le.2 h1), min_eq_right h1.le, max_eq_right h]
      · rw [if_pos h1, min_eq_left h1, max_eq_right zero_le_one]
  cases p <;> exact key _

theorem pyRound_range (x : K) (h0 : 0 ≤ x) (h1 : x ≤ 1) : 0 ≤ pyRound (40 * x) ∧ pyRound (40 * x) ≤ 40 := by
  have h := abs_le.1 (pyRound_near (40 * x))
  constructor
  · by_contra hc
    have : pyRound (40 * x) ≤ -1 := by omega
    have : (pyRound (40 * x) : K) ≤ ((-1 : ℤ) : K) := Int.cast_le.2 this
    push_cast at this
    linarith [h.1]
  · by_contra hc
    have : 41 ≤ pyRound (40 * x) := by omega
    have : ((41 : ℤ) : K) ≤ (pyRound (40 * x) : K) := Int.cast_le.2 this
    push_cast at this
    linarith [h.2]

/-- **C138.** For every argument the bar is forty characters wide, a run of `#` followed by a run of `-`; the
number of `#` differs from the clamped fraction of forty by at most one half, and the percentage is between 0 and
100. -/
theorem C138_progress (p : Progress K) : ∃ k : ℕ, k ≤ 40 ∧
    (progressBar p).1 = List.replicate k '#' ++ List.replicate (40 - k) '-' ∧
    |(k : K) - 40 * max 0 (min 1 (match p with | .int n => (n : K) | .float x => x | .other => 0))| ≤ 1 / 2 ∧
    (progressBar p).2 = 100 * max 0 (min 1 (match p with | .int n => (n : K) | .float x => x | .other => 0)) := by
  rw [← clampProgress_eq]
  have h0 : 0 ≤ clampProgress p := by rw [clampProgress_eq]; exact le_max_left _ _
  have h1 : clampProgress p ≤ 1 := by
    rw [clampProgress_eq]; exact max_le zero_le_one (min_le_left _ _)
  obtain ⟨hr0, hr1⟩ := pyRound_range _ h0 h1
  refine ⟨(pyRound (40 * clampProgress p)).toNat, by omega, ?_, ?_, ?_⟩
  · unfold progressBar
    simp only
    congr 2
    omega
  · have hc : (((pyRound (40 * clampProgress p)).toNat : ℕ) : K) = (pyRound (40 * clampProgress p) : K) := by
      rw [← Int.cast_natCast, Int.toNat_of_nonneg hr0]
    rw [hc]
    exact pyRound_near _
  · unfold progressBar
    simp only
    ring

/-- **C138.** The bar is full from 1 on and empty up to 0. -/
theorem C138_progress_ends (x : K) :
    (1 ≤ x → (progressBar (.float x)).1 = List.replicate 40 '#') ∧
    (x ≤ 0 → (progressBar (.float x)).1 = List.replicate 40 '-') := by
  have hr : ∀ n : ℤ, pyRound (n : K) = n := by
    intro n
    unfold pyRound
    rw [Int.floor_intCast, sub_self, if_pos (by norm_num)]
  constructor
  · intro h
    have hc : clampProgress (.float x) = 1 := by
      rw [clampProgress_eq]; simp [min_eq_left h]
    unfold progressBar
    have := hr 40
    simp only [hc, mul_one]
    push_cast at this
    rw [this]
    rfl
  · intro h
    have hc : clampProgress (.float x) = 0 := by
      rw [clampProgress_eq]; simp [min_eq_right (h.trans zero_le_one), h]
    unfold progressBar
    have := hr 0
    simp only [hc, mul_zero]
    push_cast at this
    rw [this]
    rfl

theorem pyRound_floor (x : K) : ⌊x⌋ ≤ pyRound x ∧ pyRound x ≤ ⌊x⌋ + 1 := by
  unfold pyRound
  split_ifs <;> omega

theorem pyRound_mono {x y : K} (h : x ≤ y) : pyRound x ≤ pyRound y := by
  rcases (Int.floor_le_floor h).lt_or_eq with hf | hf
  · have := (pyRound_floor x).2
    have := (pyRound_floor y).1
    omega
  · unfold pyRound
    rw [hf]
    split_ifs <;> first | omega | (exfalso; linarith)

theorem pyRound_half (x : K) (h : |(pyRound x : K) - x| = 1 / 2) : pyRound x % 2 = 0 := by
  have h1 := Int.floor_le x
  have h2 := Int.lt_floor_add_one x
  unfold pyRound at h ⊢
  split_ifs at h ⊢ with ha hb hc
  · rcases abs_choice ((⌊x⌋ : K) - x) with hq | hq <;> rw [hq] at h <;> exfalso <;> linarith
  · rcases abs_choice (((⌊x⌋ + 1 : ℤ) : K) - x) with hq | hq <;> rw [hq] at h <;> push_cast at h <;> exfalso <;>
      linarith
  · exact hc
  · omega

theorem count_bar (p : Progress K) :
    (((progressBar p).1.count '#' : ℕ) : ℤ) = pyRound (40 * clampProgress p) := by
  have h0 : 0 ≤ clampProgress p := by rw [clampProgress_eq]; exact le_max_left _ _
  have h1 : clampProgress p ≤ 1 := by
    rw [clampProgress_eq]; exact max_le zero_le_one (min_le_left _ _)
  have hr0 := (pyRound_range _ h0 h1).1
  unfold progressBar
  simp only [List.count_append, List.count_replicate_self]
  rw [List.count_replicate]
  simp only [beq_iff_eq, Char.reduceEq, if_false, add_zero]
  omega

/-- **C138.** More progress never shows a shorter bar. -/
theorem C138_progress_mono (x y : K) (h : x ≤ y) :
    (progressBar (.float x)).1.count '#' ≤ (progressBar (.float y)).1.count '#' := by
  have hx := count_bar (.float x)
  have hy := count_bar (.float y)
  have hm : clampProgress (.float x) ≤ clampProgress (.float y) := by
    rw [clampProgress_eq, clampProgress_eq]
    exact max_le_max le_rfl (min_le_min le_rfl h)
  have := pyRound_mono (mul_le_mul_of_nonneg_left hm (by norm_num : (0 : K) ≤ 40))
  omega

/-- **C138.** A fraction in the middle between two lengths shows the even one. -/
theorem C138_progress_half (x : K) (h0 : 0 ≤ x) (h1 : x ≤ 1)
    (h : |((progressBar (.float x)).1.count '#' : K) - 40 * x| = 1 / 2) :
    (progressBar (.float x)).1.count '#' % 2 = 0 := by
  have hc := count_bar (.float x)
  have hx : clampProgress (.float x) = x := by
    rw [clampProgress_eq]; simp [h0, h1]
  rw [hx] at hc
  rw [← Int.cast_natCast, hc] at h
  have := pyRound_half _ h
  omega

/-- Half of a character more than two characters: two characters are shown, not three. -/
example : (progressBar (.float (1 / 16 : ℚ))).1.count '#' = 2 := by
  have h := count_bar (.float (1 / 16 : ℚ))
  have : pyRound (40 * clampProgress (.float (1 / 16 : ℚ))) = 2 := by
    rw [clampProgress_eq]
    norm_num [pyRound]
  omega

/-! ## `network_zero_grad` -/

omit [FloorRing K] [IsStrictOrderedRing K]

/-- Whether `network_zero_grad` knows the kind of layer. -/
def KnownLayer : GradLayer K → Prop
  | .other => False
  | _ => True

/-- The layer `m` is the layer `l` with every stored gradient replaced by zeros of the same shape; a gradient which
is `None` stays `None`. -/
def IsZeroed : GradLayer K → GradLayer K → Prop
  | .lin w b, .lin w' b' =>
    (∀ W, w = some W → ∃ W', w' = some W' ∧ W'.length = W.length ∧
      ∀ (i : ℕ) (r r' : Vec K), W[i]? = some r → W'[i]? = some r' → r'.length = r.length ∧ ∀ e ∈ r', e = 0) ∧
    (w = none → w' = none) ∧
    (b = none → b' = none) ∧ (b = some none → b' = some none) ∧
    (∀ v, b = some (some v) → ∃ v', b' = some (some v') ∧ v'.length = v.length ∧ ∀ e ∈ v', e = 0)
  | .relu, .relu => True
  | .leaky, .leaky => True
  | _, _ => False

theorem zeroLin_isZeroed (w : Option (Mat K)) (b : Option (Option (Vec K))) : IsZeroed (.lin w b) (zeroLin w b) := by
  refine ⟨?_, ?_, ?_, ?_, ?_⟩
  · rintro W rfl
    refine ⟨_, rfl, by simp, ?_⟩
    intro i r r' hr hr'
    rw [List.getElem?_map, hr] at hr'
    have : r' = r.map fun _ => 0 := by simpa using hr'.symm
    subst this
    simp
  · rintro rfl; rfl
  · rintro rfl; rfl
  · rintro rfl; rfl
  · rintro v rfl
    exact ⟨_, rfl, by simp, by simp⟩

/-- **C138.** If every layer is linear, ReLU or leaky ReLU, `network_zero_grad` does not raise, and afterwards every
gradient stored in a weight or in a bias is zero. -/
theorem C138_zero_grad (ls : List (GradLayer K)) (h : ∀ l ∈ ls, KnownLayer l) :
    (networkZeroGrad ls).2 = false ∧ List.Forall₂ IsZeroed ls (networkZeroGrad ls).1 := by
  induction ls with
  | nil => exact ⟨rfl, .nil⟩
  | cons l ls ih =>
    obtain ⟨h1, h2⟩ := ih fun m hm => h m (List.mem_cons_of_mem _ hm)
    cases l with
    | lin w b => exact ⟨h1, .cons (zeroLin_isZeroed w b) h2⟩
    | relu => exact ⟨h1, .cons trivial h2⟩
    | leaky => exact ⟨h1, .cons trivial h2⟩
    | other => exact (h .other List.mem_cons_self).elim

/-- **C138.** With a layer of another kind the call raises: the gradients in front of the first such layer are zero
by then, those behind it are as they were. -/
theorem C138_zero_grad_raises (front back : List (GradLayer K)) (h : ∀ l ∈ front, KnownLayer l) :
    ∃ front', networkZeroGrad (front ++ .other :: back) = (front' ++ .other :: back, true) ∧
      List.Forall₂ IsZeroed front front' := by
  induction front with
  | nil => exact ⟨[], rfl, .nil⟩
  | cons l ls ih =>
    obtain ⟨f, h1, h2⟩ := ih fun m hm => h m (List.mem_cons_of_mem _ hm)
    cases l with
    | lin w b =>
      refine ⟨zeroLin w b :: f, ?_, .cons (zeroLin_isZeroed w b) h2⟩
      rw [List.cons_append]; simp only [networkZeroGrad, h1, List.cons_append]
    | relu =>
      refine ⟨.relu :: f, ?_, .cons trivial h2⟩
      rw [List.cons_append]; simp only [networkZeroGrad, h1, List.cons_append]
    | leaky =>
      refine ⟨.leaky :: f, ?_, .cons trivial h2⟩
      rw [List.cons_append]; simp only [networkZeroGrad, h1, List.cons_append]
    | other => exact (h .other List.mem_cons_self).elim

/-- A layer with a gradient, an activation, an unsupported layer and a layer which keeps its gradient. -/
example : networkZeroGrad [.lin (some [[3, 4]]) (some (some [5])), .relu, .other, .lin (some [[(7 : ℚ)]]) none] =
    ([.lin (some [[0, 0]]) (some (some [0])), .relu, .other, .lin (some [[7]]) none], true) := by
  rfl

/-! ## `add_noise` -/

/-- **C138.** The entry `j` of sample `i` after `add_noise`: the entry before, plus the draw times the given
fraction of the mean magnitude of that entry over all samples. -/
theorem C138_noise (data : Mat K) (pct : Vec K) (eps : Mat K) (i j : ℕ) (r e : Vec K) (x : K)
    (hr : data[i]? = some r) (he : eps[i]? = some e) (hx : r[j]? = some x) :
    ∃ r', (addNoise data pct eps)[i]? = some r' ∧ r'.length = r.length ∧
      r'[j]? = some (x + e.getD j 0 * (pct.getD j 0 * ((data.map fun s => |s.getD j 0|).sum / (data.length : K)))) := by
  have hj := (List.getElem?_eq_some_iff.1 hx).1
  refine ⟨_, by rw [addNoise, List.getElem?_zipWith, hr, he], by simp, ?_⟩
  rw [List.getElem?_zipWith, hx, List.getElem?_map, List.getElem?_range hj]
  rfl

/-- **C138.** Without noise in any column the dataset is returned as it is. -/
theorem C138_noise_zero (data : Mat K) (pct : Vec K) (eps : Mat K) (hl : eps.length = data.length)
    (h : ∀ p ∈ pct, p = 0) : addNoise data pct eps = data := by
  have hp : ∀ j, pct.getD j 0 = 0 := by
    intro j
    rw [List.getD_eq_getElem?_getD]
    cases hq : pct[j]? with
    | none => rfl
    | some p => exact h p (List.mem_of_getElem? hq)
  apply List.ext_getElem?
  intro i
  rw [addNoise, List.getElem?_zipWith]
  cases hd : data[i]? with
  | none => rfl
  | some r =>
    have hi := (List.getElem?_eq_some_iff.1 hd).1
    rw [List.getElem?_eq_getElem (l := eps) (by omega)]
    simp only [Option.some.injEq]
    apply List.ext_getElem?
    intro j
    rw [List.getElem?_zipWith, List.getElem?_map]
    cases hx : r[j]? with
    | none => rfl
    | some x =>
      have hj := (List.getElem?_eq_some_iff.1 hx).1
      rw [List.getElem?_range hj]
      simp only [hp j, zero_mul, mul_zero, add_zero, Option.map_some]

/-- The mean magnitude of the column is 3. -/
example : addNoise [[2], [(-4 : ℚ)]] [1 / 2] [[1], [2]] = [[7 / 2], [-1]] := by
  norm_num [addNoise, meanAbs, List.range_succ]

end NNL.Props
