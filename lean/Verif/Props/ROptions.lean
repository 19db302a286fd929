import Verif.Model.ROptions
import Verif.Props.SimplePwl
import Verif.Props.ControlAffine
import Verif.Spec.Lyapunov
import Verif.Lemmas.Pattern
import Mathlib.Analysis.SpecialFunctions.Sqrt

/-!
# Parameterisations of `R`: C52
-/

set_option linter.unusedSectionVars false

namespace NNL.Props

open NNL NNL.Spec NNL.Model

variable {K : Type*} [Field K] [LinearOrder K] [IsStrictOrderedRing K]

/-- The matrix `R` (with `n` columns) has full column rank. -/
def TrivialKernel (n : ℕ) (R : Mat K) : Prop := ∀ x : Vec K, x.length = n → matVec R x = zeros R.length → x = zeros n

/-- With full column rank `|R (x - x*)|₁` vanishes at `x*` only. -/
theorem C52_err_pos {n : ℕ} {R : Mat K} (h : TrivialKernel n R) {xe x : Vec K} (hx : x.length = n)
    (hxe : xe.length = n) (hne : x ≠ xe) : 0 < err R xe x := by
  have h0 : ∀ l : Vec K, (∀ a ∈ l, 0 ≤ |a|) ∧ ((l.map fun a => |a|).sum = 0 → l = zeros l.length) ∧
      0 ≤ (l.map fun a => |a|).sum := by
    intro l
    induction l with
    | nil => simp [zeros]
    | cons a l ih =>
      refine ⟨fun a _ => abs_nonneg a, fun h => ?_, ?_⟩
      · simp only [List.map_cons, List.sum_cons] at h
        have h1 := abs_nonneg a
        have h2 := ih.2.2
        have h3 : |a| = 0 := by linarith
        have h4 := ih.2.1 (by linarith)
        rw [abs_eq_zero] at h3
        rw [h3, List.length_cons, zeros, List.replicate_succ, ← zeros, ← h4]
      · simp only [List.map_cons, List.sum_cons]
        linarith [abs_nonneg a, ih.2.2]
  rcases (h0 (matVec R (vsub x xe))).2.2.lt_or_eq with hlt | heq
  · exact hlt
  · exfalso
    have h1 := (h0 (matVec R (vsub x xe))).2.1 heq.symm
    rw [length_matVec] at h1
    have h2 := h (vsub x xe) (by simp [hx, hxe]) h1
    refine hne (vec_ext (by omega) fun i hi => ?_)
    have := congrArg (fun v => v.getD i 0) h2
    rw [getD_vsub _ _ _ (by omega)] at this
    rw [getD_zeros] at this
    linarith

theorem dot_self_definite (x : Vec K) : 0 ≤ dot x x ∧ (dot x x = 0 → x = zeros x.length) := by
  induction x with
  | nil => simp [zeros]
  | cons a x ih =>
    have := mul_self_nonneg a
    refine ⟨by simp only [dot_cons]; linarith [ih.1], fun h => ?_⟩
    simp only [dot_cons] at h
    have h1 : a * a = 0 := by linarith [ih.1]
    have h2 := ih.2 (by linarith)
    have h3 : a = 0 := by simpa using h1
    rw [h3, List.length_cons, zeros, List.replicate_succ, ← zeros, ← h2]

theorem getD_map_col (L : Mat K) (j i : ℕ) : (L.map fun r => r.getD j 0).getD i 0 = (L.getD i []).getD j 0 := by
  rcases Nat.lt_or_ge i L.length with h | h
  · simp [List.getD, h]
  · simp [List.getD, h]

theorem getD_transposeM (n : ℕ) (M : Mat K) (i j : ℕ) (hi : i < n) :
    ((transposeM n M).getD i []).getD j 0 = (M.getD j []).getD i 0 := by
  have e : (transposeM n M).getD i [] = M.map fun r => r.getD i 0 := by simp [transposeM, List.getD, hi]
  rw [e, getD_map_col]

theorem length_transposeM (n : ℕ) (M : Mat K) : (transposeM n M).length = n := by simp [transposeM]

theorem hasCols_transposeM (n : ℕ) (M : Mat K) : HasCols (transposeM n M) M.length := by
  intro r hr
  simp only [transposeM, List.mem_map] at hr
  obtain ⟨j, -, rfl⟩ := hr
  simp

/-- `x · (A y) = (Aᵀ x) · y`. -/
theorem dot_transpose (n : ℕ) (A : Mat K) (hA : HasCols A n) (x y : Vec K) :
    dot x (matVec A y) = dot (matVec (transposeM n A) x) y := by
  rw [← dot_vecMat n x A y hA]
  congr 1
  refine vec_ext (by rw [length_vecMat _ _ _ hA, length_matVec, length_transposeM]) fun i hi => ?_
  rw [length_vecMat _ _ _ hA] at hi
  have e : (vecMat n x A).getD i 0 = dot (vecMat n x A) (eyeRow n i) := by
    rw [dot_comm, dot_eyeRow _ _ _ hi]
  rw [e, dot_vecMat n _ _ _ hA, dot_comm]
  have e2 : matVec A (eyeRow n i) = A.map fun r => r.getD i 0 := by
    refine List.map_congr_left fun r hr => ?_
    rw [dot_comm, dot_eyeRow _ _ _ hi]
  rw [e2]
  simp [matVec, transposeM, List.getD, hi]

theorem spd_lower_shape (S : SpdR K) : S.lower.length = S.n ∧ HasCols S.lower S.n := by
  refine ⟨by simp [SpdR.lower, length_transposeM], ?_⟩
  have := hasCols_transposeM S.n ((List.range S.n).map fun i => zeros i ++
    (splitSizes ((List.range S.n).map (S.n - ·)) (S.vars.take (S.n * (S.n + 1) / 2))).getD i [])
  simpa [SpdR.lower] using this

/-- The square block on top. -/
def SpdR.top (S : SpdR K) : Mat K := S.R.take S.n

theorem spd_top (S : SpdR K) : SpdR.top S = addEye S.n (matMul S.n S.lower (transposeM S.n S.lower)) S.eps := by
  have h := (spd_lower_shape S).1
  rw [SpdR.top, SpdR.R]
  exact List.take_left' (by simp [addEye, length_matMul, h])

theorem spd_top_matVec (S : SpdR K) (x : Vec K) (hx : x.length = S.n) :
    matVec (SpdR.top S) x = vadd (matVec S.lower (matVec (transposeM S.n S.lower) x)) (vsmul S.eps x) := by
  obtain ⟨h1, h2⟩ := spd_lower_shape S
  have hT : HasCols (transposeM S.n S.lower) S.n := by
    have := hasCols_transposeM S.n S.lower
    rwa [h1] at this
  rw [spd_top, matVec_addEye _ _ _ _ (by rw [length_matMul, h1]) ?_ hx, matVec_matMul _ _ _ _ hT]
  intro r hr
  simp only [matMul, List.mem_map] at hr
  obtain ⟨q, -, rfl⟩ := hr
  exact length_vecMat _ _ _ hT

/-- C52. For every value of the variables the top block satisfies `xᵀ R x ≥ ε |x|²`. -/
theorem C52_spd_definite (S : SpdR K) (x : Vec K) (hx : x.length = S.n) :
    S.eps * dot x x ≤ dot x (matVec (SpdR.top S) x) := by
  obtain ⟨h1, h2⟩ := spd_lower_shape S
  rw [spd_top_matVec S x hx, dot_vadd_right _ _ _ (by simp [h1, hx]), dot_transpose S.n _ h2, dot_vsmul_right]
  linarith [(dot_self_definite (matVec (transposeM S.n S.lower) x)).1]

/-- C52. The top block is symmetric. -/
theorem C52_spd_symmetric (S : SpdR K) (x y : Vec K) (hx : x.length = S.n) (hy : y.length = S.n) :
    dot x (matVec (SpdR.top S) y) = dot y (matVec (SpdR.top S) x) := by
  obtain ⟨h1, h2⟩ := spd_lower_shape S
  rw [spd_top_matVec S x hx, spd_top_matVec S y hy, dot_vadd_right _ _ _ (by simp [h1, hy]),
    dot_vadd_right _ _ _ (by simp [h1, hx]), dot_transpose S.n _ h2, dot_transpose S.n _ h2, dot_vsmul_right,
    dot_vsmul_right, dot_comm x y, dot_comm (matVec (transposeM S.n S.lower) x)]

/-- C52. `R()` is `m × n` and has full column rank, for every value of the variables. -/
theorem C52_spd_kernel (S : SpdR K) (h : S.Ok) : S.R.length = S.m ∧ TrivialKernel S.n S.R := by
  obtain ⟨h1, h2⟩ := spd_lower_shape S
  constructor
  · simp [SpdR.R, addEye, length_matMul, h1, reshapeRows]
    have := h.1
    omega
  · intro x hx h0
    have e : matVec (SpdR.top S) x = zeros (SpdR.top S).length := by
      have := congrArg (List.take S.n) h0
      rw [SpdR.top, matVec, List.map_take, ← matVec, this]
      simp [zeros]
    have h3 := C52_spd_definite S x hx
    rw [e, dot_zeros_right] at h3
    have h4 := dot_self_definite x
    have h5 : S.eps * dot x x = 0 := le_antisymm h3 (mul_nonneg h.2.1.le h4.1)
    rw [← hx]
    refine h4.2 ?_
    rcases mul_eq_zero.1 h5 with h6 | h6
    · exact absurd h6 h.2.1.ne'
    · exact h6

theorem splitSizes_flatten (ls : List (Vec K)) : splitSizes (ls.map List.length) ls.flatten = ls := by
  induction ls with
  | nil => rfl
  | cons l ls ih =>
    simp only [List.map_cons, List.flatten_cons, splitSizes]
    rw [List.take_left' rfl, List.drop_left' rfl, ih]

/-- `np.linalg.cholesky` of a matrix with `n` rows: a lower triangular factor with `L Lᵀ = A`, if it returns. -/
def CholOk (n : ℕ) (chol : Mat K → Option (Mat K)) : Prop :=
  ∀ A L, A.length = n → HasCols A n → chol A = some L → L.length = n ∧ HasCols L n ∧
    (∀ i j, i < j → (L.getD i []).getD j 0 = 0) ∧ matMul n L (transposeM n L) = A

theorem sum_tri (n : ℕ) : ((List.range n).map (n - ·)).sum = n * (n + 1) / 2 := by
  have h : ∀ n : ℕ, 2 * ((List.range n).map (n - ·)).sum = n * (n + 1) := by
    intro n
    induction n with
    | zero => simp
    | succ n ih =>
      rw [List.range_succ_eq_map]
      simp only [List.map_cons, List.map_map, List.sum_cons, Function.comp_def, Nat.succ_eq_add_one,
        Nat.add_sub_add_right, Nat.sub_zero]
      rw [Nat.mul_add, ih]
      ring
  have := h n
  omega

theorem reshapeRows_flatten (r c : ℕ) (M : Mat K) (h1 : M.length = r) (h2 : HasCols M c) :
    reshapeRows r c M.flatten = M := by
  induction M generalizing r with
  | nil =>
    subst h1
    rfl
  | cons a M ih =>
    subst h1
    have ha : a.length = c := h2 a (by simp)
    have := ih M.length rfl fun r hr => h2 r (by simp [hr])
    rw [reshapeRows, List.length_cons, List.range_succ_eq_map]
    simp only [List.map_cons, List.map_map, List.flatten_cons, Nat.zero_mul, List.drop_zero]
    rw [List.take_left' ha]
    congr 1
    refine Eq.trans ?_ this
    rw [reshapeRows]
    refine List.map_congr_left fun i _ => ?_
    simp only [Function.comp_apply, Nat.succ_mul]
    rw [Nat.add_comm, ← List.drop_drop, List.drop_left' ha]

theorem mat_ext {A B : Mat K} {n : ℕ} (h : A.length = B.length) (hA : HasCols A n) (hB : HasCols B n)
    (he : ∀ i j, i < A.length → j < n → (A.getD i []).getD j 0 = (B.getD i []).getD j 0) : A = B := by
  refine List.ext_getElem h fun i h1 h2 => ?_
  have a1 : A.getD i [] = A[i] := by simp [List.getD, h1]
  have a2 : B.getD i [] = B[i] := by simp [List.getD, h2]
  have l1 : A[i].length = n := hA _ (List.getElem_mem h1)
  have l2 : B[i].length = n := hB _ (List.getElem_mem h2)
  refine vec_ext (by omega) fun j hj => ?_
  rw [← a1, ← a2]
  exact he i j h1 (by omega)

theorem addEye_shape (n : ℕ) (A : Mat K) (a : K) (hA : A.length = n) (hc : HasCols A n) :
    (addEye n A a).length = n ∧ HasCols (addEye n A a) n := by
  refine ⟨by simp [addEye, hA], fun r hr => ?_⟩
  obtain ⟨i, hi, rfl⟩ := List.mem_iff_getElem.1 hr
  simp only [addEye, List.getElem_zipWith, length_vadd, List.getElem_map, length_vsmul]
  have h1 : i < n := by simpa [addEye, hA] using hi
  rw [hc _ (List.getElem_mem _)]
  simp [eye]

theorem getD_addEye (n : ℕ) (A : Mat K) (a : K) (hA : A.length = n) (hc : HasCols A n) (i j : ℕ) (hi : i < n)
    (hj : j < n) : ((addEye n A a).getD i []).getD j 0 = (A.getD i []).getD j 0 + if j = i then a else 0 := by
  have e : (addEye n A a).getD i [] = vadd (A.getD i []) (vsmul a (eyeRow n i)) := by
    simp [addEye, List.getD, List.getElem?_zipWith, hA, hi, eye]
  have hl : (A.getD i []).length = n := hc _ (getD_mem_of_lt (by omega))
  rw [e, getD_vadd _ _ _ (by rw [hl]; simp), getD_vsmul, getD_eyeRow _ _ _ hi]
  split <;> simp

theorem addEye_cancel (n : ℕ) (A : Mat K) (a : K) (hA : A.length = n) (hc : HasCols A n) :
    addEye n (addEye n A (-a)) a = A := by
  obtain ⟨h1, h2⟩ := addEye_shape n A (-a) hA hc
  obtain ⟨h3, h4⟩ := addEye_shape n _ a h1 h2
  refine mat_ext (by omega) h4 hc fun i j hi hj => ?_
  rw [getD_addEye _ _ _ h1 h2 _ _ (by omega) hj, getD_addEye _ _ _ hA hc _ _ (by omega) hj]
  split <;> ring

theorem symPart_shape (n : ℕ) (A : Mat K) (hA : A.length = n) (hc : HasCols A n) :
    (symPart n A).length = n ∧ HasCols (symPart n A) n := by
  refine ⟨by simp [symPart, hA, length_transposeM], fun r hr => ?_⟩
  obtain ⟨i, hi, rfl⟩ := List.mem_iff_getElem.1 hr
  simp only [symPart, List.getElem_zipWith, length_vadd, length_vsmul]
  rw [hc _ (List.getElem_mem _), hasCols_transposeM n A _ (List.getElem_mem _), hA]
  simp

/-- The entries of the symmetric part. -/
theorem getD_symPart (n : ℕ) (A : Mat K) (hA : A.length = n) (hc : HasCols A n) (i j : ℕ) (hi : i < n) (hj : j < n) :
    ((symPart n A).getD i []).getD j 0 = ((A.getD i []).getD j 0 + (A.getD j []).getD i 0) / 2 := by
  have e : (symPart n A).getD i [] = vsmul (1 / 2) (vadd (A.getD i []) ((transposeM n A).getD i [])) := by
    have := length_transposeM n A
    simp [symPart, List.getD, List.getElem?_zipWith, hA, hi, this]
  have hl : (A.getD i []).length = n := hc _ (getD_mem_of_lt (by omega))
  have hl2 : ((transposeM n A).getD i []).length = n := by
    rw [← hA]
    rw [hasCols_transposeM A.length A _ (getD_mem_of_lt (by rw [length_transposeM]; omega))]
  rw [e, getD_vsmul, getD_vadd _ _ _ (by omega), getD_transposeM _ _ _ _ hi]
  ring

/-- C52. `set_variable_value(R)` then `R()`: the lower rows are those given, the top block is the symmetric part of that
given. -/
theorem C52_spd_roundtrip {chol : Mat K → Option (Mat K)} {S S' : SpdR K} {R : Mat K} (hc : CholOk S.n chol)
    (hm : S.n ≤ S.m) (h : S.setValue chol R = some S') :
    S'.m = S.m ∧ S'.n = S.n ∧ S'.eps = S.eps ∧ S'.R.length = S.m ∧ HasCols S'.R S.n ∧
      (∀ i j, i < S.n → j < S.n → (S'.R.getD i []).getD j 0 =
        ((R.getD i []).getD j 0 + (R.getD j []).getD i 0) / 2) ∧
      ∀ i, S.n ≤ i → S'.R.getD i [] = R.getD i [] := by
  unfold SpdR.setValue at h
  split at h
  case isFalse => simp at h
  case isTrue hs =>
  obtain ⟨hl, hR⟩ := hs
  have hT : (R.take S.n).length = S.n := by simp; omega
  have hTc : HasCols (R.take S.n) S.n := fun r hr => hR r (List.mem_of_mem_take hr)
  obtain ⟨p1, p2⟩ := symPart_shape S.n _ hT hTc
  obtain ⟨q1, q2⟩ := addEye_shape S.n _ (-S.eps) p1 p2
  cases hL : chol (addEye S.n (symPart S.n (R.take S.n)) (-S.eps)) with
  | none => simp [hL] at h
  | some L =>
  obtain ⟨l1, l2, l3, l4⟩ := hc _ L q1 q2 hL
  simp only [hL, Option.bind_eq_bind, Option.bind_some, Option.some.injEq] at h
  subst h
  have c1 : (lowerCols S.n L).map List.length = (List.range S.n).map (S.n - ·) := by
    simp [lowerCols, l1]
  have c2 : (lowerCols S.n L).flatten.length = S.n * (S.n + 1) / 2 := by
    rw [List.length_flatten, c1, sum_tri]
  have e1 : SpdR.lower { S with vars := (lowerCols S.n L).flatten ++ (R.drop S.n).flatten } = L := by
    unfold SpdR.lower
    simp only
    rw [List.take_left' c2, ← c1, splitSizes_flatten]
    have hz : ∀ i, i < S.n → (lowerCols S.n L).getD i [] = (L.drop i).map fun r => r.getD i 0 := by
      intro i hi
      simp [lowerCols, List.getD, hi]
    refine mat_ext (n := S.n) (by rw [length_transposeM, l1]) ?_ l2 fun i j hi hj => ?_
    · have := hasCols_transposeM S.n ((List.range S.n).map fun i => (zeros i : Vec K) ++ (lowerCols S.n L).getD i [])
      simpa using this
    · rw [length_transposeM] at hi
      rw [getD_transposeM _ _ _ _ hi]
      have : ((List.range S.n).map fun i => (zeros i : Vec K) ++ (lowerCols S.n L).getD i []).getD j [] =
          zeros j ++ (L.drop j).map fun r => r.getD j 0 := by
        rw [← hz j hj]
        simp [List.getD, hj]
      rw [this]
      rcases Nat.lt_or_ge i j with hij | hij
      · rw [l3 i j hij]
        simp [List.getD, zeros, List.getElem?_append, hij]
      · have h3 : ∀ (a : Vec K) b, (a ++ b).getD (a.length + (i - j)) 0 = b.getD (i - j) 0 := by
          intro a b
          simp [List.getD, List.getElem?_append]
        have h4 := h3 (zeros j) ((L.drop j).map fun r => r.getD j 0)
        rw [length_zeros, show j + (i - j) = i by omega] at h4
        rw [h4, getD_map_col]
        congr 1
        simp [List.getD, show j + (i - j) = i by omega]
  have e2 : SpdR.R { S with vars := (lowerCols S.n L).flatten ++ (R.drop S.n).flatten } =
      symPart S.n (R.take S.n) ++ R.drop S.n := by
    unfold SpdR.R
    simp only
    rw [e1, l4, addEye_cancel _ _ _ p1 p2, List.drop_left' c2,
      reshapeRows_flatten _ _ _ (by simp [hl]) fun r hr => hR r (List.mem_of_mem_drop hr)]
  have g1 : ∀ i, i < S.n → (R.take S.n).getD i [] = R.getD i [] := by
    intro i hi
    simp [List.getD, hi]
  refine ⟨rfl, rfl, rfl, ?_, ?_, fun i j hi hj => ?_, fun i hi => ?_⟩
  · rw [e2, List.length_append, p1]
    simp
    omega
  · rw [e2]
    intro r hr
    rcases List.mem_append.1 hr with h | h
    · exact p2 r h
    · exact hR r (List.mem_of_mem_drop h)
  · have : (symPart S.n (R.take S.n) ++ R.drop S.n).getD i [] = (symPart S.n (R.take S.n)).getD i [] := by
      simp [List.getD, List.getElem?_append, p1, hi]
    rw [e2, this, getD_symPart _ _ hT hTc _ _ hi hj, g1 i hi, g1 j hj]
  · rw [e2]
    have : S.n + (i - S.n) = i := by omega
    simp [List.getD, List.getElem?_append, p1, Nat.not_lt.2 hi, this]

/-- C52. A matrix whose top block is symmetric comes back unchanged. -/
theorem C52_spd_roundtrip_symmetric {chol : Mat K → Option (Mat K)} {S S' : SpdR K} {R : Mat K}
    (hc : CholOk S.n chol) (hm : S.n ≤ S.m) (h : S.setValue chol R = some S')
    (hsym : ∀ i j, i < S.n → j < S.n → (R.getD i []).getD j 0 = (R.getD j []).getD i 0) : S'.R = R := by
  have hs : R.length = S.m ∧ ∀ r ∈ R, r.length = S.n := by
    unfold SpdR.setValue at h
    split at h
    case isFalse => simp at h
    case isTrue hs => exact hs
  obtain ⟨-, -, -, h1, h2, h3, h4⟩ := C52_spd_roundtrip hc hm h
  refine mat_ext (by rw [h1, hs.1]) h2 hs.2 fun i j hi hj => ?_
  rcases Nat.lt_or_ge i S.n with hn | hn
  · rw [h3 i j hn hj, hsym i j hn hj]
    ring
  · rw [h4 i hn]

/-- C52. `set_variable_value_directly` keeps what the other theorems need. -/
theorem C52_spd_direct {S S' : SpdR K} {v : Vec K} (h : S.Ok) (hd : S.setDirect v = some S') :
    S'.Ok ∧ S'.m = S.m ∧ S'.n = S.n ∧ S'.vars = v := by
  unfold SpdR.setDirect at hd
  split at hd
  case isFalse => simp at hd
  case isTrue hl =>
  cases hd
  exact ⟨⟨h.1, h.2.1, by rw [← h.2.2]; exact hl⟩, rfl, rfl, rfl⟩

/-! ## Singular values -/

theorem svd_sigma (S : SvdR K) (hm : S.n ≤ S.m) (ha : S.a.length = S.n) (hv : S.vars.length = S.n) :
    S.sigma.length = S.m ∧ HasCols S.sigma S.n ∧
      ∀ y i, i < S.n → (matVec S.sigma y).getD i 0 = (S.a.getD i 0 + S.vars.getD i 0 * S.vars.getD i 0) * y.getD i 0 := by
  have hd : S.diag.length = S.n := by simp [SvdR.diag, ha, hv]
  have hval : ∀ i, i < S.n → S.diag.getD i 0 = S.a.getD i 0 + S.vars.getD i 0 * S.vars.getD i 0 := by
    intro i hi
    rw [SvdR.diag, getD_vadd _ _ _ (by simp [ha, hv])]
    congr 1
    simp [List.getD, show i < S.vars.length by omega]
  set D : Mat K := (List.range S.diag.length).map fun i => vsmul (S.diag.getD i 0) (eyeRow S.diag.length i) with hD
  have hDl : D.length = S.n := by simp [hD, hd]
  have hDc : HasCols D S.n := by
    intro r hr
    simp only [hD, List.mem_map] at hr
    obtain ⟨i, -, rfl⟩ := hr
    simp [hd]
  have e : S.sigma = D ++ zerosM (S.m - S.n) S.n := by
    unfold SvdR.sigma
    rw [← hD]
    split
    · rfl
    · rw [if_neg (by omega), show S.m - S.n = 0 by omega]
      simp [zerosM]
  refine ⟨by simp [e, hDl, zerosM]; omega, ?_, fun y i hi => ?_⟩
  · rw [e]
    intro r hr
    rcases List.mem_append.1 hr with h | h
    · exact hDc r h
    · simp only [zerosM, List.mem_replicate] at h
      rw [h.2, length_zeros]
  · rw [getD_matVec, e]
    have : (D ++ zerosM (S.m - S.n) S.n).getD i [] = vsmul (S.diag.getD i 0) (eyeRow S.diag.length i) := by
      simp [List.getD, List.getElem?_append, hDl, hi, hD, hd]
    rw [this, dot_vsmul_left, dot_eyeRow _ _ _ (by omega), hval i hi]

/-- C52. `R()` of the SVD option has full column rank when it is not wider than tall and `U`, `V` are injective (as
orthonormal matrices are). -/
theorem C52_svd_kernel (S : SvdR K) (hm : S.n ≤ S.m) (ha : S.a.length = min S.m S.n) (hv : S.vars.length = S.a.length)
    (hpos : ∀ c ∈ S.a, c > 0) (hU : TrivialKernel S.m S.U) (hV : TrivialKernel S.n S.V) (hVl : S.V.length = S.n)
    (hVc : HasCols S.V S.n) : TrivialKernel S.n S.R := by
  have ha' : S.a.length = S.n := by rw [ha]; omega
  obtain ⟨h1, h2, h3⟩ := svd_sigma S hm ha' (by omega)
  intro x hx h0
  have e : matVec S.R x = matVec S.U (matVec S.sigma (matVec S.V x)) := by
    rw [SvdR.R, matVec_matMul _ _ _ _ hVc, matVec_matMul _ _ _ _ h2]
  have hlen : S.R.length = S.U.length := by simp [SvdR.R, matMul]
  rw [e, hlen] at h0
  have h4 := hU _ (by simp [h1]) h0
  refine hV x hx ?_
  rw [hVl]
  refine vec_ext (by simp [hVl]) fun i hi => ?_
  have hi' : i < S.n := by simpa [hVl] using hi
  have h5 := h3 (matVec S.V x) i hi'
  rw [h4, getD_zeros] at h5
  rw [getD_zeros]
  have h6 : S.a.getD i 0 > 0 := by
    have hlt : i < S.a.length := by omega
    refine hpos _ ?_
    simp [List.getD, hlt]
  have h7 := mul_self_nonneg (S.vars.getD i 0)
  rcases mul_eq_zero.1 h5.symm with h | h
  · linarith
  · exact h

/-- C52. A freshly built SVD option has full column rank, when not wider than tall, whatever its variables. -/
theorem C52_svd_new {m n : ℕ} {a vars : Vec K} {S : SvdR K} (h : SvdR.new m n a vars = some S) (hm : n ≤ m) :
    TrivialKernel n S.R := by
  unfold SvdR.new at h
  split at h
  case isFalse => simp at h
  case isTrue hs =>
  cases h
  have hk : ∀ k : ℕ, TrivialKernel k (eye k : Mat K) := by
    intro k x hx h0
    rw [matVec_eye _ _ hx, length_eye] at h0
    exact h0
  refine C52_svd_kernel ⟨m, n, a, vars, eye m, eye n⟩ hm hs.1 hs.2.2 hs.2.1 (hk m) (hk n) (by simp) ?_
  intro r hr
  simp only [eye, List.mem_map] at hr
  obtain ⟨i, -, rfl⟩ := hr
  simp

/-- C52. The constructor accepts a matrix wider than tall, whose kernel is never trivial: for size `(1, 2)`, `a = [1]`
and any variable, `R() [0, 1] = 0`. -/
theorem C52_svd_wide_counterexample (v : K) : ∃ S, SvdR.new 1 2 [1] [v] = some S ∧ ¬ TrivialKernel 2 S.R := by
  refine ⟨⟨1, 2, [1], [v], eye 1, eye 2⟩, by simp [SvdR.new], fun h => ?_⟩
  have h1 := h [0, 1] rfl (by
    simp [SvdR.R, SvdR.sigma, SvdR.diag, matMul, vecMat, eye, eyeRow, vadd, vsmul, zeros, matVec, dot,
      List.range_succ])
  simp [zeros, List.replicate_succ] at h1

/-- The `m × n` matrix with diagonal `s`. -/
def rectDiag (m n : ℕ) (s : Vec K) : Mat K :=
  (List.range m).map fun i => (List.range n).map fun j => if j = i then s.getD i 0 else 0

theorem svd_sigma_eq (S : SvdR K) (hd : S.diag.length = min S.m S.n) : S.sigma = rectDiag S.m S.n S.diag := by
  have key : ∀ n i, vsmul (S.diag.getD i 0) (eyeRow n i) =
      (List.range n).map fun j => if j = i then S.diag.getD i 0 else 0 := by
    intro n i
    simp [vsmul, eyeRow]
  unfold SvdR.sigma rectDiag
  simp only [hd, key]
  split
  · rename_i h
    rw [Nat.min_eq_right h.le]
    have : S.m = S.n + (S.m - S.n) := by omega
    conv_rhs => rw [this]
    rw [List.range_add, List.map_append, List.map_map]
    congr 1
    rw [zerosM]
    refine (List.eq_replicate_iff.2 ⟨by simp, fun r hr => ?_⟩).symm
    simp only [List.mem_map, Function.comp_apply] at hr
    obtain ⟨i, -, rfl⟩ := hr
    rw [zeros]
    refine List.eq_replicate_iff.2 ⟨by simp, fun c hc => ?_⟩
    simp only [List.mem_map, List.mem_range] at hc
    obtain ⟨j, hj, rfl⟩ := hc
    rw [if_neg (by omega)]
  · rename_i h
    split
    · rename_i h2
      rw [Nat.min_eq_left h2.le, List.map_map]
      refine List.map_congr_left fun i hi => ?_
      simp only [List.mem_range] at hi
      have : S.n = S.m + (S.n - S.m) := by omega
      conv_rhs => rw [this]
      rw [List.range_add, List.map_append, List.map_map, Function.comp_apply]
      congr 1
      rw [zeros]
      refine (List.eq_replicate_iff.2 ⟨by simp, fun c hc => ?_⟩).symm
      simp only [List.mem_map, Function.comp_apply] at hc
      obtain ⟨j, -, rfl⟩ := hc
      rw [if_neg (by omega)]
    · rw [show min S.m S.n = S.m by omega, show S.n = S.m by omega]

/-- `np.linalg.svd` at the matrix `R`: `U Σ V = R`, with `min m n` singular values. -/
def SvdOk (m n : ℕ) (svd : Mat K → Mat K × Vec K × Mat K) (R : Mat K) : Prop :=
  (svd R).2.1.length = min m n ∧ matMul n (matMul n (svd R).1 (rectDiag m n (svd R).2.1)) (svd R).2.2 = R

/-- C52. `set_variable_value(R)` then `R()` of the SVD option gives `R` back. -/
theorem C52_svd_roundtrip {svd : Mat K → Mat K × Vec K × Mat K} {sqrt : K → K} {S S' : SvdR K} {R : Mat K}
    (hs : SvdOk S.m S.n svd R) (hq : ∀ c, 0 ≤ c → sqrt c * sqrt c = c) (h : S.setValue svd sqrt R = some S') :
    S'.R = R := by
  unfold SvdR.setValue at h
  split at h
  case isFalse => simp at h
  case isTrue =>
  simp only at h
  split at h
  case isFalse => simp at h
  case isTrue hle =>
  cases h
  have hd : SvdR.diag { S with U := (svd R).1, V := (svd R).2.2, vars := (vsub (svd R).2.1 S.a).map sqrt } =
      (svd R).2.1 := by
    refine vec_ext (by simp [SvdR.diag, hle.1]) fun i hi => ?_
    have hi' : i < S.a.length := by
      have := hle.1
      simp [SvdR.diag] at hi
      omega
    rw [SvdR.diag, getD_vadd _ _ _ (by simp [hle.1])]
    have e : (((vsub (svd R).2.1 S.a).map sqrt).map fun w => w * w).getD i 0 =
        (svd R).2.1.getD i 0 - S.a.getD i 0 := by
      have hl : i < (vsub (svd R).2.1 S.a).length := by simp [hle.1, hi']
      have h3 := getD_vsub (svd R).2.1 S.a i hle.1
      have h2 : (vsub (svd R).2.1 S.a).getD i 0 = (vsub (svd R).2.1 S.a)[i] := by
        rw [List.getD, List.getElem?_eq_getElem hl, Option.getD_some]
      rw [← h3, ← hq ((vsub (svd R).2.1 S.a).getD i 0) (by rw [h3]; linarith [hle.2 i hi']), h2]
      simp only [List.getD, List.map_map, List.getElem?_map, List.getElem?_eq_getElem hl, Option.map_some,
        Option.getD_some, Function.comp]
    rw [e]
    ring
  rw [SvdR.R, svd_sigma_eq _ (by rw [hd]; exact hs.1), hd]
  exact hs.2

/-! ## Examples -/

/-- Three rows, two columns, `ε = 1/2`. -/
def exSpd : SpdR ℚ := ⟨3, 2, 1 / 2, [1, -2, 3, 4, 5]⟩

theorem exSpd_ok : exSpd.Ok := ⟨by decide, by norm_num [exSpd], by decide⟩

theorem exSpd_R : exSpd.R = [[3 / 2, -2], [-2, 27 / 2], [4, 5]] := by
  norm_num [exSpd, SpdR.R, SpdR.lower, addEye, matMul, vecMat, transposeM, splitSizes, eye, eyeRow, vadd, vsmul, zeros,
    reshapeRows, List.range_succ, List.replicate_succ]

/-- A factorisation that knows one matrix only. -/
def exChol : Mat ℚ → Option (Mat ℚ) := fun A => if A = [[1, -2], [-2, 13]] then some [[1, 0], [-2, 3]] else none

theorem exChol_ok : CholOk 2 exChol := by
  intro A L _ _ h
  unfold exChol at h
  split at h
  case isFalse => simp at h
  case isTrue hA =>
  cases h
  subst hA
  refine ⟨rfl, by simp [HasCols], ?_, ?_⟩
  · intro i j hij
    match i, j, hij with
    | 0, 1, _ => rfl
    | 0, j + 2, _ => rfl
    | 1, j + 2, _ => rfl
    | i + 2, j, _ => rfl
  · norm_num [matMul, vecMat, transposeM, vadd, vsmul, zeros, List.range_succ, List.replicate_succ]

/-- The value is accepted and read back: the hypotheses of the round trip hold, on a non-symmetric top block too. -/
theorem exSpd_set : (exSpd.setValue exChol [[3 / 2, -1], [-3, 27 / 2], [4, 5]]).map (fun S => S.R) =
    some [[3 / 2, -2], [-2, 27 / 2], [4, 5]] := by
  have : exSpd.setValue exChol [[3 / 2, -1], [-3, 27 / 2], [4, 5]] = some exSpd := by
    norm_num [exSpd, SpdR.setValue, exChol, symPart, addEye, transposeM, eye, eyeRow, vadd, vsmul, zeros, lowerCols,
      List.range_succ]
  rw [this, Option.map_some, exSpd_R]

example : TrivialKernel 2 exSpd.R := (C52_spd_kernel exSpd exSpd_ok).2

theorem exSvd_new : SvdR.new 3 2 [1, 1 / 2] [0, -3] = some (⟨3, 2, [1, 1 / 2], [0, -3], eye 3, eye 2⟩ : SvdR ℚ) := by
  norm_num [SvdR.new]

example : TrivialKernel 2 (⟨3, 2, [1, 1 / 2], [0, -3], eye 3, eye 2⟩ : SvdR ℚ).R := C52_svd_new exSvd_new (by decide)

/-- Two singular values, one of them moved off `a`. -/
theorem exSvd_ok : SvdOk 2 2 (fun _ => (eye 2, [3, 2], [[0, 1], [-1, 0]])) ([[0, 3], [-2, 0]] : Mat ℝ) := by
  refine ⟨rfl, ?_⟩
  norm_num [matMul, vecMat, rectDiag, eye, eyeRow, vadd, vsmul, zeros, List.range_succ, List.replicate_succ]

example : ∃ S' : SvdR ℝ, (⟨2, 2, [1, 2], [0, 0], eye 2, eye 2⟩ : SvdR ℝ).setValue
    (fun _ => (eye 2, [3, 2], [[0, 1], [-1, 0]])) Real.sqrt [[0, 3], [-2, 0]] = some S' ∧ S'.R = [[0, 3], [-2, 0]] := by
  obtain ⟨S', h⟩ : ∃ S', (⟨2, 2, [1, 2], [0, 0], eye 2, eye 2⟩ : SvdR ℝ).setValue
      (fun _ => (eye 2, [3, 2], [[0, 1], [-1, 0]])) Real.sqrt [[0, 3], [-2, 0]] = some S' := by
    refine ⟨_, if_pos ⟨rfl, by simp⟩ |>.trans (if_pos ⟨rfl, fun i hi => ?_⟩)⟩
    match i, hi with
    | 0, _ => norm_num [List.getD]
    | 1, _ => norm_num [List.getD]
  exact ⟨S', h, C52_svd_roundtrip exSvd_ok (fun c hc => Real.mul_self_sqrt hc) h⟩

end NNL.Props
