import Mathlib.Algebra.Order.Field.Basic
import Mathlib.Algebra.Order.Field.Rat
import Mathlib.Algebra.BigOperators.Group.List.Basic
import Mathlib.Tactic.Linarith
import Mathlib.Tactic.Ring
import Mathlib.Tactic.NormNum
import Mathlib.Tactic.Positivity

/-!
# Vectors and matrices as lists

torch tensors of one and two dimensions are modelled by lists and lists of rows.  `dot` truncates to
the shorter argument where torch would raise a shape error.
-/

namespace NNL

/-- One-dimensional tensors. -/
abbrev Vec (K : Type*) := List K
/-- Two-dimensional tensors, as a list of rows. -/
abbrev Mat (K : Type*) := List (List K)

variable {K : Type*} [Field K]

/-- `a @ b` for one-dimensional tensors. -/
def dot (a b : Vec K) : K := (List.zipWith (· * ·) a b).sum

/-- `A @ x`. -/
def matVec (A : Mat K) (x : Vec K) : Vec K := A.map (fun r => dot r x)

/-- Elementwise `a + b`. -/
def vadd (a b : Vec K) : Vec K := List.zipWith (· + ·) a b
/-- Elementwise `a - b`. -/
def vsub (a b : Vec K) : Vec K := List.zipWith (· - ·) a b
/-- `c * a` for a scalar `c`. -/
def vsmul (c : K) (a : Vec K) : Vec K := a.map (fun v => c * v)
/-- `-a`. -/
def vneg (a : Vec K) : Vec K := a.map (fun v => -v)
/-- `torch.zeros(n)`. -/
def zeros (n : ℕ) : Vec K := List.replicate n 0
/-- Row `i` of `torch.eye(n)`. -/
def eyeRow (n i : ℕ) : Vec K := (List.range n).map (fun j => if j = i then 1 else 0)
/-- `torch.eye(n)`. -/
def eye (n : ℕ) : Mat K := (List.range n).map (fun i => eyeRow n i)
/-- `torch.zeros((r, c))`. -/
def zerosM (r c : ℕ) : Mat K := List.replicate r (zeros c)
/-- `a @ B` for a row vector `a` and a matrix `B` with `n` columns. -/
def vecMat (n : ℕ) (a : Vec K) (B : Mat K) : Vec K :=
  (List.zipWith vsmul a B).foldr vadd (zeros n)
/-- `A @ B` where `B` has `n` columns. -/
def matMul (n : ℕ) (A B : Mat K) : Mat K := A.map (fun r => vecMat n r B)

/-- Every row of `A` has `n` entries. -/
def HasCols (A : Mat K) (n : ℕ) : Prop := ∀ r ∈ A, r.length = n

@[simp] theorem dot_nil_left (b : Vec K) : dot [] b = 0 := by simp [dot]
@[simp] theorem dot_nil_right (a : Vec K) : dot a [] = 0 := by cases a <;> simp [dot]
@[simp] theorem dot_cons (a b : K) (as bs : Vec K) :
    dot (a :: as) (b :: bs) = a * b + dot as bs := by simp [dot]

theorem dot_comm (a b : Vec K) : dot a b = dot b a := by
  induction a generalizing b with
  | nil => simp
  | cons a as ih => cases b with
    | nil => simp
    | cons b bs => simp [ih, mul_comm]

theorem dot_append (a b c d : Vec K) (h : a.length = c.length) :
    dot (a ++ b) (c ++ d) = dot a c + dot b d := by
  induction a generalizing c with
  | nil => cases c with
    | nil => simp
    | cons _ _ => simp at h
  | cons a as ih => cases c with
    | nil => simp at h
    | cons c cs =>
      simp at h
      simp [ih cs h, add_assoc]

@[simp] theorem dot_zeros_left (n : ℕ) (b : Vec K) : dot (zeros n) b = 0 := by
  induction n generalizing b with
  | zero => simp [zeros]
  | succ n ih => cases b with
    | nil => simp
    | cons b bs =>
      have := ih bs
      simp only [zeros] at this ⊢
      simp [List.replicate_succ, this]

@[simp] theorem dot_zeros_right (n : ℕ) (b : Vec K) : dot b (zeros n) = 0 := by
  rw [dot_comm]; simp

@[simp] theorem length_zeros (n : ℕ) : (zeros n : Vec K).length = n := by simp [zeros]
@[simp] theorem length_vadd (a b : Vec K) : (vadd a b).length = min a.length b.length := by
  simp [vadd]
@[simp] theorem length_vsub (a b : Vec K) : (vsub a b).length = min a.length b.length := by
  simp [vsub]
@[simp] theorem length_vsmul (c : K) (a : Vec K) : (vsmul c a).length = a.length := by
  simp [vsmul]
@[simp] theorem length_vneg (a : Vec K) : (vneg a).length = a.length := by simp [vneg]
@[simp] theorem length_eyeRow (n i : ℕ) : (eyeRow n i : Vec K).length = n := by simp [eyeRow]
@[simp] theorem length_eye (n : ℕ) : (eye n : Mat K).length = n := by simp [eye]
@[simp] theorem length_matVec (A : Mat K) (x : Vec K) : (matVec A x).length = A.length := by
  simp [matVec]
@[simp] theorem length_zerosM (r c : ℕ) : (zerosM r c : Mat K).length = r := by simp [zerosM]

theorem dot_vsmul_left (c : K) (a b : Vec K) : dot (vsmul c a) b = c * dot a b := by
  induction a generalizing b with
  | nil => simp [vsmul]
  | cons a as ih => cases b with
    | nil => simp
    | cons b bs =>
      have := ih bs
      simp only [vsmul] at this ⊢
      simp [this]; ring

theorem dot_vsmul_right (c : K) (a b : Vec K) : dot a (vsmul c b) = c * dot a b := by
  rw [dot_comm, dot_vsmul_left, dot_comm]

theorem dot_vneg_left (a b : Vec K) : dot (vneg a) b = - dot a b := by
  induction a generalizing b with
  | nil => simp [vneg]
  | cons a as ih => cases b with
    | nil => simp
    | cons b bs =>
      have := ih bs
      simp only [vneg] at this ⊢
      simp [this]; ring

theorem dot_vadd_left (a b c : Vec K) (h : a.length = b.length) :
    dot (vadd a b) c = dot a c + dot b c := by
  induction a generalizing b c with
  | nil => cases b with
    | nil => simp [vadd]
    | cons _ _ => simp at h
  | cons a as ih => cases b with
    | nil => simp at h
    | cons b bs => cases c with
      | nil => simp
      | cons c cs =>
        simp at h
        have := ih bs cs h
        simp only [vadd] at this ⊢
        simp [this]; ring

theorem dot_vadd_right (a b c : Vec K) (h : b.length = c.length) :
    dot a (vadd b c) = dot a b + dot a c := by
  rw [dot_comm, dot_vadd_left _ _ _ h, dot_comm b, dot_comm c]

theorem dot_vsub_left (a b c : Vec K) (h : a.length = b.length) :
    dot (vsub a b) c = dot a c - dot b c := by
  induction a generalizing b c with
  | nil => cases b with
    | nil => simp [vsub]
    | cons _ _ => simp at h
  | cons a as ih => cases b with
    | nil => simp at h
    | cons b bs => cases c with
      | nil => simp
      | cons c cs =>
        simp at h
        have := ih bs cs h
        simp only [vsub] at this ⊢
        simp [this]; ring

theorem dot_vsub_right (a b c : Vec K) (h : b.length = c.length) :
    dot a (vsub b c) = dot a b - dot a c := by
  rw [dot_comm, dot_vsub_left _ _ _ h, dot_comm b, dot_comm c]

theorem dot_shift (f : ℕ → K) (x : Vec K) (m : ℕ) :
    dot ((List.range m).map f) x
      = ((List.range m).map (fun j => f j * x.getD j 0)).sum := by
  induction m generalizing f x with
  | zero => simp
  | succ m ih =>
    rw [List.range_succ_eq_map]
    cases x with
    | nil => simp [Function.comp_def]
    | cons a as =>
      simp only [List.map_cons, List.map_map, dot_cons, List.sum_cons, List.getD_cons_zero]
      rw [ih (f ∘ Nat.succ) as]
      simp [Function.comp_def]

theorem sum_ite_range (m i : ℕ) (f : ℕ → K) :
    ((List.range m).map (fun j => (if j = i then 1 else 0) * f j)).sum
      = if i < m then f i else 0 := by
  induction m with
  | zero => simp
  | succ m ih =>
    rw [List.range_succ, List.map_append, List.sum_append, ih]
    rcases lt_trichotomy i m with h | h | h
    · have : m ≠ i := by omega
      simp [h, this, Nat.lt_succ_of_lt h]
    · subst h; simp
    · have h1 : ¬ i < m := by omega
      have h2 : ¬ i < m + 1 := by omega
      have h3 : m ≠ i := by omega
      simp [h1, h2, h3]

theorem dot_eyeRow (n i : ℕ) (x : Vec K) (hi : i < n) :
    dot (eyeRow n i) x = x.getD i 0 := by
  unfold eyeRow
  rw [dot_shift, sum_ite_range]
  simp [hi]

theorem length_foldr_vadd (n : ℕ) (L : List (Vec K)) (h : ∀ v ∈ L, v.length = n) :
    (L.foldr vadd (zeros n)).length = n := by
  induction L with
  | nil => simp
  | cons v vs ih =>
    have h1 := h v (by simp)
    have h2 := ih (fun w hw => h w (by simp [hw]))
    simp [h1, h2]

theorem length_vecMat (n : ℕ) (a : Vec K) (B : Mat K) (h : HasCols B n) :
    (vecMat n a B).length = n := by
  apply length_foldr_vadd
  intro v hv
  rw [List.mem_iff_getElem] at hv
  obtain ⟨i, hi, rfl⟩ := hv
  simp at hi
  simp [h _ (List.getElem_mem hi.2)]

/-- `(a @ B) @ x = a @ (B @ x)`. -/
theorem dot_vecMat (n : ℕ) (a : Vec K) (B : Mat K) (x : Vec K) (h : HasCols B n) :
    dot (vecMat n a B) x = dot a (matVec B x) := by
  induction a generalizing B with
  | nil => simp [vecMat]
  | cons a as ih => cases B with
    | nil => simp [vecMat, matVec]
    | cons r B =>
      have hr : r.length = n := h r (by simp)
      have hB : HasCols B n := fun q hq => h q (by simp [hq])
      have hl := length_vecMat n as B hB
      have e := ih B hB
      simp only [vecMat] at e hl ⊢
      simp only [List.zipWith_cons_cons, List.foldr_cons]
      rw [dot_vadd_left _ _ _ (by simp [hr, hl]), e, dot_vsmul_left]
      simp [matVec]

theorem length_matMul (n : ℕ) (A B : Mat K) : (matMul n A B).length = A.length := by
  simp [matMul]

theorem matVec_matMul (n : ℕ) (A B : Mat K) (x : Vec K) (h : HasCols B n) :
    matVec (matMul n A B) x = matVec A (matVec B x) := by
  simp [matVec, matMul, Function.comp_def, dot_vecMat n _ B x h]

/-- A point lies in the box `[lo, up]` (elementwise). -/
def InBox [LinearOrder K] (lo up x : Vec K) : Prop :=
  x.length = lo.length ∧ x.length = up.length ∧
    ∀ i, i < x.length → lo.getD i 0 ≤ x.getD i 0 ∧ x.getD i 0 ≤ up.getD i 0

/-- All entries are 0 or 1. -/
def IsBin (z : Vec K) : Prop := ∀ b ∈ z, b = 0 ∨ b = 1

theorem getD_of_lt (l : Vec K) (i : ℕ) (h : i < l.length) : l.getD i 0 = l[i] := by
  simp [List.getD, h]

theorem vec_ext {a b : Vec K} (h : a.length = b.length)
    (h2 : ∀ i, i < a.length → a.getD i 0 = b.getD i 0) : a = b := by
  apply List.ext_getElem h
  intro i h1 h3
  have := h2 i h1
  rwa [getD_of_lt _ _ h1, getD_of_lt _ _ h3] at this

end NNL
