import Verif.Model.Mic

/-! Helper lemmas about constraint sets. -/

set_option linter.unusedSectionVars false

namespace NNL.Model

open NNL

variable {K : Type*} [Field K] [LinearOrder K]

theorem forall_blockRows (Ax As Az : Option (Tensor2 K)) (rhs : Option (Vec K))
    (P : LRow K → Prop) :
    (∀ r ∈ blockRows Ax As Az rhs, P r) ↔ ∀ i, i < (rhs.getD []).length →
      P ⟨mrow Ax i, mrow As i, mrow Az i, (rhs.getD []).getD i 0⟩ := by
  simp [blockRows]

theorem MIC.holds_iff (c : MIC K) (x s z : Vec K) : c.Holds x s z ↔
    (∀ i, i < c.numIneq → dot (mrow c.Ain_input i) x + dot (mrow c.Ain_slack i) s
        + dot (mrow c.Ain_binary i) z ≤ (c.rhs_in.getD []).getD i 0) ∧
    (∀ i, i < c.numEq → dot (mrow c.Aeq_input i) x + dot (mrow c.Aeq_slack i) s
        + dot (mrow c.Aeq_binary i) z = (c.rhs_eq.getD []).getD i 0) := by
  simp only [MIC.Holds, MIC.ineqRows, MIC.eqRows, forall_blockRows, LRow.val, MIC.numIneq,
    MIC.numEq]

@[simp] theorem mrow_none (i : ℕ) : mrow (none : Option (Tensor2 K)) i = [] := rfl

theorem mrow_some (A : Tensor2 K) (i : ℕ) : mrow (some A) i = A.rows.getD i [] := rfl

theorem length_mrow {A : Option (Tensor2 K)} {r n i : ℕ} (h : ShapeIs A r n) (hi : i < r)
    (hA : A.isSome) : (mrow A i).length = n := by
  obtain ⟨M, rfl⟩ := Option.isSome_iff_exists.1 hA
  obtain ⟨h1, h2, h3⟩ := h M rfl
  subst h1 h2
  simp only [mrow, List.getD_eq_getElem?_getD, List.getElem?_eq_getElem hi, Option.getD_some]
  exact h3 _ (List.getElem_mem hi)

theorem dot_append_left (a b v : Vec K) :
    dot (a ++ b) v = dot a (v.take a.length) + dot b (v.drop a.length) := by
  induction a generalizing v with
  | nil => simp
  | cons a as ih => cases v with
    | nil => simp
    | cons w ws => simp [ih, add_assoc]

theorem dot_append_right (v a b : Vec K) :
    dot v (a ++ b) = dot (v.take a.length) a + dot (v.drop a.length) b := by
  rw [dot_comm, dot_append_left, dot_comm a, dot_comm b]

theorem dot_take_of_length (a v : Vec K) (n : ℕ) (h : a.length ≤ n) : dot a (v.take n) = dot a v := by
  induction a generalizing v n with
  | nil => simp
  | cons a as ih => cases v with
    | nil => simp
    | cons w ws =>
      cases n with
      | zero => simp at h
      | succ n =>
        simp at h
        simp [ih ws n h]

theorem getD_vsub (a b : Vec K) (i : ℕ) (h : a.length = b.length) :
    (vsub a b).getD i 0 = a.getD i 0 - b.getD i 0 := by
  induction a generalizing b i with
  | nil => cases b with
    | nil => simp [vsub]
    | cons _ _ => simp at h
  | cons a as ih => cases b with
    | nil => simp at h
    | cons b bs =>
      cases i with
      | zero => simp [vsub]
      | succ i =>
        simp at h
        have := ih bs i h
        simp only [vsub] at this ⊢
        simpa using this

theorem getD_vadd (a b : Vec K) (i : ℕ) (h : a.length = b.length) :
    (vadd a b).getD i 0 = a.getD i 0 + b.getD i 0 := by
  induction a generalizing b i with
  | nil => cases b with
    | nil => simp [vadd]
    | cons _ _ => simp at h
  | cons a as ih => cases b with
    | nil => simp at h
    | cons b bs =>
      cases i with
      | zero => simp [vadd]
      | succ i =>
        simp at h
        have := ih bs i h
        simp only [vadd] at this ⊢
        simpa using this

theorem getD_vneg (a : Vec K) (i : ℕ) : (vneg a).getD i 0 = - a.getD i 0 := by
  induction a generalizing i with
  | nil => simp [vneg]
  | cons a as ih => cases i with
    | zero => simp [vneg]
    | succ i =>
      have := ih i
      simp only [vneg] at this ⊢
      simpa using this

theorem getD_vsmul (c : K) (a : Vec K) (i : ℕ) : (vsmul c a).getD i 0 = c * a.getD i 0 := by
  induction a generalizing i with
  | nil => simp [vsmul]
  | cons a as ih => cases i with
    | zero => simp [vsmul]
    | succ i =>
      have := ih i
      simp only [vsmul] at this ⊢
      simpa using this

theorem getD_matVec (A : Mat K) (x : Vec K) (i : ℕ) :
    (matVec A x).getD i 0 = dot (A.getD i []) x := by
  induction A generalizing i with
  | nil => simp [matVec]
  | cons a as ih => cases i with
    | zero => simp [matVec]
    | succ i =>
      have := ih i
      simp only [matVec] at this ⊢
      simpa using this

theorem getD_matMul (n : ℕ) (A B : Mat K) (i : ℕ) (hi : i < A.length) :
    (matMul n A B).getD i [] = vecMat n (A.getD i []) B := by
  simp [matMul, List.getD, hi]

@[simp] theorem getD_zeros (n i : ℕ) : (zeros n : Vec K).getD i 0 = 0 := by
  simp only [zeros, List.getD_eq_getElem?_getD, List.getElem?_replicate]
  split <;> simp

@[simp] theorem getElem?_zeros_getD (n i : ℕ) : ((zeros n : Vec K)[i]?).getD 0 = 0 := by
  have := getD_zeros (K := K) n i
  rwa [List.getD_eq_getElem?_getD] at this

theorem getD_append_lt {α : Type*} (a b : List α) (i : ℕ) (d : α) (h : i < a.length) :
    (a ++ b).getD i d = a.getD i d := by
  simp [List.getD, List.getElem?_append_left h]

theorem getD_append_add {α : Type*} (a b : List α) (i : ℕ) (d : α) :
    (a ++ b).getD (a.length + i) d = b.getD i d := by
  simp [List.getD, List.getElem?_append_right]

theorem forall_lt_add (P : ℕ → Prop) (a b : ℕ) :
    (∀ i, i < a + b → P i) ↔ (∀ i, i < a → P i) ∧ (∀ i, i < b → P (a + i)) := by
  constructor
  · intro h
    exact ⟨fun i hi => h i (by omega), fun i hi => h _ (by omega)⟩
  · rintro ⟨h1, h2⟩ i hi
    by_cases h : i < a
    · exact h1 i h
    · have := h2 (i - a) (by omega)
      rwa [Nat.add_sub_cancel' (by omega)] at this

/-- One row of a substituted block. -/
theorem dot_mrow_transform (M A : Tensor2 K) (b x : Vec K) (i : ℕ) (hA : A.Ok)
    (hi : i < M.rows.length) (hAb : A.rows.length = b.length) :
    dot (mrow (some ⟨A.cols, matMul A.cols M.rows A.rows⟩) i) x + (matVec M.rows b).getD i 0
      = dot (mrow (some M) i) (vadd (matVec A.rows x) b) := by
  rw [mrow_some, getD_matMul _ _ _ _ hi, dot_vecMat _ _ _ _ hA, mrow_some, getD_matVec,
    dot_vadd_right _ _ _ (by simp [hAb])]

/-- The part of a concatenated (or shared) variable vector that belongs to the first set. -/
def part1 (same : Bool) (n : ℕ) (v : Vec K) : Vec K := if same then v else v.take n
/-- The part of a concatenated (or shared) variable vector that belongs to the second set. -/
def part2 (same : Bool) (n : ℕ) (v : Vec K) : Vec K := if same then v else v.drop n

theorem getD_zerosM (r n i : ℕ) (v : Vec K) : dot ((zerosM r n : Mat K).getD i []) v = 0 := by
  simp only [zerosM, List.getD_eq_getElem?_getD, List.getElem?_replicate]
  split <;> simp

theorem getD_map_app {f : Vec K → Vec K} (A : Mat K) (i : ℕ) (hi : i < A.length) :
    (A.map f).getD i [] = f (A.getD i []) := by
  simp [List.getD, hi]

theorem stackMatrix_dot {A B C : Option (Tensor2 K)} {r1 n1 r2 n2 : ℕ}
    (h : stackMatrix A B r1 n1 r2 n2 = some C) (hA : ∀ M, A = some M → M.rows.length = r1)
    (v : Vec K) (i : ℕ) :
    (i < r1 → dot (mrow C i) v = dot (mrow A i) v) ∧
      dot (mrow C (r1 + i)) v = dot (mrow B i) v := by
  unfold stackMatrix at h
  split at h
  · cases h; simp
  · rename_i A
    split at h
    · cases h
      have := hA A rfl
      subst this
      simp only [mrow_some, mrow_none, dot_nil_left]
      refine ⟨fun hi => by rw [getD_append_lt _ _ _ _ hi], ?_⟩
      rw [getD_append_add, getD_zerosM]
    · cases h
  · rename_i B
    split at h
    · cases h
      simp only [mrow_some, mrow_none, dot_nil_left]
      refine ⟨fun hi => by rw [getD_append_lt _ _ _ _ (by simpa using hi), getD_zerosM], ?_⟩
      have := getD_append_add (zerosM r1 n1) B.rows i []
      simp only [length_zerosM] at this
      rw [this]
    · cases h
  · rename_i A B
    split at h
    · cases h
      have := hA A rfl
      subst this
      simp only [mrow_some]
      exact ⟨fun hi => by rw [getD_append_lt _ _ _ _ hi], by rw [getD_append_add]⟩
    · cases h

theorem blockDiag_dot (A B : Tensor2 K) (hA : A.Ok) (v : Vec K) (i : ℕ) :
    (i < A.rows.length →
      dot (mrow (some (blockDiag A B)) i) v = dot (A.rows.getD i []) (v.take A.cols)) ∧
    (i < B.rows.length →
      dot (mrow (some (blockDiag A B)) (A.rows.length + i)) v
        = dot (B.rows.getD i []) (v.drop A.cols)) := by
  constructor
  · intro hi
    simp only [blockDiag, mrow_some]
    rw [getD_append_lt _ _ _ _ (by simpa using hi), getD_map_app _ _ hi, dot_append_left]
    have : (A.rows.getD i []).length = A.cols := by
      simp only [List.getD_eq_getElem?_getD, List.getElem?_eq_getElem hi, Option.getD_some]
      exact hA _ (List.getElem_mem hi)
    rw [this]; simp
  · intro hi
    simp only [blockDiag, mrow_some]
    have := getD_append_add (A.rows.map (· ++ zeros B.cols)) (B.rows.map (zeros A.cols ++ ·)) i []
    simp only [List.length_map] at this
    rw [this, getD_map_app _ _ hi, dot_append_left]
    simp

theorem zerosM_ok (r n : ℕ) : (⟨n, zerosM r n⟩ : Tensor2 K).Ok := by
  intro q hq
  simp [zerosM] at hq
  simp [hq.2]

theorem blkDiagonize_dot {A B C : Option (Tensor2 K)} {r1 n1 r2 n2 : ℕ}
    (h : blkDiagonize A B r1 r2 n1 n2 = some C) (hA : ∀ M, A = some M → M.Ok)
    (v : Vec K) (i : ℕ) :
    (i < r1 → dot (mrow C i) v = dot (mrow A i) (v.take n1)) ∧
      (i < r2 → dot (mrow C (r1 + i)) v = dot (mrow B i) (v.drop n1)) := by
  unfold blkDiagonize at h
  split at h
  · cases h; simp
  · rename_i A
    split at h
    · rename_i hs
      obtain ⟨e1, e2⟩ := hs
      cases h
      have := blockDiag_dot A ⟨n2, zerosM r2 n2⟩ (hA A rfl) v i
      subst e1 e2
      refine ⟨this.1, fun hi => ?_⟩
      rw [this.2 (by simpa using hi), getD_zerosM]; simp
    · cases h
  · rename_i B
    split at h
    · rename_i hs
      obtain ⟨e1, e2⟩ := hs
      cases h
      have := blockDiag_dot ⟨n1, zerosM r1 n1⟩ B (zerosM_ok _ _) v i
      subst e1
      simp only [length_zerosM] at this
      refine ⟨fun hi => ?_, this.2⟩
      rw [this.1 hi, getD_zerosM]; simp
    · cases h
  · rename_i A B
    split at h
    · rename_i hs
      obtain ⟨⟨e1, e2⟩, e3, e4⟩ := hs
      cases h
      have := blockDiag_dot A B (hA A rfl) v i
      subst e1 e2 e3
      exact this
    · cases h

theorem stackBlock_dot {same : Bool} {A B C : Option (Tensor2 K)} {r1 n1 r2 n2 : ℕ}
    (h : stackBlock same A B r1 r2 n1 n2 = some C) (hA : ShapeIs A r1 n1)
    (v : Vec K) (i : ℕ) :
    (i < r1 → dot (mrow C i) v = dot (mrow A i) (part1 same n1 v)) ∧
      (i < r2 → dot (mrow C (r1 + i)) v = dot (mrow B i) (part2 same n1 v)) := by
  unfold stackBlock at h
  cases same
  · simp only [Bool.false_eq_true, if_false] at h
    have := blkDiagonize_dot h (fun M hM => (hA M hM).2.2) v i
    simpa [part1, part2] using this
  · simp only [if_true] at h
    have := stackMatrix_dot h (fun M hM => (hA M hM).1) v i
    simp only [part1, part2, if_true]
    exact ⟨this.1, fun _ => this.2⟩

theorem stackRhs_getD (a b : Option (Vec K)) :
    (stackRhs a b).getD [] = a.getD [] ++ b.getD [] := by
  cases a <;> cases b <;> simp [stackRhs]

theorem stackVec_getD (a b : Option (Vec K)) (r1 r2 i : ℕ) (ha : ∀ v, a = some v → v.length = r1) :
    (i < r1 → ((stackVec a b r1 r2).getD []).getD i 0 = (a.getD []).getD i 0) ∧
      ((stackVec a b r1 r2).getD []).getD (r1 + i) 0 = (b.getD []).getD i 0 := by
  cases a with
  | none => cases b with
    | none => simp [stackVec]
    | some b =>
      simp only [stackVec, Option.getD_some, Option.getD_none]
      constructor
      · intro hi
        rw [getD_append_lt _ _ _ _ (by simpa using hi)]; simp
      · have := getD_append_add (zeros r1) b i (0 : K)
        simpa using this
  | some a =>
    have e := ha a rfl
    subst e
    cases b with
    | none =>
      simp only [stackVec, Option.getD_some, Option.getD_none]
      exact ⟨fun hi => getD_append_lt _ _ _ _ hi, by rw [getD_append_add]; simp⟩
    | some b =>
      simp only [stackVec, Option.getD_some]
      exact ⟨fun hi => getD_append_lt _ _ _ _ hi, by rw [getD_append_add]⟩

theorem stackMatrix_shape {A B C : Option (Tensor2 K)} {r1 n1 r2 n2 : ℕ}
    (h : stackMatrix A B r1 n1 r2 n2 = some C) (hA : ShapeIs A r1 n1) (hB : ShapeIs B r2 n2) :
    (C = none ↔ A = none ∧ B = none) ∧ ShapeIs C (r1 + r2) n1 := by
  unfold stackMatrix at h
  split at h
  · cases h; exact ⟨by simp, fun M h => by cases h⟩
  · rename_i A
    obtain ⟨a1, a2, a3⟩ := hA A rfl
    split at h
    · rename_i hn
      cases h
      refine ⟨by simp, fun M h => ?_⟩
      cases h
      refine ⟨by simp [a1], a2, ?_⟩
      intro r hr
      rcases List.mem_append.1 hr with hr | hr
      · exact a3 r hr
      · rw [zerosM_ok r2 n2 r hr]; exact hn.symm
    · cases h
  · rename_i B
    obtain ⟨b1, b2, b3⟩ := hB B rfl
    split at h
    · rename_i hn
      cases h
      refine ⟨by simp, fun M h => ?_⟩
      cases h
      refine ⟨by simp [b1], hn.symm, ?_⟩
      intro r hr
      rcases List.mem_append.1 hr with hr | hr
      · rw [zerosM_ok r1 n1 r hr]; exact hn
      · exact b3 r hr
    · cases h
  · rename_i A B
    obtain ⟨a1, a2, a3⟩ := hA A rfl
    obtain ⟨b1, b2, b3⟩ := hB B rfl
    split at h
    · rename_i hn
      cases h
      refine ⟨by simp, fun M h => ?_⟩
      cases h
      refine ⟨by simp [a1, b1], a2, ?_⟩
      intro r hr
      rcases List.mem_append.1 hr with hr | hr
      · exact a3 r hr
      · rw [b3 r hr]; exact hn.symm
    · cases h

theorem blockDiag_ok (A B : Tensor2 K) (hA : A.Ok) (hB : B.Ok) : (blockDiag A B).Ok := by
  intro r hr
  simp only [blockDiag, List.mem_append, List.mem_map] at hr ⊢
  rcases hr with ⟨q, hq, rfl⟩ | ⟨q, hq, rfl⟩
  · simp [hA q hq]
  · simp [hB q hq]

theorem blkDiagonize_shape {A B C : Option (Tensor2 K)} {r1 n1 r2 n2 : ℕ}
    (h : blkDiagonize A B r1 r2 n1 n2 = some C) (hA : ShapeIs A r1 n1) (hB : ShapeIs B r2 n2) :
    (C = none ↔ A = none ∧ B = none) ∧ ShapeIs C (r1 + r2) (n1 + n2) := by
  unfold blkDiagonize at h
  split at h
  · cases h; exact ⟨by simp, fun M h => by cases h⟩
  · rename_i A
    obtain ⟨a1, a2, a3⟩ := hA A rfl
    split at h
    · cases h
      refine ⟨by simp, fun M h => ?_⟩
      cases h
      exact ⟨by simp [blockDiag, a1], by simp [blockDiag, a2], blockDiag_ok _ _ a3 (zerosM_ok _ _)⟩
    · cases h
  · rename_i B
    obtain ⟨b1, b2, b3⟩ := hB B rfl
    split at h
    · cases h
      refine ⟨by simp, fun M h => ?_⟩
      cases h
      exact ⟨by simp [blockDiag, b1], by simp [blockDiag, b2], blockDiag_ok _ _ (zerosM_ok _ _) b3⟩
    · cases h
  · rename_i A B
    obtain ⟨a1, a2, a3⟩ := hA A rfl
    obtain ⟨b1, b2, b3⟩ := hB B rfl
    split at h
    · cases h
      refine ⟨by simp, fun M h => ?_⟩
      cases h
      exact ⟨by simp [blockDiag, a1, b1], by simp [blockDiag, a2, b2], blockDiag_ok _ _ a3 b3⟩
    · cases h

/-- Number of variables after concatenation. -/
def joined (same : Bool) (n1 n2 : ℕ) : ℕ := if same then n1 else n1 + n2

theorem stackBlock_shape {same : Bool} {A B C : Option (Tensor2 K)} {r1 n1 r2 n2 : ℕ}
    (h : stackBlock same A B r1 r2 n1 n2 = some C) (hA : ShapeIs A r1 n1) (hB : ShapeIs B r2 n2) :
    (C = none ↔ A = none ∧ B = none) ∧ ShapeIs C (r1 + r2) (joined same n1 n2) := by
  unfold stackBlock at h
  cases same
  · exact blkDiagonize_shape (by simpa using h) hA hB
  · have h' : stackMatrix A B r1 n1 r2 n2 = some C := by simpa using h
    exact stackMatrix_shape h' hA hB

theorem stackBlock_isSome {same : Bool} {A B : Option (Tensor2 K)} {r1 n1 r2 n2 : ℕ}
    (hA : ShapeIs A r1 n1) (hB : ShapeIs B r2 n2) (hs : same = true → n1 = n2) :
    (stackBlock same A B r1 r2 n1 n2).isSome := by
  cases same
  · unfold stackBlock blkDiagonize
    cases A with
    | none => cases B with
      | none => simp
      | some B => obtain ⟨b1, b2, b3⟩ := hB B rfl; simp [b1, b2]
    | some A =>
      obtain ⟨a1, a2, a3⟩ := hA A rfl
      cases B with
      | none => simp [a1, a2]
      | some B => obtain ⟨b1, b2, b3⟩ := hB B rfl; simp [b1, b2, a1, a2]
  · have := hs rfl
    subst this
    unfold stackBlock stackMatrix
    cases A with
    | none => cases B with
      | none => simp
      | some B => obtain ⟨b1, b2, b3⟩ := hB B rfl; simp [b2]
    | some A =>
      obtain ⟨a1, a2, a3⟩ := hA A rfl
      cases B with
      | none => simp [a2]
      | some B => obtain ⟨b1, b2, b3⟩ := hB B rfl; simp [b2, a2]

theorem getD_zipWith_opt (f : Option K → Option K → Option K) (hf : f none none = none)
    (a b : List (Option K)) (h : a.length = b.length) (i : ℕ) :
    (List.zipWith f a b).getD i none = f (a.getD i none) (b.getD i none) := by
  by_cases hi : i < a.length
  · simp [List.getD, hi, h ▸ hi]
  · have hb : ¬ i < b.length := h ▸ hi
    simp only [List.getD_eq_getElem?_getD]
    rw [List.getElem?_eq_none (by simp; omega), List.getElem?_eq_none (by omega),
      List.getElem?_eq_none (by omega)]
    simp [hf]

theorem takeBound_lo {a b c : Option (List (Option K))} (h : takeBound maxLo a b = some c)
    (v : Vec K) : LoOk c v ↔ LoOk a v ∧ LoOk b v := by
  unfold takeBound at h
  split at h
  · cases h; simp [LoOk]
  · cases h; simp [LoOk]
  · cases h; simp [LoOk]
  · rename_i a b
    split at h
    · rename_i hl
      cases h
      simp only [LoOk, Option.some.injEq, forall_eq']
      rw [← forall_and]
      refine forall_congr' fun i => ?_
      rw [← forall_and]
      refine forall_congr' fun hi => ?_
      rw [getD_zipWith_opt maxLo rfl _ _ hl]
      cases a.getD i none <;> cases b.getD i none <;> simp [maxLo]
    · cases h

theorem takeBound_up {a b c : Option (List (Option K))} (h : takeBound minUp a b = some c)
    (v : Vec K) : UpOk c v ↔ UpOk a v ∧ UpOk b v := by
  unfold takeBound at h
  split at h
  · cases h; simp [UpOk]
  · cases h; simp [UpOk]
  · cases h; simp [UpOk]
  · rename_i a b
    split at h
    · rename_i hl
      cases h
      simp only [UpOk, Option.some.injEq, forall_eq']
      rw [← forall_and]
      refine forall_congr' fun i => ?_
      rw [← forall_and]
      refine forall_congr' fun hi => ?_
      rw [getD_zipWith_opt minUp rfl _ _ hl]
      cases a.getD i none <;> cases b.getD i none <;> simp [minUp]
    · cases h

/-- A per-coordinate relation on the concatenated bound list splits. -/
theorem split_bound (P : K → K → Prop) (a b : List (Option K)) (v : Vec K) :
    (∀ i, i < v.length → ∀ c, (a ++ b).getD i none = some c → P c (v.getD i 0)) ↔
    (∀ i, i < (v.take a.length).length → ∀ c, a.getD i none = some c →
      P c ((v.take a.length).getD i 0)) ∧
    (∀ i, i < (v.drop a.length).length → ∀ c, b.getD i none = some c →
      P c ((v.drop a.length).getD i 0)) := by
  constructor
  · intro h
    constructor
    · intro i hi c hc
      simp at hi
      have := h i hi.2 c (by rw [getD_append_lt _ _ _ _ hi.1]; exact hc)
      simpa [List.getD, List.getElem?_take, hi.1] using this
    · intro i hi c hc
      simp at hi
      have := h (a.length + i) (by omega) c (by rw [getD_append_add]; exact hc)
      simpa [List.getD, List.getElem?_drop] using this
  · rintro ⟨h1, h2⟩ i hi c hc
    by_cases hia : i < a.length
    · have := h1 i (by simp; omega) c (by rwa [getD_append_lt _ _ _ _ hia] at hc)
      simpa [List.getD, List.getElem?_take, hia] using this
    · obtain ⟨j, rfl⟩ := Nat.exists_eq_add_of_le (not_lt.1 hia)
      have := h2 j (by simp; omega) c (by rwa [getD_append_add] at hc)
      simpa [List.getD, List.getElem?_drop] using this

theorem replicate_none_getD (n i : ℕ) : (List.replicate n (none : Option K)).getD i none = none := by
  simp only [List.getD_eq_getElem?_getD, List.getElem?_replicate]
  split <;> simp

theorem stackBounds_lo {a b c : Option (List (Option K))} {n1 n2 : ℕ}
    (h : stackBounds a b n1 n2 = some c) (ha : ∀ l, a = some l → l.length = n1) (v : Vec K) :
    LoOk c v ↔ LoOk a (v.take n1) ∧ LoOk b (v.drop n1) := by
  unfold stackBounds at h
  split at h
  · cases h; simp [LoOk]
  · rename_i a
    split at h
    · rename_i hl
      cases h
      subst hl
      simp only [LoOk, Option.some.injEq, forall_eq']
      rw [split_bound (fun c v => c ≤ v)]
      simp [-List.getD_eq_getElem?_getD, replicate_none_getD]
    · cases h
  · rename_i b
    split at h
    · cases h
      simp only [LoOk, Option.some.injEq, forall_eq']
      rw [split_bound (fun c v => c ≤ v)]
      simp [-List.getD_eq_getElem?_getD, replicate_none_getD]
    · cases h
  · rename_i a b
    cases h
    have := ha a rfl
    subst this
    simp only [LoOk, Option.some.injEq, forall_eq']
    rw [split_bound (fun c v => c ≤ v)]

theorem stackBounds_up {a b c : Option (List (Option K))} {n1 n2 : ℕ}
    (h : stackBounds a b n1 n2 = some c) (ha : ∀ l, a = some l → l.length = n1) (v : Vec K) :
    UpOk c v ↔ UpOk a (v.take n1) ∧ UpOk b (v.drop n1) := by
  unfold stackBounds at h
  split at h
  · cases h; simp [UpOk]
  · rename_i a
    split at h
    · rename_i hl
      cases h
      subst hl
      simp only [UpOk, Option.some.injEq, forall_eq']
      rw [split_bound (fun c v => v ≤ c)]
      simp [-List.getD_eq_getElem?_getD, replicate_none_getD]
    · cases h
  · rename_i b
    split at h
    · cases h
      simp only [UpOk, Option.some.injEq, forall_eq']
      rw [split_bound (fun c v => v ≤ c)]
      simp [-List.getD_eq_getElem?_getD, replicate_none_getD]
    · cases h
  · rename_i a b
    cases h
    have := ha a rfl
    subst this
    simp only [UpOk, Option.some.injEq, forall_eq']
    rw [split_bound (fun c v => v ≤ c)]

theorem combineBounds_lo {same : Bool} {a b c : Option (List (Option K))} {n1 n2 : ℕ}
    (h : combineBounds same maxLo a b n1 n2 = some c) (ha : ∀ l, a = some l → l.length = n1)
    (v : Vec K) : LoOk c v ↔ LoOk a (part1 same n1 v) ∧ LoOk b (part2 same n1 v) := by
  unfold combineBounds at h
  cases same
  · exact stackBounds_lo (by simpa using h) ha v
  · exact takeBound_lo (by simpa using h) v

theorem combineBounds_up {same : Bool} {a b c : Option (List (Option K))} {n1 n2 : ℕ}
    (h : combineBounds same minUp a b n1 n2 = some c) (ha : ∀ l, a = some l → l.length = n1)
    (v : Vec K) : UpOk c v ↔ UpOk a (part1 same n1 v) ∧ UpOk b (part2 same n1 v) := by
  unfold combineBounds at h
  cases same
  · exact stackBounds_up (by simpa using h) ha v
  · exact takeBound_up (by simpa using h) v

end NNL.Model
