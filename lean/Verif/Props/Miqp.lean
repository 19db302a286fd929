import Verif.Model.Miqp
import Verif.Props.Mip
import Verif.Props.ROptions

/-!
# C83, C84: programs with a quadratic objective
-/

set_option linter.unusedSectionVars false

namespace NNL.Props

open NNL NNL.Model

variable {K : Type*} [Field K] [LinearOrder K] [IsStrictOrderedRing K]

/-! ### C83: the objective -/

/-- The quadratic expression passed to `setObjective`: the sum over the terms of `left · (coeff right)`. -/
def quadExpr (qc : List (Mat K)) (qv : List (List ℕ × List ℕ)) (v : ℕ → K) : K :=
  (List.zipWith (fun c x => dot (x.1.map v) (matVec c (x.2.map v))) qc qv).sum

theorem length_setM (Q : Mat K) (i j : ℕ) (c : K) : (setM Q i j c).length = Q.length := by simp [setM]

theorem hasCols_setM {Q : Mat K} {n : ℕ} (h : HasCols Q n) (i j : ℕ) (c : K) : HasCols (setM Q i j c) n := by
  intro r hr
  by_cases hi : i < Q.length
  · rcases List.mem_or_eq_of_mem_set hr with h1 | h1
    · exact h r h1
    · rw [h1, List.length_set]
      exact h _ (by simp [List.getD, hi])
  · rw [setM, List.set_eq_of_length_le (by omega)] at hr
    exact h r hr

theorem getD_setM (Q : Mat K) (i j a b : ℕ) (c : K) (h : (a, b) ≠ (i, j)) :
    ((setM Q i j c).getD a []).getD b 0 = (Q.getD a []).getD b 0 := by
  unfold setM
  by_cases ha : a = i
  · subst ha
    have hb : j ≠ b := fun e => h (by rw [e])
    by_cases hl : a < Q.length
    · simp [List.getD, hl, hb]
    · rw [List.set_eq_of_length_le (by omega)]
  · have : (Q.set i ((Q.getD i []).set j c)).getD a [] = Q.getD a [] := by
      simp [List.getD, Ne.symm ha]
    rw [this]

theorem bil_setM (Q : Mat K) (n : ℕ) (hQ : HasCols Q n) (x y : Vec K) (i j : ℕ) (c : K) (hi : i < Q.length) (hj : j < n)
    (h0 : (Q.getD i []).getD j 0 = 0) :
    dot x (matVec (setM Q i j c) y) = dot x (matVec Q y) + c * (x.getD i 0 * y.getD j 0) := by
  induction Q generalizing x i with
  | nil => simp at hi
  | cons q Q ih =>
    cases x with
    | nil => simp
    | cons a x =>
      cases i with
      | zero =>
        have hq : j < q.length := by rw [hQ q (by simp)]; exact hj
        have h0' : q.getD j 0 = 0 := by simpa using h0
        show dot (a :: x) (dot (q.set j c) y :: matVec Q y) = dot (a :: x) (dot q y :: matVec Q y) + _
        rw [dot_cons, dot_cons, dot_set _ _ _ _ hq h0']
        simp only [List.getD_cons_zero]
        ring
      | succ i =>
        have := ih (fun r hr => hQ r (by simp [hr])) x i (by simpa using hi) (by simpa using h0)
        show dot (a :: x) (dot q y :: matVec (setM Q i j c) y) = dot (a :: x) (dot q y :: matVec Q y) + _
        rw [dot_cons, dot_cons, this]
        simp only [List.getD_cons_succ]
        ring

/-- The quadratic part of the recorded data. -/
def quadData (Qr Qz Qm : Mat K) (r z : Vec K) : K :=
  dot r (matVec Qr r) + dot z (matVec Qz z) + dot r (matVec Qm z)

/-- Shape and unused entries of a matrix of the loop. -/
structure QOk (Q : Mat K) (n k : ℕ) (used : List (ℕ × ℕ)) : Prop where
  len : Q.length = n
  cols : HasCols Q k
  zero : ∀ i j, (i, j) ∉ used → (Q.getD i []).getD j 0 = 0

theorem QOk.set {Q : Mat K} {n k : ℕ} {used : List (ℕ × ℕ)} (h : QOk Q n k used) (i j : ℕ) (c : K) :
    QOk (setM Q i j c) n k ((i, j) :: used) where
  len := by rw [length_setM, h.len]
  cols := hasCols_setM h.cols i j c
  zero := fun a b hab => by
    simp only [List.mem_cons, not_or] at hab
    rw [getD_setM _ _ _ _ _ _ hab.1]
    exact h.zero a b hab.2

theorem qOk_zeros (n k : ℕ) : QOk (zerosM n k : Mat K) n k [] where
  len := by simp
  cols := by
    intro r hr
    rw [zerosM, List.mem_replicate] at hr
    rw [hr.2, length_zeros]
  zero := fun i j _ => by
    by_cases hi : i < n
    · simp [zerosM, zeros, List.getD, hi, List.getElem?_replicate]
      split_ifs <;> simp
    · simp [zerosM, List.getD, hi]

theorem lookup_r {m : Mip K} (hw : m.WF) {a i : ℕ} (h : m.rIdx.lookup a = some i) (v : ℕ → K) :
    i < m.r.length ∧ (m.r.map v).getD i 0 = v a := by
  rw [hw.ridx] at h
  obtain ⟨_, e⟩ := lookup_zipIdx_some h
  simp only [Nat.sub_zero] at e
  obtain ⟨hlt, e⟩ := List.getElem?_eq_some_iff.1 e
  exact ⟨hlt, by simp [List.getD, hlt, e]⟩

theorem lookup_z {m : Mip K} (hw : m.WF) {a i : ℕ} (h : m.zIdx.lookup a = some i) (v : ℕ → K) :
    i < m.zeta.length ∧ (m.zeta.map v).getD i 0 = v a := by
  rw [hw.zidx] at h
  obtain ⟨_, e⟩ := lookup_zipIdx_some h
  simp only [Nat.sub_zero] at e
  obtain ⟨hlt, e⟩ := List.getElem?_eq_some_iff.1 e
  exact ⟨hlt, by simp [List.getD, hlt, e]⟩

theorem mixedIdx_some {ra za rb zb : Option ℕ} {i j : ℕ} (h : mixedIdx ra za rb zb = some (i, j)) :
    (ra = some i ∧ zb = some j) ∨ (za = some j ∧ rb = some i) := by
  unfold mixedIdx at h
  cases ra with
  | some a =>
    cases rb with
    | some b => cases h
    | none =>
      simp only [Option.map_eq_some_iff, Prod.mk.injEq] at h
      obtain ⟨k, hk, rfl, rfl⟩ := h
      exact Or.inl ⟨rfl, hk⟩
  | none =>
    simp only [Option.bind_eq_some_iff, Option.map_eq_some_iff, Prod.mk.injEq] at h
    obtain ⟨k, hk, l, hl, rfl, rfl⟩ := h
    exact Or.inr ⟨hk, hl⟩

theorem quadLoop_spec {m : Mip K} (hw : m.WF) (v : ℕ → K) (l : List (K × ℕ × ℕ)) (ur uz urz : List (ℕ × ℕ))
    (Qr Qz Qm Qr' Qz' Qm' : Mat K) (h1 : QOk Qr m.r.length m.r.length ur)
    (h2 : QOk Qz m.zeta.length m.zeta.length uz) (h3 : QOk Qm m.r.length m.zeta.length urz)
    (h : quadLoop m.rIdx m.zIdx l ur uz urz Qr Qz Qm = some (Qr', Qz', Qm')) :
    quadData Qr' Qz' Qm' (m.r.map v) (m.zeta.map v) =
      quadData Qr Qz Qm (m.r.map v) (m.zeta.map v) + (l.map fun t => t.1 * (v t.2.1 * v t.2.2)).sum ∧
    (∃ u, QOk Qr' m.r.length m.r.length u) ∧ (∃ u, QOk Qz' m.zeta.length m.zeta.length u) ∧
    ∃ u, QOk Qm' m.r.length m.zeta.length u := by
  induction l generalizing ur uz urz Qr Qz Qm with
  | nil =>
    simp only [quadLoop, Option.some.injEq, Prod.mk.injEq] at h
    obtain ⟨rfl, rfl, rfl⟩ := h
    exact ⟨by simp, ⟨_, h1⟩, ⟨_, h2⟩, ⟨_, h3⟩⟩
  | cons t l ih =>
    obtain ⟨c, a, b⟩ := t
    rw [quadLoop] at h
    have mixed : ∀ i j, mixedIdx (m.rIdx.lookup a) (m.zIdx.lookup a) (m.rIdx.lookup b) (m.zIdx.lookup b) = some (i, j) →
        i < m.r.length ∧ j < m.zeta.length ∧
          (m.r.map v).getD i 0 * (m.zeta.map v).getD j 0 = v a * v b := by
      intro i j hij
      rcases mixedIdx_some hij with ⟨e1, e2⟩ | ⟨e1, e2⟩
      · obtain ⟨p, p'⟩ := lookup_r hw e1 v
        obtain ⟨q, q'⟩ := lookup_z hw e2 v
        exact ⟨p, q, by rw [p', q']⟩
      · obtain ⟨p, p'⟩ := lookup_z hw e1 v
        obtain ⟨q, q'⟩ := lookup_r hw e2 v
        exact ⟨q, p, by rw [p', q', mul_comm]⟩
    have rr : ∀ i j, m.rIdx.lookup a = some i → m.rIdx.lookup b = some j →
        (if (i, j) ∈ ur then none
          else quadLoop m.rIdx m.zIdx l ((i, j) :: ur) uz urz (setM Qr i j c) Qz Qm) = some (Qr', Qz', Qm') →
        quadData Qr' Qz' Qm' (m.r.map v) (m.zeta.map v) =
          quadData Qr Qz Qm (m.r.map v) (m.zeta.map v) + (c * (v a * v b) +
            (l.map fun t => t.1 * (v t.2.1 * v t.2.2)).sum) ∧
        (∃ u, QOk Qr' m.r.length m.r.length u) ∧ (∃ u, QOk Qz' m.zeta.length m.zeta.length u) ∧
          ∃ u, QOk Qm' m.r.length m.zeta.length u := by
      intro i j hi hj h
      split_ifs at h with hu
      obtain ⟨e, e'⟩ := ih _ _ _ _ _ _ (h1.set i j c) h2 h3 h
      obtain ⟨p, p'⟩ := lookup_r hw hi v
      obtain ⟨q, q'⟩ := lookup_r hw hj v
      refine ⟨?_, e'⟩
      rw [e, quadData, bil_setM _ _ h1.cols _ _ _ _ _ (by rw [h1.len]; exact p) q (h1.zero i j hu), p', q', quadData]
      ring
    have zz : ∀ i j, m.zIdx.lookup a = some i → m.zIdx.lookup b = some j →
        (if (i, j) ∈ uz then none
          else quadLoop m.rIdx m.zIdx l ur ((i, j) :: uz) urz Qr (setM Qz i j c) Qm) = some (Qr', Qz', Qm') →
        quadData Qr' Qz' Qm' (m.r.map v) (m.zeta.map v) =
          quadData Qr Qz Qm (m.r.map v) (m.zeta.map v) + (c * (v a * v b) +
            (l.map fun t => t.1 * (v t.2.1 * v t.2.2)).sum) ∧
        (∃ u, QOk Qr' m.r.length m.r.length u) ∧ (∃ u, QOk Qz' m.zeta.length m.zeta.length u) ∧
          ∃ u, QOk Qm' m.r.length m.zeta.length u := by
      intro i j hi hj h
      split_ifs at h with hu
      obtain ⟨e, e'⟩ := ih _ _ _ _ _ _ h1 (h2.set i j c) h3 h
      obtain ⟨p, p'⟩ := lookup_z hw hi v
      obtain ⟨q, q'⟩ := lookup_z hw hj v
      refine ⟨?_, e'⟩
      rw [e, quadData, bil_setM _ _ h2.cols _ _ _ _ _ (by rw [h2.len]; exact p) q (h2.zero i j hu), p', q', quadData]
      ring
    have mm : ∀ i j, mixedIdx (m.rIdx.lookup a) (m.zIdx.lookup a) (m.rIdx.lookup b) (m.zIdx.lookup b) = some (i, j) →
        (if (i, j) ∈ urz then none
          else quadLoop m.rIdx m.zIdx l ur uz ((i, j) :: urz) Qr Qz (setM Qm i j c)) = some (Qr', Qz', Qm') →
        quadData Qr' Qz' Qm' (m.r.map v) (m.zeta.map v) =
          quadData Qr Qz Qm (m.r.map v) (m.zeta.map v) + (c * (v a * v b) +
            (l.map fun t => t.1 * (v t.2.1 * v t.2.2)).sum) ∧
        (∃ u, QOk Qr' m.r.length m.r.length u) ∧ (∃ u, QOk Qz' m.zeta.length m.zeta.length u) ∧
          ∃ u, QOk Qm' m.r.length m.zeta.length u := by
      intro i j hij h
      split_ifs at h with hu
      obtain ⟨e, e'⟩ := ih _ _ _ _ _ _ h1 h2 (h3.set i j c) h
      obtain ⟨p, q, pq⟩ := mixed i j hij
      refine ⟨?_, e'⟩
      rw [e, quadData, bil_setM _ _ h3.cols _ _ _ _ _ (by rw [h3.len]; exact p) q (h3.zero i j hu), pq, quadData]
      ring
    simp only [List.map_cons, List.sum_cons]
    split at h
    · rename_i i j hi hj
      exact rr i j hi hj h
    · split at h
      · rename_i i j hi hj
        exact zz i j hi hj h
      · split at h
        · cases h
        · rename_i i j hij
          exact mm i j hij h

theorem sum_quadTerms (coeff : Mat K) (L R : List ℕ) (v : ℕ → K) :
    ((quadTerms coeff L R).map fun t => t.1 * (v t.2.1 * v t.2.2)).sum =
      dot (L.map v) (matVec coeff (R.map v)) := by
  have row : ∀ (a : ℕ) (q : Vec K) (R : List ℕ),
      ((List.zipWith (fun c b => (c, a, b)) q R).map fun t => t.1 * (v t.2.1 * v t.2.2)).sum =
        v a * dot q (R.map v) := by
    intro a q
    induction q with
    | nil => intro R; simp
    | cons c q ih =>
      intro R
      cases R with
      | nil => simp
      | cons b R =>
        simp only [List.zipWith_cons_cons, List.map_cons, List.sum_cons, dot_cons, ih R]
        ring
  unfold quadTerms
  induction coeff generalizing L with
  | nil => simp [matVec]
  | cons q Q ih =>
    cases L with
    | nil => simp
    | cons a L =>
      simp only [List.zipWith_cons_cons, List.flatten_cons, List.map_append, List.sum_append, row, ih L, List.map_cons]
      show _ = dot (v a :: L.map v) (dot q (R.map v) :: matVec Q (R.map v))
      rw [dot_cons]

theorem quadSum_eq (Q : Mat K) (x y : Vec K) (h1 : Q.length = x.length) (h2 : HasCols Q y.length) :
    quadSum Q x y = dot x (matVec Q y) := by
  have hite : ∀ a b : K, (if a ≠ 0 then a * b else 0) = a * b := by
    intro a b
    by_cases h : a = 0 <;> simp [h]
  unfold quadSum
  simp only [hite]
  have hrow : ∀ i, i < Q.length → ((List.range y.length).map fun j =>
      (Q.getD i []).getD j 0 * (x.getD i 0 * y.getD j 0)).sum = x.getD i 0 * (matVec Q y).getD i 0 := by
    intro i hi
    have hl : (Q.getD i []).length = y.length := h2 _ (by simp [List.getD, hi])
    have e : Q.getD i [] = (List.range y.length).map fun j => (Q.getD i []).getD j 0 := by
      refine vec_ext (by rw [hl, List.length_map, List.length_range]) fun j hj => ?_
      rw [hl] at hj
      simp [List.getD, hj]
    have : (matVec Q y).getD i 0 = dot (Q.getD i []) y := by simp [matVec, List.getD, hi]
    rw [this, e, dot_shift]
    rw [← List.sum_map_mul_left]
    congr 1
    refine List.map_congr_left fun j hj => ?_
    rw [← e]
    ring
  have : ((List.range x.length).map fun i => ((List.range y.length).map fun j =>
      (Q.getD i []).getD j 0 * (x.getD i 0 * y.getD j 0)).sum) =
      (List.range x.length).map fun i => (matVec Q y).getD i 0 * x.getD i 0 := by
    refine List.map_congr_left fun i hi => ?_
    rw [hrow i (by rw [h1]; simpa using hi), mul_comm]
  rw [this, ← dot_shift, dot_comm]
  congr 1
  refine vec_ext (by simp [h1]) fun i hi => ?_
  rw [List.length_map, List.length_range] at hi
  simp [List.getD, hi]

theorem setQuadObjective_inv {m : Mip K} {qc : List (Mat K)} {qv : List (List ℕ × List ℕ)} {lc : List (Vec K)}
    {lv : List (List ℕ)} {const : K} {mx : Bool} {o : MiqpObj K}
    (h : m.setQuadObjective qc qv lc lv const mx = some o) :
    lc.length = lv.length ∧ qc.length = qv.length ∧ (∀ t ∈ lc.zip lv, t.2.length ≤ t.1.length) ∧
    (∀ t ∈ qc.zip qv, t.1.length = t.2.1.length ∧ ∀ row ∈ t.1, row.length = t.2.2.length) ∧
    objLoop m.rIdx m.zIdx (List.zipWith (fun c v => c.zip v) lc lv).flatten [] [] (zeros m.r.length)
      (zeros m.zeta.length) = some (o.c_r, o.c_zeta) ∧
    quadLoop m.rIdx m.zIdx (List.zipWith (fun c v => quadTerms c v.1 v.2) qc qv).flatten [] [] []
      (zerosM m.r.length m.r.length) (zerosM m.zeta.length m.zeta.length) (zerosM m.r.length m.zeta.length) =
      some (o.Q_r, o.Q_zeta, o.Q_rzeta) ∧ o.const = const ∧ o.maximize = mx := by
  unfold Mip.setQuadObjective at h
  split_ifs at h with hc
  simp only [Option.bind_eq_bind, Option.bind_eq_some_iff] at h
  obtain ⟨c, h1, q, h2, e⟩ := h
  cases e
  exact ⟨hc.1, hc.2.1, hc.2.2.1, hc.2.2.2, h1, h2, rfl, rfl⟩

theorem dot_zerosM (n k : ℕ) (x y : Vec K) : dot x (matVec (zerosM n k) y) = 0 := by
  have : matVec (zerosM n k : Mat K) y = zeros n := by
    unfold matVec zerosM
    rw [List.map_replicate, dot_zeros_left, zeros]
  rw [this, dot_zeros_right]

/-- **C83**. The objective handed to Gurobi is the quadratic expression that was asked for, for any assignment:
`∑ₖ leftₖ · (quad_coeffsₖ rightₖ) + ∑ₖ lin_coeffsₖ · lin_variablesₖ + constant`, whatever the mixture of
continuous and binary variables and their order. The recorded data have the same value. -/
theorem C83_setObjective (m : Mip K) (hw : m.WF) (qc : List (Mat K)) (qv : List (List ℕ × List ℕ))
    (lc : List (Vec K)) (lv : List (List ℕ)) (const : K) (mx : Bool) (o : MiqpObj K)
    (hx : ∀ x ∈ lv, ∀ i ∈ x, i < m.n) (h : m.setQuadObjective qc qv lc lv const mx = some o) (v : ℕ → K) :
    o.gurobi m v = quadExpr qc qv v + objExpr lc lv v + const ∧
      o.value (m.r.map v) (m.zeta.map v) = o.gurobi m v ∧ o.maximize = mx := by
  obtain ⟨l1, l2, l3, l4, h1, h2, rfl, e⟩ := setQuadObjective_inv h
  have hlin : dot o.c_r (m.r.map v) + dot o.c_zeta (m.zeta.map v) = objExpr lc lv v := by
    have hs : m.setObjective lc lv 0 true = some { m with obj := some ⟨o.c_r, o.c_zeta, 0, true⟩ } := by
      unfold Mip.setObjective
      rw [if_pos ⟨l1, l3⟩]
      simp [h1]
    have := (C63_setObjective m _ hw lc lv 0 true hx hs v).1
    simpa [Mip.objVal] using this
  obtain ⟨q, ⟨_, k1⟩, ⟨_, k2⟩, ⟨_, k3⟩⟩ := quadLoop_spec hw v _ _ _ _ _ _ _ _ _ _ (qOk_zeros _ _) (qOk_zeros _ _)
    (qOk_zeros _ _) h2
  have hsum : ∀ (qc : List (Mat K)) (qv : List (List ℕ × List ℕ)),
      ((List.zipWith (fun c v => quadTerms c v.1 v.2) qc qv).flatten.map fun t => t.1 * (v t.2.1 * v t.2.2)).sum =
        quadExpr qc qv v := by
    intro qc
    induction qc with
    | nil => intro qv; simp [quadExpr]
    | cons c qc ih =>
      intro qv
      cases qv with
      | nil => simp [quadExpr]
      | cons x qv =>
        simp only [quadExpr, List.zipWith_cons_cons, List.flatten_cons, List.map_append, List.sum_append,
          sum_quadTerms, List.sum_cons]
        rw [ih qv, quadExpr]
  rw [hsum] at q
  simp only [quadData, dot_zerosM, zero_add] at q
  have g : o.gurobi m v = o.value (m.r.map v) (m.zeta.map v) := by
    unfold MiqpObj.gurobi MiqpObj.value
    rw [quadSum_eq _ _ _ (by simpa using k1.len) (by simpa using k1.cols),
      quadSum_eq _ _ _ (by simpa using k2.len) (by simpa using k2.cols),
      quadSum_eq _ _ _ (by simpa using k3.len) (by simpa using k3.cols)]
  refine ⟨?_, g.symm, e⟩
  rw [g]
  unfold MiqpObj.value
  linarith

/-- The positions of a pair of variables collide: the same pair in the same order, or the same pair in either
order if one variable is continuous and the other binary. -/
def Collide (m : Mip K) (p q : ℕ × ℕ) : Prop :=
  p = q ∨ (p = (q.2, q.1) ∧ ((p.1 ∈ m.r ∧ p.2 ∈ m.zeta) ∨ (p.1 ∈ m.zeta ∧ p.2 ∈ m.r)))

theorem lookup_inj {l : List ℕ} {a b i : ℕ} (h1 : l.zipIdx.lookup a = some i) (h2 : l.zipIdx.lookup b = some i) : a = b := by
  have e1 := (lookup_zipIdx_some h1).2
  have e2 := (lookup_zipIdx_some h2).2
  rw [e1] at e2
  simpa using e2

theorem lookup_mem {l : List ℕ} {a i : ℕ} (h : l.zipIdx.lookup a = some i) : a ∈ l :=
  List.mem_of_getElem? (lookup_zipIdx_some h).2

theorem lookup_of_mem {l : List ℕ} {a : ℕ} (h : a ∈ l) : ∃ i, l.zipIdx.lookup a = some i := by
  cases e : l.zipIdx.lookup a with
  | none => exact absurd h (lookup_zipIdx_none.1 e)
  | some i => exact ⟨i, rfl⟩

/-- What the loop does with a pair: the matrix and the position. -/
inductive Pos where
  | rr (i j : ℕ) | zz (i j : ℕ) | rz (i j : ℕ)
deriving DecidableEq

/-- The position of a pair. -/
def posOf (m : Mip K) (a b : ℕ) : Option Pos :=
  match m.rIdx.lookup a, m.rIdx.lookup b with
  | some i, some j => some (.rr i j)
  | ra, rb =>
    match m.zIdx.lookup a, m.zIdx.lookup b with
    | some i, some j => some (.zz i j)
    | za, zb => (mixedIdx ra za rb zb).map fun t => .rz t.1 t.2

theorem posOf_cases {m : Mip K} (hw : m.WF) {a b : ℕ} (ha : a < m.n) (hb : b < m.n) :
    (∃ i j, m.r.zipIdx.lookup a = some i ∧ m.r.zipIdx.lookup b = some j ∧ posOf m a b = some (.rr i j)) ∨
    (∃ i j, m.zeta.zipIdx.lookup a = some i ∧ m.zeta.zipIdx.lookup b = some j ∧ posOf m a b = some (.zz i j)) ∨
    (∃ i j, m.r.zipIdx.lookup a = some i ∧ m.zeta.zipIdx.lookup b = some j ∧ posOf m a b = some (.rz i j)) ∨
    (∃ i j, m.zeta.zipIdx.lookup a = some j ∧ m.r.zipIdx.lookup b = some i ∧ posOf m a b = some (.rz i j)) := by
  have dis := List.disjoint_of_nodup_append hw.nodup
  have ha' := (hw.cover a).2 ha
  have hb' := (hw.cover b).2 hb
  rw [List.mem_append] at ha' hb'
  have hr : ∀ x, x ∈ m.zeta → m.r.zipIdx.lookup x = none := fun x hx =>
    lookup_zipIdx_none.2 fun h => dis h hx
  have hz : ∀ x, x ∈ m.r → m.zeta.zipIdx.lookup x = none := fun x hx =>
    lookup_zipIdx_none.2 fun h => dis hx h
  unfold posOf
  rw [hw.ridx, hw.zidx]
  rcases ha' with ha' | ha' <;> rcases hb' with hb' | hb'
  · obtain ⟨i, hi⟩ := lookup_of_mem ha'
    obtain ⟨j, hj⟩ := lookup_of_mem hb'
    exact Or.inl ⟨i, j, hi, hj, by simp [hi, hj]⟩
  · obtain ⟨i, hi⟩ := lookup_of_mem ha'
    obtain ⟨j, hj⟩ := lookup_of_mem hb'
    exact Or.inr (Or.inr (Or.inl ⟨i, j, hi, hj, by simp [hi, hj, hr _ hb', hz _ ha', mixedIdx]⟩))
  · obtain ⟨i, hi⟩ := lookup_of_mem ha'
    obtain ⟨j, hj⟩ := lookup_of_mem hb'
    exact Or.inr (Or.inr (Or.inr ⟨j, i, hi, hj, by simp [hi, hj, hr _ ha', hz _ hb', mixedIdx]⟩))
  · obtain ⟨i, hi⟩ := lookup_of_mem ha'
    obtain ⟨j, hj⟩ := lookup_of_mem hb'
    exact Or.inr (Or.inl ⟨i, j, hi, hj, by simp [hi, hj, hr _ ha']⟩)

theorem posOf_inj {m : Mip K} (hw : m.WF) {a b c d : ℕ} (ha : a < m.n) (hb : b < m.n) (hc : c < m.n) (hd : d < m.n) :
    posOf m a b = posOf m c d ↔ Collide m (a, b) (c, d) := by
  have dis := List.disjoint_of_nodup_append hw.nodup
  constructor
  · intro h
    rcases posOf_cases hw ha hb with ⟨i, j, hi, hj, e⟩ | ⟨i, j, hi, hj, e⟩ | ⟨i, j, hi, hj, e⟩ | ⟨i, j, hi, hj, e⟩ <;>
      rcases posOf_cases hw hc hd with ⟨k, l, hk, hl, f⟩ | ⟨k, l, hk, hl, f⟩ | ⟨k, l, hk, hl, f⟩ | ⟨k, l, hk, hl, f⟩ <;>
      rw [e, f] at h <;> simp only [Option.some.injEq, reduceCtorEq, Pos.rr.injEq, Pos.zz.injEq, Pos.rz.injEq] at h
    all_goals
      obtain ⟨rfl, rfl⟩ := h
    · exact Or.inl (by rw [lookup_inj hi hk, lookup_inj hj hl])
    · exact Or.inl (by rw [lookup_inj hi hk, lookup_inj hj hl])
    · exact Or.inl (by rw [lookup_inj hi hk, lookup_inj hj hl])
    · exact Or.inr ⟨by rw [lookup_inj hi hl, lookup_inj hj hk], Or.inl ⟨lookup_mem hi, lookup_mem hj⟩⟩
    · exact Or.inr ⟨by rw [lookup_inj hi hl, lookup_inj hj hk], Or.inr ⟨lookup_mem hi, lookup_mem hj⟩⟩
    · exact Or.inl (by rw [lookup_inj hi hk, lookup_inj hj hl])
  · rintro (h | ⟨h, hm⟩)
    · cases h
      rfl
    · cases h
      rcases hm with ⟨h1, h2⟩ | ⟨h1, h2⟩ <;>
      rcases posOf_cases hw ha hb with ⟨i, j, hi, hj, e⟩ | ⟨i, j, hi, hj, e⟩ | ⟨i, j, hi, hj, e⟩ | ⟨i, j, hi, hj, e⟩ <;>
      rcases posOf_cases hw hc hd with ⟨k, l, hk, hl, f⟩ | ⟨k, l, hk, hl, f⟩ | ⟨k, l, hk, hl, f⟩ | ⟨k, l, hk, hl, f⟩
      all_goals first
        | (exact absurd h2 (dis (lookup_mem hj)))
        | (exact absurd h1 (dis (lookup_mem hi)))
        | (exact absurd (lookup_mem hi) (dis h1))
        | (exact absurd (lookup_mem hj) (dis h2))
        | (exact absurd (lookup_mem hk) (dis (lookup_mem hj)))
        | (exact absurd (lookup_mem hl) (dis (lookup_mem hi)))
        | (exact absurd (lookup_mem hi) (dis (lookup_mem hl)))
        | (exact absurd (lookup_mem hj) (dis (lookup_mem hk)))
        | (rw [hi] at hl
           rw [hj] at hk
           cases hl
           cases hk
           rw [e, f])

/-- The position is taken. -/
def UsedPos (ur uz urz : List (ℕ × ℕ)) : Option Pos → Prop
  | some (.rr i j) => (i, j) ∈ ur
  | some (.zz i j) => (i, j) ∈ uz
  | some (.rz i j) => (i, j) ∈ urz
  | none => True

theorem quadLoop_isSome {m : Mip K} (l : List (K × ℕ × ℕ)) (ur uz urz : List (ℕ × ℕ)) (Qr Qz Qm : Mat K) :
    (quadLoop m.rIdx m.zIdx l ur uz urz Qr Qz Qm).isSome ↔
      (l.map fun t => posOf m t.2.1 t.2.2).Nodup ∧ ∀ t ∈ l, ¬ UsedPos ur uz urz (posOf m t.2.1 t.2.2) := by
  induction l generalizing ur uz urz Qr Qz Qm with
  | nil => simp [quadLoop]
  | cons t l ih =>
    obtain ⟨c, a, b⟩ := t
    have step : ∀ p : Pos, ∀ ur' uz' urz' : List (ℕ × ℕ), posOf m a b = some p → ¬ UsedPos ur uz urz (some p) →
        (∀ q, UsedPos ur' uz' urz' q ↔ q = some p ∨ UsedPos ur uz urz q) →
        (((l.map fun t => posOf m t.2.1 t.2.2).Nodup ∧ ∀ t ∈ l, ¬ UsedPos ur' uz' urz' (posOf m t.2.1 t.2.2)) ↔
          (((c, a, b) :: l).map fun t => posOf m t.2.1 t.2.2).Nodup ∧
            ∀ t ∈ (c, a, b) :: l, ¬ UsedPos ur uz urz (posOf m t.2.1 t.2.2)) := by
      intro p ur' uz' urz' hp hn hu
      simp only [List.map_cons, List.nodup_cons, List.forall_mem_cons, hp, hu, not_or, List.mem_map, not_exists, not_and]
      constructor
      · rintro ⟨h1, h2⟩
        exact ⟨⟨fun t ht => (h2 t ht).1, h1⟩, hn, fun t ht => (h2 t ht).2⟩
      · rintro ⟨⟨h1, h2⟩, -, h3⟩
        exact ⟨h2, fun t ht => ⟨h1 t ht, h3 t ht⟩⟩
    have bad : UsedPos ur uz urz (posOf m a b) → ¬ ((((c, a, b) :: l).map fun t => posOf m t.2.1 t.2.2).Nodup ∧
            ∀ t ∈ (c, a, b) :: l, ¬ UsedPos ur uz urz (posOf m t.2.1 t.2.2)) :=
      fun h ⟨_, h2⟩ => h2 (c, a, b) (by simp) h
    have posE : posOf m a b = match m.rIdx.lookup a, m.rIdx.lookup b with
      | some i, some j => some (.rr i j)
      | ra, rb =>
        match m.zIdx.lookup a, m.zIdx.lookup b with
        | some i, some j => some (.zz i j)
        | za, zb => (mixedIdx ra za rb zb).map fun t => .rz t.1 t.2 := rfl
    rw [quadLoop]
    split
    · rename_i i j hi hj
      have hp : posOf m a b = some (.rr i j) := by rw [posE, hi, hj]
      split_ifs with hu
      · simp only [Option.isSome_none, Bool.false_eq_true, false_iff]
        exact bad (by rw [hp]; exact hu)
      · rw [ih]
        refine step (.rr i j) _ _ _ hp hu fun q => ?_
        rcases q with _ | (⟨k, l⟩ | ⟨k, l⟩ | ⟨k, l⟩) <;> simp [UsedPos]
    · rename_i hne
      split
      · rename_i i j hi hj
        have hp : posOf m a b = some (.zz i j) := by
          rw [posE]
          split
          · rename_i i' j' e1 e2
            exact absurd e2 (hne i' j' e1)
          · rw [hi, hj]
        split_ifs with hu
        · simp only [Option.isSome_none, Bool.false_eq_true, false_iff]
          exact bad (by rw [hp]; exact hu)
        · rw [ih]
          refine step (.zz i j) _ _ _ hp hu fun q => ?_
          rcases q with _ | (⟨k, l⟩ | ⟨k, l⟩ | ⟨k, l⟩) <;> simp [UsedPos]
      · rename_i hne2
        have hp : posOf m a b = (mixedIdx (m.rIdx.lookup a) (m.zIdx.lookup a) (m.rIdx.lookup b)
            (m.zIdx.lookup b)).map fun t => .rz t.1 t.2 := by
          rw [posE]
          split
          · rename_i i' j' e1 e2
            exact absurd e2 (hne i' j' e1)
          · split
            · rename_i i' j' e1 e2
              exact absurd e2 (hne2 i' j' e1)
            · rfl
        split
        · rename_i hm
          simp only [Option.isSome_none, Bool.false_eq_true, false_iff]
          exact bad (by rw [hp, hm]; trivial)
        · rename_i i j hm
          rw [hm] at hp
          split_ifs with hu
          · simp only [Option.isSome_none, Bool.false_eq_true, false_iff]
            exact bad (by rw [hp]; exact hu)
          · rw [ih]
            refine step (.rz i j) _ _ _ hp hu fun q => ?_
            rcases q with _ | (⟨k, l⟩ | ⟨k, l⟩ | ⟨k, l⟩) <;> simp [UsedPos]

/-- The pairs of variables of the quadratic terms, term by term, row by row. -/
def quadPairs (qv : List (List ℕ × List ℕ)) : List (ℕ × ℕ) := qv.flatMap fun t => t.1.flatMap fun a => t.2.map fun b => (a, b)

theorem quadTerms_pairs (coeff : Mat K) (L R : List ℕ) (h1 : coeff.length = L.length) (h2 : ∀ row ∈ coeff, row.length = R.length) :
    (quadTerms coeff L R).map Prod.snd = L.flatMap fun a => R.map fun b => (a, b) := by
  have row : ∀ (a : ℕ) (q : Vec K) (R : List ℕ), q.length = R.length →
      (List.zipWith (fun c b => (c, a, b)) q R).map Prod.snd = R.map fun b => (a, b) := by
    intro a q
    induction q with
    | nil =>
      intro R h
      have : R = [] := List.eq_nil_of_length_eq_zero h.symm
      simp [this]
    | cons c q ih =>
      intro R h
      cases R with
      | nil => simp
      | cons b R => simp [← ih R (by simpa using h)]
  unfold quadTerms
  induction coeff generalizing L with
  | nil =>
    have : L = [] := List.eq_nil_of_length_eq_zero h1.symm
    simp [this]
  | cons q Q ih =>
    cases L with
    | nil => simp at h1
    | cons a L =>
      simp only [List.zipWith_cons_cons, List.flatten_cons, List.map_append, List.flatMap_cons]
      rw [row a q R (h2 q (by simp)), ih L (by simpa using h1) fun r hr => h2 r (by simp [hr])]

theorem quadFlat_pairs (qc : List (Mat K)) (qv : List (List ℕ × List ℕ)) (h0 : qc.length = qv.length)
    (h : ∀ t ∈ qc.zip qv, t.1.length = t.2.1.length ∧ ∀ row ∈ t.1, row.length = t.2.2.length) :
    (List.zipWith (fun c v => quadTerms c v.1 v.2) qc qv).flatten.map Prod.snd = quadPairs qv := by
  induction qc generalizing qv with
  | nil =>
    have : qv = [] := List.eq_nil_of_length_eq_zero h0.symm
    simp [this, quadPairs]
  | cons c qc ih =>
    cases qv with
    | nil => simp at h0
    | cons x qv =>
      have hx := h (c, x) (by simp)
      simp only [List.zipWith_cons_cons, List.flatten_cons, List.map_append, quadPairs, List.flatMap_cons]
      rw [quadTerms_pairs c x.1 x.2 hx.1 hx.2, ih qv (by simpa using h0) fun t ht => h t (by simp [ht])]
      rfl

/-- **C83**, acceptance of the quadratic terms: with terms of the right shapes over variables of the program,
and linear terms in which no variable occurs twice, `setObjective` returns if and only if no two entries
of the quadratic terms fall on the same coefficient: the same ordered pair, or the same pair in either order
if one variable is continuous and the other binary. -/
theorem C83_accepts (m : Mip K) (hw : m.WF) (qc : List (Mat K)) (qv : List (List ℕ × List ℕ)) (lc : List (Vec K))
    (lv : List (List ℕ)) (const : K) (mx : Bool) (hl : lc.length = lv.length)
    (hlen : ∀ t ∈ lc.zip lv, t.2.length ≤ t.1.length) (hn : lv.flatten.Nodup) (hq : qc.length = qv.length)
    (hshape : ∀ t ∈ qc.zip qv, t.1.length = t.2.1.length ∧ ∀ row ∈ t.1, row.length = t.2.2.length)
    (hin : ∀ t ∈ qv, (∀ i ∈ t.1, i < m.n) ∧ ∀ i ∈ t.2, i < m.n) :
    (m.setQuadObjective qc qv lc lv const mx).isSome ↔ (quadPairs qv).Pairwise fun p q => ¬ Collide m p q := by
  obtain ⟨m', hm⟩ := C63_setObjective_accepts m hw lc lv const mx hl hlen hn
  obtain ⟨-, cr, cz, ho, -⟩ := setObjective_inv hm
  have hlt : ∀ p ∈ quadPairs qv, p.1 < m.n ∧ p.2 < m.n := by
    intro p hp
    simp only [quadPairs, List.mem_flatMap, List.mem_map] at hp
    obtain ⟨t, ht, a, ha, b, hb, rfl⟩ := hp
    exact ⟨(hin t ht).1 a ha, (hin t ht).2 b hb⟩
  have key : (quadLoop m.rIdx m.zIdx (List.zipWith (fun c v => quadTerms c v.1 v.2) qc qv).flatten [] [] []
      (zerosM m.r.length m.r.length) (zerosM m.zeta.length m.zeta.length)
      (zerosM m.r.length m.zeta.length)).isSome ↔ (quadPairs qv).Pairwise fun p q => ¬ Collide m p q := by
    rw [quadLoop_isSome]
    have e : ((List.zipWith (fun c v => quadTerms c v.1 v.2) qc qv).flatten.map fun t => posOf m t.2.1 t.2.2) =
        (quadPairs qv).map fun p => posOf m p.1 p.2 := by
      rw [← quadFlat_pairs qc qv hq hshape, List.map_map]
      rfl
    have hu : ∀ t ∈ (List.zipWith (fun c v => quadTerms c v.1 v.2) qc qv).flatten,
        ¬ UsedPos [] [] [] (posOf m t.2.1 t.2.2) := by
      intro t ht
      have : t.2 ∈ quadPairs qv := by
        rw [← quadFlat_pairs qc qv hq hshape]
        exact List.mem_map_of_mem ht
      obtain ⟨h1, h2⟩ := hlt _ this
      rcases posOf_cases hw h1 h2 with ⟨i, j, hi, hj, e⟩ | ⟨i, j, hi, hj, e⟩ | ⟨i, j, hi, hj, e⟩ | ⟨i, j, hi, hj, e⟩ <;>
        rw [e] <;> simp [UsedPos]
    rw [e, List.Nodup, List.pairwise_map]
    constructor
    · rintro ⟨h, -⟩
      refine h.imp_of_mem fun hp hq' hne hc => hne ?_
      exact (posOf_inj hw (hlt _ hp).1 (hlt _ hp).2 (hlt _ hq').1 (hlt _ hq').2).2 hc
    · intro h
      refine ⟨h.imp_of_mem fun hp hq' hne hc => hne ?_, hu⟩
      exact (posOf_inj hw (hlt _ hp).1 (hlt _ hp).2 (hlt _ hq').1 (hlt _ hq').2).1 hc
  rw [← key]
  unfold Mip.setQuadObjective
  rw [if_pos ⟨hl, hq, hlen, hshape⟩, ho]
  cases quadLoop m.rIdx m.zIdx (List.zipWith (fun c v => quadTerms c v.1 v.2) qc qv).flatten [] [] []
      (zerosM m.r.length m.r.length) (zerosM m.zeta.length m.zeta.length)
      (zerosM m.r.length m.zeta.length) <;> simp

theorem posOf_unknown {m : Mip K} (hw : m.WF) {a b : ℕ} (h : m.n ≤ a ∨ m.n ≤ b) : posOf m a b = none := by
  have hr : ∀ x, m.n ≤ x → m.r.zipIdx.lookup x = none ∧ m.zeta.zipIdx.lookup x = none := by
    intro x hx
    have : x ∉ m.r ++ m.zeta := fun h => by have := (hw.cover x).1 h; omega
    rw [List.mem_append, not_or] at this
    exact ⟨lookup_zipIdx_none.2 this.1, lookup_zipIdx_none.2 this.2⟩
  unfold posOf
  rw [hw.ridx, hw.zidx]
  rcases h with h | h
  · obtain ⟨h1, h2⟩ := hr a h
    simp [h1, h2, mixedIdx]
  · obtain ⟨h1, h2⟩ := hr b h
    rw [h1, h2]
    cases m.r.zipIdx.lookup a <;> cases m.zeta.zipIdx.lookup a <;> simp [mixedIdx]

/-- **C83**. A quadratic term with a variable of another program raises (unlike a linear term, which is
ignored). -/
theorem C83_unknown (m : Mip K) (hw : m.WF) (qc : List (Mat K)) (qv : List (List ℕ × List ℕ)) (lc : List (Vec K))
    (lv : List (List ℕ)) (const : K) (mx : Bool) (h : ∃ p ∈ quadPairs qv, m.n ≤ p.1 ∨ m.n ≤ p.2) :
    m.setQuadObjective qc qv lc lv const mx = none := by
  cases e : m.setQuadObjective qc qv lc lv const mx with
  | none => rfl
  | some o =>
    exfalso
    obtain ⟨-, h2, -, h4, -, h6, -⟩ := setQuadObjective_inv e
    have := (quadLoop_isSome (m := m) _ _ _ _ _ _ _).1 (Option.isSome_iff_exists.2 ⟨_, h6⟩)
    obtain ⟨p, hp, hlt⟩ := h
    rw [← quadFlat_pairs qc qv h2 h4, List.mem_map] at hp
    obtain ⟨t, ht, rfl⟩ := hp
    refine this.2 t ht ?_
    rw [posOf_unknown hw hlt]
    trivial

/-! ### C84: recomputing the objective -/

/-- The first block row of the system of the code: `(2 Q + ε I) r + Aᵀ λ = -c`. -/
theorem kkt_matVec (n : ℕ) (Q A : Mat K) (eps : K) (r lam : Vec K) (hQ : Q.length = n) (hc : HasCols Q n)
    (hA : HasCols A n) (hr : r.length = n) (hl : lam.length = A.length) :
    matVec (kktMatrix n Q A eps) (r ++ lam) =
      vadd (vadd (vsmul 2 (matVec Q r)) (vsmul eps r)) (matVec (transposeM n A) lam) ++
        vadd (matVec A r) (vsmul eps lam) := by
  have tE : (transp n A : Mat K) = transposeM n A := rfl
  unfold kktMatrix
  rw [tE, matVec, List.map_append, List.map_map, List.map_map]
  congr 1
  · refine vec_ext (by simp [hQ, hr, length_transposeM]) fun i hi => ?_
    have hi' : i < n := by simpa using hi
    have hq : (Q.getD i []).length = n := hc _ (by simp [List.getD, hQ, hi'])
    rw [getD_range_map _ _ _ hi', Function.comp_apply, dot_append _ _ _ _
        (by rw [length_vadd, length_vsmul, length_vsmul, length_eyeRow, hq, hr, min_self]),
      dot_vadd_left _ _ _ (by rw [length_vsmul, length_vsmul, length_eyeRow, hq]), dot_vsmul_left, dot_vsmul_left, dot_eyeRow _ _ _ hi',
      getD_vadd _ _ _ (by simp [hQ, hr, length_transposeM]), getD_vadd _ _ _ (by simp [hQ, hr]), getD_matVec]
    rw [Model.getD_vsmul, Model.getD_vsmul, getD_matVec]
  · refine vec_ext (by simp [hl]) fun i hi => ?_
    have hi' : i < A.length := by simpa using hi
    have hq : (A.getD i []).length = n := hA _ (by simp [List.getD, hi'])
    rw [getD_range_map _ _ _ hi', Function.comp_apply, dot_append _ _ _ _ (by rw [hq, hr]),
      dot_vsmul_left, dot_eyeRow _ _ _ hi', getD_vadd _ _ _ (by simp [hl]), getD_matVec]
    rw [Model.getD_vsmul]

/-- The shapes of the objective data of a program, as `setObjective` leaves them. -/
structure ObjShape (m : Mip K) (o : MiqpObj K) : Prop where
  lenR : o.Q_r.length = m.r.length
  colsR : HasCols o.Q_r m.r.length
  lenC : o.c_r.length = m.r.length

/-- `inv M` solves the linear equations with the matrix `M` of the code. -/
def Inverts (N : Mat K) (M : Mat K) (k : ℕ) : Prop :=
  ∀ y : Vec K, y.length = k → (matVec N y).length = k ∧ matVec M (matVec N y) = y

theorem active_cols (m : Mip K) (active : List ℕ) (zeta : Vec K) :
    HasCols (m.activeConstraints active zeta).1 m.r.length := by
  intro row hrow
  simp only [Mip.activeConstraints, List.mem_append, List.mem_map] at hrow
  rcases hrow with ⟨i, -, rfl⟩ | ⟨i, -, rfl⟩ <;> simp [denseRow]

theorem active_len (m : Mip K) (active : List ℕ) (zeta : Vec K) :
    (m.activeConstraints active zeta).2.length = (m.activeConstraints active zeta).1.length := by
  simp [Mip.activeConstraints]

/-- The solution of the linear equations, split into `r` and `λ`. -/
theorem kkt_solution (m : Mip K) (o : MiqpObj K) (hs : ObjShape m o) (inv : Mat K → Mat K) (eps : K) (active : List ℕ)
    (zeta : Vec K)
    (hinv : Inverts (inv (kktMatrix m.r.length o.Q_r (m.activeConstraints active zeta).1 eps))
      (kktMatrix m.r.length o.Q_r (m.activeConstraints active zeta).1 eps)
      (m.r.length + (m.activeConstraints active zeta).1.length)) :
    ∃ r lam : Vec K, r.length = m.r.length ∧ lam.length = (m.activeConstraints active zeta).1.length ∧
      m.quadFromData o inv eps active zeta = o.value r zeta ∧
      vadd (vadd (vsmul 2 (matVec o.Q_r r)) (vsmul eps r))
        (matVec (transposeM m.r.length (m.activeConstraints active zeta).1) lam) = vneg o.c_r ∧
      vadd (matVec (m.activeConstraints active zeta).1 r) (vsmul eps lam) = (m.activeConstraints active zeta).2 := by
  obtain ⟨h1, h2⟩ := hinv (vneg o.c_r ++ (m.activeConstraints active zeta).2) (by
    rw [List.length_append, length_vneg, hs.lenC, active_len])
  set pd := matVec (inv (kktMatrix m.r.length o.Q_r (m.activeConstraints active zeta).1 eps))
    (vneg o.c_r ++ (m.activeConstraints active zeta).2) with hpd
  have hr : (pd.take m.r.length).length = m.r.length := by rw [List.length_take]; omega
  have hl : (pd.drop m.r.length).length = (m.activeConstraints active zeta).1.length := by rw [List.length_drop]; omega
  refine ⟨pd.take m.r.length, pd.drop m.r.length, hr, hl, rfl, ?_⟩
  have e := kkt_matVec m.r.length o.Q_r (m.activeConstraints active zeta).1 eps (pd.take m.r.length)
    (pd.drop m.r.length) hs.lenR hs.colsR (active_cols m active zeta) hr hl
  rw [List.take_append_drop, h2] at e
  have := List.append_inj e (by simp [hs.lenC, hs.lenR, length_transposeM]; omega)
  exact ⟨this.1.symm, this.2.symm⟩

/-- `dot` of the two sides of `2 Q r + ε r + Aᵀ λ = -c` with `x`. -/
theorem kkt_dot {n : ℕ} {Q A : Mat K} {eps : K} {r lam c : Vec K} (hQ : Q.length = n) (hA : HasCols A n)
    (hr : r.length = n)
    (h : vadd (vadd (vsmul 2 (matVec Q r)) (vsmul eps r)) (matVec (transposeM n A) lam) = vneg c) (x : Vec K) :
    2 * dot x (matVec Q r) + eps * dot x r + dot lam (matVec A x) = - dot c x := by
  have e := congrArg (fun w => dot w x) h
  rw [dot_vadd_left _ _ _ (by simp [hQ, hr, length_transposeM]), dot_vadd_left _ _ _ (by simp [hQ, hr]),
    dot_vsmul_left, dot_vsmul_left, ← dot_transpose n A hA, dot_vneg_left, dot_comm _ x, dot_comm _ x] at e
  exact e

/-- **C84** (partial: `penalty = 0`, `Q_r` symmetric and no product of a continuous variable and `zeta`; see
`C84_cross_terms`, `C84_asymmetric`, `C84_penalty_error` for the other cases). If the matrix of the code is
inverted, the recomputed objective is the objective at a point `r` where the active rows hold with equality,
and any other such point `r'` differs in the objective by the quadratic form of `r' - r`. -/
theorem C84_recomputed_partial (m : Mip K) (ht : m.TWF) (o : MiqpObj K) (hs : ObjShape m o)
    (hsym : ∀ x y : Vec K, x.length = m.r.length → y.length = m.r.length →
      dot x (matVec o.Q_r y) = dot y (matVec o.Q_r x))
    (inv : Mat K → Mat K) (active : List ℕ) (zeta : Vec K) (hz : zeta.length = m.zeta.length)
    (hcross : ∀ x, dot x (matVec o.Q_rzeta zeta) = 0)
    (hinv : Inverts (inv (kktMatrix m.r.length o.Q_r (m.activeConstraints active zeta).1 0))
      (kktMatrix m.r.length o.Q_r (m.activeConstraints active zeta).1 0)
      (m.r.length + (m.activeConstraints active zeta).1.length)) :
    ∃ r : Vec K, r.length = m.r.length ∧
      (∀ i, i < m.rhsEq.length → tripRow m.aeqR i r + tripRow m.aeqZ i zeta = m.rhsEq.getD i 0) ∧
      (∀ i ∈ active, tripRow m.ainR i r + tripRow m.ainZ i zeta = m.rhsIn.getD i 0) ∧
      m.quadFromData o inv 0 active zeta = o.value r zeta ∧
      ∀ r' : Vec K, r'.length = m.r.length →
        (∀ i, i < m.rhsEq.length → tripRow m.aeqR i r' + tripRow m.aeqZ i zeta = m.rhsEq.getD i 0) →
        (∀ i ∈ active, tripRow m.ainR i r' + tripRow m.ainZ i zeta = m.rhsIn.getD i 0) →
        o.value r' zeta - o.value r zeta = dot (vsub r' r) (matVec o.Q_r (vsub r' r)) := by
  obtain ⟨r, lam, hr, hl, hv, e1, e2⟩ := kkt_solution m o hs inv 0 active zeta hinv
  have hA : matVec (m.activeConstraints active zeta).1 r = (m.activeConstraints active zeta).2 := by
    rw [← e2]
    refine vec_ext (by simp [hl]) fun i hi => ?_
    rw [Model.getD_vadd _ _ _ (by simp [hl]), Model.getD_vsmul]
    ring
  obtain ⟨g1, g2⟩ := (C30_active_constraints m ht active r zeta hr hz).1 hA
  refine ⟨r, hr, g1, g2, hv, fun r' hr' q1 q2 => ?_⟩
  have hA' := (C30_active_constraints m ht active r' zeta hr' hz).2 ⟨q1, q2⟩
  have k1 := kkt_dot hs.lenR (active_cols m active zeta) hr e1 r
  have k2 := kkt_dot hs.lenR (active_cols m active zeta) hr e1 r'
  rw [hA] at k1
  rw [hA'] at k2
  have hd : dot (vsub r' r) (matVec o.Q_r (vsub r' r)) =
      dot r' (matVec o.Q_r r') - 2 * dot r' (matVec o.Q_r r) + dot r (matVec o.Q_r r) := by
    have e3 : ∀ x : Vec K, x.length = m.r.length → dot x (matVec o.Q_r (vsub r' r)) =
        dot x (matVec o.Q_r r') - dot x (matVec o.Q_r r) := by
      intro x hx
      rw [hsym x _ hx (by simp [hr, hr']), dot_vsub_left _ _ _ (by rw [hr, hr']), hsym r' x hr' hx, hsym r x hr hx]
    rw [dot_vsub_left _ _ _ (by rw [hr, hr']), e3 r' hr', e3 r hr, hsym r r' hr hr']
    ring
  rw [hd]
  unfold MiqpObj.value
  rw [hcross, hcross]
  linear_combination k2 - k1

/-- **C84**, convex minimisation: with `Q_r` positive semidefinite in addition, the recomputed objective is the
least objective over the points where the active rows hold with equality. -/
theorem C84_minimum_partial (m : Mip K) (ht : m.TWF) (o : MiqpObj K) (hs : ObjShape m o)
    (hsym : ∀ x y : Vec K, x.length = m.r.length → y.length = m.r.length →
      dot x (matVec o.Q_r y) = dot y (matVec o.Q_r x))
    (hpsd : ∀ x : Vec K, x.length = m.r.length → 0 ≤ dot x (matVec o.Q_r x))
    (inv : Mat K → Mat K) (active : List ℕ) (zeta : Vec K) (hz : zeta.length = m.zeta.length)
    (hcross : ∀ x, dot x (matVec o.Q_rzeta zeta) = 0)
    (hinv : Inverts (inv (kktMatrix m.r.length o.Q_r (m.activeConstraints active zeta).1 0))
      (kktMatrix m.r.length o.Q_r (m.activeConstraints active zeta).1 0)
      (m.r.length + (m.activeConstraints active zeta).1.length)) :
    IsLeast {f | ∃ r : Vec K, r.length = m.r.length ∧
      (∀ i, i < m.rhsEq.length → tripRow m.aeqR i r + tripRow m.aeqZ i zeta = m.rhsEq.getD i 0) ∧
      (∀ i ∈ active, tripRow m.ainR i r + tripRow m.ainZ i zeta = m.rhsIn.getD i 0) ∧ o.value r zeta = f}
      (m.quadFromData o inv 0 active zeta) := by
  obtain ⟨r, h1, h2, h3, h4, h5⟩ := C84_recomputed_partial m ht o hs hsym inv active zeta hz hcross hinv
  refine ⟨⟨r, h1, h2, h3, h4.symm⟩, ?_⟩
  rintro _ ⟨r', q1, q2, q3, rfl⟩
  have := h5 r' q1 q2 q3
  have hp := hpsd (vsub r' r) (by simp [h1, q1])
  rw [h4]
  linarith

/-- **C84**, the effect of a penalty `ε`: the recomputed objective differs from the objective at a KKT point
`(r*, λ*)` of the problem with the active rows by exactly
`ε/2 (|λ|² + λ*·λ - |r|² + r*·r)`, where `(r, λ)` solves the penalised equations. -/
theorem C84_penalty_error (m : Mip K) (o : MiqpObj K) (hs : ObjShape m o)
    (hsym : ∀ x y : Vec K, x.length = m.r.length → y.length = m.r.length →
      dot x (matVec o.Q_r y) = dot y (matVec o.Q_r x))
    (inv : Mat K → Mat K) (eps : K) (active : List ℕ) (zeta : Vec K)
    (hcross : ∀ x, dot x (matVec o.Q_rzeta zeta) = 0)
    (hinv : Inverts (inv (kktMatrix m.r.length o.Q_r (m.activeConstraints active zeta).1 eps))
      (kktMatrix m.r.length o.Q_r (m.activeConstraints active zeta).1 eps)
      (m.r.length + (m.activeConstraints active zeta).1.length))
    (rs ls : Vec K) (hrs : rs.length = m.r.length) (_hls : ls.length = (m.activeConstraints active zeta).1.length)
    (hstat : ∀ x : Vec K, x.length = m.r.length →
      2 * dot x (matVec o.Q_r rs) + dot ls (matVec (m.activeConstraints active zeta).1 x) = - dot o.c_r x)
    (hfeas : matVec (m.activeConstraints active zeta).1 rs = (m.activeConstraints active zeta).2) :
    ∃ r lam : Vec K, r.length = m.r.length ∧ lam.length = (m.activeConstraints active zeta).1.length ∧
      (∀ x : Vec K, x.length = m.r.length → 2 * dot x (matVec o.Q_r r) + eps * dot x r +
        dot lam (matVec (m.activeConstraints active zeta).1 x) = - dot o.c_r x) ∧
      vadd (matVec (m.activeConstraints active zeta).1 r) (vsmul eps lam) = (m.activeConstraints active zeta).2 ∧
      m.quadFromData o inv eps active zeta = o.value r zeta ∧
      m.quadFromData o inv eps active zeta - o.value rs zeta =
        eps / 2 * (dot lam lam + dot ls lam - dot r r + dot rs r) := by
  obtain ⟨r, lam, hr, hl, hv, e1, e2⟩ := kkt_solution m o hs inv eps active zeta hinv
  have hst := kkt_dot hs.lenR (active_cols m active zeta) hr e1
  refine ⟨r, lam, hr, hl, fun x _ => hst x, e2, hv, ?_⟩
  set A := (m.activeConstraints active zeta).1
  have hb : ∀ y : Vec K, dot y (matVec A rs) = dot y (matVec A r) + eps * dot y lam := by
    intro y
    rw [hfeas, ← e2, dot_vadd_right _ _ _ (by simp [hl]), dot_vsmul_right]
  have k1 := hst r
  have k2 := hst rs
  have k3 := hstat r hr
  have k4 := hstat rs hrs
  rw [hb] at k2 k4
  have hs2 := hsym r rs hr hrs
  rw [hv]
  unfold MiqpObj.value
  rw [hcross, hcross]
  linear_combination (1/2 : K) * k1 - (1/2 : K) * k2 + (1/2 : K) * k3 - (1/2 : K) * k4 - hs2

/-- **C84**. Whatever the data, a value is returned only if it is within `objective_tol` of the objective that
Gurobi reports; otherwise the call raises. -/
theorem C84_guard (m : Mip K) (o : MiqpObj K) (inv : Mat K → Mat K) (penalty : K) (r zeta : Vec K)
    (pool tol objTol val : K) (h : m.quadAndSolution o inv penalty r zeta pool tol objTol = some val) :
    |val - pool| ≤ objTol ∧ ∃ active, val = m.quadFromData o inv penalty active zeta := by
  rw [Mip.quadAndSolution, C30_retry_returns] at h
  obtain ⟨k, -, hk, hle, -⟩ := h
  exact ⟨hle, _, hk⟩

/-! ### Counterexamples and examples -/

/-- One free continuous variable 0 and one binary variable 1. -/
def exMiqp : Mip ℚ :=
  (((Mip.empty : Mip ℚ).addVars 1 [none] [none] .continuous).get rfl).1.addVars 1 [some 0] [some 1] .binary |>.get rfl |>.1

/-- Two free continuous variables. -/
def exMiqp2 : Mip ℚ := ((Mip.empty : Mip ℚ).addVars 2 [none, none] [none, none] .continuous).get rfl |>.1

/-- **C84** fails for products of a continuous variable and a binary variable: for `min r² - 2 r ζ` and `ζ = 1` the
optimum is `-1` (at `r = 1`), the recomputed objective is `0`, and recomputation at the solution raises. -/
theorem C84_cross_terms :
    ∃ o : MiqpObj ℚ, exMiqp.setQuadObjective [[[1]], [[-2]]] [([0], [0]), ([0], [1])] [] [] 0 false = some o ∧
      Inverts [[1/2]] (kktMatrix 1 o.Q_r (exMiqp.activeConstraints [] [1]).1 0) 1 ∧
      o.value [1] [1] = -1 ∧ (∀ x : ℚ, -1 ≤ o.value [x] [1]) ∧
      exMiqp.quadFromData o (fun _ => [[1/2]]) 0 [] [1] = 0 ∧
      exMiqp.quadAndSolution o (fun _ => [[1/2]]) 0 [1] [1] (-1) (1/1000000) (1/1000) = none := by
  refine ⟨⟨[[1]], [[0]], [[-2]], [0], [0], 0, false⟩, by decide +kernel, ?_, by decide +kernel, ?_, by decide +kernel,
    by decide +kernel⟩
  · have e : kktMatrix 1 [[1]] (exMiqp.activeConstraints [] [1]).1 0 = [[2]] := by decide +kernel
    rw [e]
    intro y hy
    obtain ⟨a, rfl⟩ := List.length_eq_one_iff.1 hy
    simp [matVec]
  · intro x
    simp [MiqpObj.value, matVec]
    nlinarith [sq_nonneg (x - 1)]

/-- **C84** fails for a matrix `Q_r` that is not symmetric: for `min r₀² + r₀ r₁ + r₁² - r₀ - r₁` the optimum is
`-1/3` (at `(1/3, 1/3)`), the recomputed objective is `-1/4`. -/
theorem C84_asymmetric :
    ∃ o : MiqpObj ℚ, exMiqp2.setQuadObjective [[[1, 1], [0, 1]]] [([0, 1], [0, 1])] [[-1, -1]] [[0, 1]] 0 false = some o ∧
      Inverts [[1/2, -1/2], [0, 1/2]] (kktMatrix 2 o.Q_r (exMiqp2.activeConstraints [] []).1 0) 2 ∧
      o.value [1/3, 1/3] [] = -1/3 ∧ (∀ x y : ℚ, -1/3 ≤ o.value [x, y] []) ∧
      exMiqp2.quadFromData o (fun _ => [[1/2, -1/2], [0, 1/2]]) 0 [] [] = -1/4 ∧
      exMiqp2.quadAndSolution o (fun _ => [[1/2, -1/2], [0, 1/2]]) 0 [1/3, 1/3] [] (-1/3) (1/1000000) (1/1000) = none := by
  refine ⟨⟨[[1, 1], [0, 1]], [], [[], []], [-1, -1], [], 0, false⟩, by decide +kernel, ?_, by decide +kernel, ?_,
    by decide +kernel, by decide +kernel⟩
  · have e : kktMatrix 2 [[1, 1], [0, 1]] (exMiqp2.activeConstraints [] []).1 0 = [[2, 2], [0, 2]] := by decide +kernel
    rw [e]
    intro y hy
    match y, hy with
    | [a, b], _ => simp [matVec]; ring
  · intro x y
    simp [MiqpObj.value, matVec]
    nlinarith [sq_nonneg (x - y), sq_nonneg (x + y - 2/3)]

/-- The same objective with a symmetric matrix: the optimum is recomputed. -/
def exSym : MiqpObj ℚ := ⟨[[1, 1/2], [1/2, 1]], [], [[], []], [-1, -1], [], 0, false⟩

theorem exSym_psd (x : Vec ℚ) (hx : x.length = 2) : 0 ≤ dot x (matVec exSym.Q_r x) := by
  match x, hx with
  | [a, b], _ =>
    simp [exSym, matVec]
    nlinarith [sq_nonneg (a + b), sq_nonneg a, sq_nonneg b]

theorem exSym_sym (x y : Vec ℚ) (hx : x.length = 2) (hy : y.length = 2) :
    dot x (matVec exSym.Q_r y) = dot y (matVec exSym.Q_r x) := by
  match x, hx, y, hy with
  | [a, b], _, [c, d], _ => simp [exSym, matVec]; ring

theorem exSym_inv : Inverts [[2/3, -1/3], [-1/3, 2/3]] (kktMatrix 2 exSym.Q_r (exMiqp2.activeConstraints [] []).1 0) 2 := by
  have e : kktMatrix 2 exSym.Q_r (exMiqp2.activeConstraints [] []).1 0 = [[2, 1], [1, 2]] := by decide +kernel
  rw [e]
  intro y hy
  match y, hy with
  | [a, b], _ => simp [matVec]; constructor <;> ring

theorem exMiqp2_twf : exMiqp2.TWF := by
  constructor <;> simp [exMiqp2, Mip.addVars, Mip.empty, boundRows, selLb, selUb, selFix]

example : exMiqp2.setQuadObjective [[[1, 1/2], [1/2, 1]]] [([0, 1], [0, 1])] [[-1, -1]] [[0, 1]] 0 false = some exSym := by
  decide +kernel

example := C84_minimum_partial exMiqp2 exMiqp2_twf exSym ⟨rfl, by simp [HasCols, exSym, exMiqp2, Mip.addVars, Mip.empty], rfl⟩
  exSym_sym exSym_psd (fun _ => [[2/3, -1/3], [-1/3, 2/3]]) [] [] rfl (by intro x; rcases x with _ | ⟨a, _ | ⟨b, x⟩⟩ <;> simp [exSym, matVec])
  exSym_inv

example : exMiqp2.quadFromData exSym (fun _ => [[2/3, -1/3], [-1/3, 2/3]]) 0 [] [] = -1/3 := by decide +kernel

theorem exSym_inv1 :
    Inverts [[3/8, -1/8], [-1/8, 3/8]] (kktMatrix 2 exSym.Q_r (exMiqp2.activeConstraints [] []).1 1) 2 := by
  have e : kktMatrix 2 exSym.Q_r (exMiqp2.activeConstraints [] []).1 1 = [[3, 1], [1, 3]] := by decide +kernel
  rw [e]
  intro y hy
  match y, hy with
  | [a, b], _ => simp [matVec]; constructor <;> ring

/-- A penalty of 1. -/
example := C84_penalty_error exMiqp2 exSym ⟨rfl, by simp [HasCols, exSym, exMiqp2, Mip.addVars, Mip.empty], rfl⟩ exSym_sym
  (fun _ => [[3/8, -1/8], [-1/8, 3/8]]) 1 [] [] (by intro x; rcases x with _ | ⟨a, _ | ⟨b, x⟩⟩ <;> simp [exSym, matVec])
  exSym_inv1 [1/3, 1/3] [] rfl rfl (by
    intro x hx
    match x, hx with
    | [a, b], _ =>
      simp [exSym, matVec]
      ring) rfl

example := C84_guard exMiqp2 exSym (fun _ => [[2/3, -1/3], [-1/3, 2/3]]) 0 [1/3, 1/3] [] (-1/3) (1/1000000) (1/1000) (-1/3)
  (by decide +kernel)

/-- Mixed terms in either order and a product of binary variables. -/
theorem exMixed : exMiqp.setQuadObjective [[[1, 3]], [[5]]] [([0], [0, 1]), ([1], [1])] [[7]] [[1]] 2 true =
    some ⟨[[1]], [[5]], [[3]], [0], [7], 2, true⟩ := by decide +kernel

/-- The products `r ζ` and `ζ r` fall on the same coefficient: a square matrix over both variables raises. -/
example : exMiqp.setQuadObjective [[[1, 3], [0, 5]]] [([0, 1], [0, 1])] [] [] 2 true = none := by decide +kernel

theorem exMiqp_wf : exMiqp.WF := by
  constructor <;> simp [exMiqp, Mip.addVars, Mip.empty, Mip.n, newGVar, boundRows, selLb, selUb, selFix]
  intro i
  omega

example := C83_setObjective exMiqp exMiqp_wf _ _ _ _ _ _ _ (by
  intro x hx i hi
  simp at hx
  subst hx
  simp at hi
  subst hi
  decide) exMixed

example := C83_accepts exMiqp exMiqp_wf [[[1, 3]], [[5]]] [([0], [0, 1]), ([1], [1])] [[7]] [[1]] 2 true rfl (by simp) (by simp)
  rfl (by simp) (by
    have : exMiqp.n = 2 := by decide
    simp [this])

example := C83_unknown exMiqp exMiqp_wf [[[1]]] [([0], [2])] [] [] 2 true ⟨(0, 2), by simp [quadPairs], Or.inr (by decide)⟩

end NNL.Props
