import Verif.Lemmas.Mip

/-! Helper lemmas about `GurobiTorchMIP`: the torch data kept next to the Gurobi model. -/

set_option linter.unusedSectionVars false

namespace NNL.Model

open NNL

variable {K : Type*} [Field K] [LinearOrder K]

theorem tripRow_append (a b : List (Trip K)) (i : ℕ) (x : Vec K) :
    tripRow (a ++ b) i x = tripRow a i x + tripRow b i x := by
  simp [tripRow]

theorem tripRow_zero {a : List (Trip K)} {i : ℕ} (x : Vec K) (h : ∀ t ∈ a, t.row ≠ i) :
    tripRow a i x = 0 := by
  unfold tripRow
  rw [List.filter_eq_nil_iff.2]
  · simp
  · intro t ht; simpa using h t ht

@[simp] theorem tripRow_nil (i : ℕ) (x : Vec K) : tripRow ([] : List (Trip K)) i x = 0 := by
  simp [tripRow]

theorem tripRow_cons (t : Trip K) (a : List (Trip K)) (i : ℕ) (x : Vec K) :
    tripRow (t :: a) i x = (if t.row = i then t.val * x.getD t.col 0 else 0) + tripRow a i x := by
  unfold tripRow
  rw [List.filter_cons]
  by_cases h : t.row = i <;> simp [h]

theorem tripRow_ext {a : List (Trip K)} {n : ℕ} (i : ℕ) (x e : Vec K) (hn : x.length = n)
    (h : ∀ t ∈ a, t.col < n) : tripRow a i (x ++ e) = tripRow a i x := by
  induction a with
  | nil => simp
  | cons t a ih =>
    rw [tripRow_cons, tripRow_cons, ih fun u hu => h u (by simp [hu])]
    have ht := h t (by simp)
    rw [getD_append_lt _ _ _ _ (by omega)]

/-- A system of recorded rows. -/
def RowSys (R Z : List (Trip K)) (rhs : Vec K) (Rel : K → K → Prop) (xr xz : Vec K) : Prop :=
  ∀ i, i < rhs.length → Rel (tripRow R i xr + tripRow Z i xz) (rhs.getD i 0)

theorem torchRows_iff (m : Mip K) (v : ℕ → K) : m.TorchRows v ↔
    RowSys m.ainR m.ainZ m.rhsIn (· ≤ ·) (m.r.map v) (m.zeta.map v) ∧
    RowSys m.aeqR m.aeqZ m.rhsEq (· = ·) (m.r.map v) (m.zeta.map v) := Iff.rfl

theorem rowSys_append {R Z R' Z' : List (Trip K)} {rhs b : Vec K} {Rel : K → K → Prop} {xr xz : Vec K}
    (hR : ∀ t ∈ R, t.row < rhs.length) (hZ : ∀ t ∈ Z, t.row < rhs.length)
    (hR' : ∀ t ∈ R', rhs.length ≤ t.row) (hZ' : ∀ t ∈ Z', rhs.length ≤ t.row) :
    RowSys (R ++ R') (Z ++ Z') (rhs ++ b) Rel xr xz ↔ RowSys R Z rhs Rel xr xz ∧
      ∀ j, j < b.length →
        Rel (tripRow R' (rhs.length + j) xr + tripRow Z' (rhs.length + j) xz) (b.getD j 0) := by
  unfold RowSys
  rw [List.length_append, forall_lt_add]
  refine and_congr ?_ ?_
  · refine forall_congr' fun i => forall_congr' fun hi => ?_
    rw [getD_append_lt _ _ _ _ hi, tripRow_append, tripRow_append,
      tripRow_zero (a := R') xr fun t ht => by have := hR' t ht; omega,
      tripRow_zero (a := Z') xz fun t ht => by have := hZ' t ht; omega]
    simp
  · refine forall_congr' fun j => forall_congr' fun _ => ?_
    rw [getD_append_add, tripRow_append, tripRow_append,
      tripRow_zero (a := R) xr fun t ht => by have := hR t ht; omega,
      tripRow_zero (a := Z) xz fun t ht => by have := hZ t ht; omega]
    simp

theorem rowSys_ext {R Z : List (Trip K)} {rhs : Vec K} {Rel : K → K → Prop} {xr xz e e' : Vec K}
    (hR : ∀ t ∈ R, t.col < xr.length) (hZ : ∀ t ∈ Z, t.col < xz.length) :
    RowSys R Z rhs Rel (xr ++ e) (xz ++ e') ↔ RowSys R Z rhs Rel xr xz := by
  unfold RowSys
  refine forall_congr' fun i => forall_congr' fun _ => ?_
  rw [tripRow_ext i xr e rfl hR, tripRow_ext i xz e' rfl hZ]

/-- The triples point to existing rows and columns. -/
structure Mip.TWF (m : Mip K) : Prop where
  inR : ∀ t ∈ m.ainR, t.row < m.rhsIn.length ∧ t.col < m.r.length
  inZ : ∀ t ∈ m.ainZ, t.row < m.rhsIn.length ∧ t.col < m.zeta.length
  eqR : ∀ t ∈ m.aeqR, t.row < m.rhsEq.length ∧ t.col < m.r.length
  eqZ : ∀ t ∈ m.aeqZ, t.row < m.rhsEq.length ∧ t.col < m.zeta.length

theorem Mip.TWF.empty : (Mip.empty : Mip K).TWF := by
  constructor <;> simp [Mip.empty]

/-! ### addVars -/

theorem boundRows_spec (sel : Option K → Option K → Option (K × K)) (k : ℕ)
    (bs : List (Option K × Option K)) (rhs : Vec K) :
    ∃ b, (boundRows sel k bs rhs).2 = rhs ++ b ∧
      (∀ t ∈ (boundRows sel k bs rhs).1, rhs.length ≤ t.row ∧ t.row < rhs.length + b.length ∧
        t.col < k + bs.length) ∧
      ∀ (x : Vec K) (Rel : K → K → Prop),
        (∀ j, j < b.length →
          Rel (tripRow (boundRows sel k bs rhs).1 (rhs.length + j) x) (b.getD j 0)) ↔
        ∀ i, i < bs.length → ∀ c q, sel (bs.getD i (none, none)).1 (bs.getD i (none, none)).2 = some (c, q) →
          Rel (c * x.getD (k + i) 0) q := by
  induction bs generalizing k rhs with
  | nil => exact ⟨[], by simp [boundRows]⟩
  | cons p bs ih =>
    obtain ⟨lb, ub⟩ := p
    cases hs : sel lb ub with
    | none =>
      obtain ⟨b, h1, h2, h3⟩ := ih (k + 1) rhs
      have e : boundRows sel k ((lb, ub) :: bs) rhs = boundRows sel (k + 1) bs rhs := by
        simp [boundRows, hs]
      rw [e]
      refine ⟨b, h1, ?_, ?_⟩
      · intro t ht
        obtain ⟨a1, a2, a3⟩ := h2 t ht
        refine ⟨a1, a2, ?_⟩
        simp; omega
      · intro x Rel
        rw [h3]
        constructor
        · intro H i hi c q hq
          cases i with
          | zero => simp [hs] at hq
          | succ i =>
            have := H i (by simpa using hi) c q (by simpa using hq)
            rwa [show k + (i + 1) = k + 1 + i by omega]
        · intro H i hi c q hq
          have := H (i + 1) (by simpa using hi) c q (by simpa using hq)
          rwa [show k + 1 + i = k + (i + 1) by omega]
    | some cq =>
      obtain ⟨c0, q0⟩ := cq
      obtain ⟨b, h1, h2, h3⟩ := ih (k + 1) (rhs ++ [q0])
      have e : boundRows sel k ((lb, ub) :: bs) rhs =
          (⟨rhs.length, k, c0⟩ :: (boundRows sel (k + 1) bs (rhs ++ [q0])).1,
            (boundRows sel (k + 1) bs (rhs ++ [q0])).2) := by
        simp [boundRows, hs]
      rw [e]
      refine ⟨q0 :: b, by simp [h1], ?_, ?_⟩
      · intro t ht
        rcases List.mem_cons.1 ht with rfl | ht
        · simp
        · obtain ⟨a1, a2, a3⟩ := h2 t ht
          simp at a1 a2 ⊢
          omega
      · intro x Rel
        have hz : ∀ t ∈ (boundRows sel (k + 1) bs (rhs ++ [q0])).1, t.row ≠ rhs.length := by
          intro t ht
          have := (h2 t ht).1
          simp at this; omega
        have h3' := h3 x Rel
        simp only [List.length_append, List.length_singleton] at h3'
        have hl : (∀ j, j < (q0 :: b).length → Rel (tripRow
            (⟨rhs.length, k, c0⟩ :: (boundRows sel (k + 1) bs (rhs ++ [q0])).1) (rhs.length + j) x)
              ((q0 :: b).getD j 0)) ↔ Rel (c0 * x.getD k 0) q0 ∧
            ∀ j, j < b.length → Rel (tripRow (boundRows sel (k + 1) bs (rhs ++ [q0])).1
              (rhs.length + 1 + j) x) (b.getD j 0) := by
          constructor
          · intro H
            refine ⟨?_, ?_⟩
            · have := H 0 (by simp)
              rw [tripRow_cons] at this
              simpa [tripRow_zero x hz] using this
            · intro j hj
              have := H (j + 1) (by simpa using hj)
              rw [tripRow_cons, if_neg (by simp)] at this
              simpa [show rhs.length + (j + 1) = rhs.length + 1 + j by omega] using this
          · rintro ⟨H1, H2⟩ j hj
            rw [tripRow_cons]
            cases j with
            | zero => simpa [tripRow_zero x hz] using H1
            | succ j =>
              rw [if_neg (by simp)]
              simpa [show rhs.length + (j + 1) = rhs.length + 1 + j by omega] using
                H2 j (by simpa using hj)
        rw [hl, h3']
        constructor
        · rintro ⟨H1, H2⟩ i hi c q hq
          cases i with
          | zero =>
            simp [hs] at hq
            obtain ⟨rfl, rfl⟩ := hq
            simpa using H1
          | succ i =>
            have := H2 i (by simpa using hi) c q (by simpa using hq)
            rwa [show k + (i + 1) = k + 1 + i by omega]
        · intro H
          refine ⟨by simpa using H 0 (by simp) c0 q0 (by simpa using hs), ?_⟩
          intro i hi c q hq
          have := H (i + 1) (by simpa using hi) c q (by simpa using hq)
          rwa [show k + 1 + i = k + (i + 1) by omega]

/-- The rows recorded for a new continuous variable with value `x`. -/
def RecordedOk (lb ub : Option K) (x : K) : Prop :=
  (∀ c q, selLb lb ub = some (c, q) → c * x ≤ q) ∧ (∀ c q, selUb lb ub = some (c, q) → c * x ≤ q) ∧
    ∀ c q, selFix lb ub = some (c, q) → c * x = q

theorem zip_getD (lb ub : List (Option K)) (n i : ℕ) (h1 : lb.length = n) (h2 : ub.length = n)
    (hi : i < n) : (lb.zip ub).getD i (none, none) = (lb.getD i none, ub.getD i none) := by
  subst h1
  simp [List.getD, h2, hi]

theorem addVars_torch {m m' : Mip K} {num : ℕ} {lb ub : List (Option K)} {vt : VType} {ids : List ℕ}
    (h : m.addVars num lb ub vt = some (m', ids)) (hw : m.WF) (ht : m.TWF) :
    m'.TWF ∧ ∀ v, m'.TorchRows v ↔ m.TorchRows v ∧ (vt = .continuous →
      ∀ k, k < num → RecordedOk (lb.getD k none) (ub.getD k none) (v (m.n + k))) := by
  obtain ⟨h1, h2, _, hids, _⟩ := addVars_inv h
  unfold Mip.addVars at h
  split_ifs at h with hl
  have hrl : m.rIdx.length = m.r.length := by rw [hw.ridx]; simp
  cases vt <;> simp at h
  · obtain ⟨rfl, rfl⟩ := h
    obtain ⟨b1, p1, q1, s1⟩ := boundRows_spec selLb m.rIdx.length (lb.zip ub) m.rhsIn
    obtain ⟨b2, p2, q2, s2⟩ := boundRows_spec selUb m.rIdx.length (lb.zip ub)
      (boundRows selLb m.rIdx.length (lb.zip ub) m.rhsIn).2
    obtain ⟨b3, p3, q3, s3⟩ := boundRows_spec selFix m.rIdx.length (lb.zip ub) m.rhsEq
    have hz : (lb.zip ub).length = num := by simp [h1, h2]
    rw [hz] at q1 q2 q3
    have hT : ∀ t ∈ (boundRows selLb m.rIdx.length (lb.zip ub) m.rhsIn).1, t.row < (m.rhsIn ++ b1).length := by
      intro t ht'; have := q1 t ht'; simp; omega
    have hlen1 : (boundRows selLb m.rIdx.length (lb.zip ub) m.rhsIn).2.length
        = m.rhsIn.length + b1.length := by rw [p1]; simp
    have hlen : (boundRows selUb m.rIdx.length (lb.zip ub)
        (boundRows selLb m.rIdx.length (lb.zip ub) m.rhsIn).2).2.length
        = m.rhsIn.length + b1.length + b2.length := by
      rw [p2, List.length_append, hlen1]
    constructor
    · refine ⟨?_, ?_, ?_, ?_⟩
      · intro t ht'
        simp only [hlen, List.length_append, List.length_range', List.mem_append] at ht' ⊢
        rcases ht' with h | h | h
        · have := ht.inR t h; omega
        · have := q1 t h; omega
        · have := q2 t h; rw [hlen1] at this; omega
      · intro t ht'
        have := ht.inZ t ht'
        simp only [hlen]
        omega
      · intro t ht'
        simp only [p3, List.length_append, List.length_range', List.mem_append] at ht' ⊢
        rcases ht' with h | h
        · have := ht.eqR t h; omega
        · have := q3 t h; omega
      · intro t ht'
        have := ht.eqZ t ht'
        simp only [p3, List.length_append]
        omega
    · intro v
      rw [torchRows_iff, torchRows_iff]
      simp only
      have hx : ∀ i, i < num → ((m.r ++ List.range' m.vars.length num).map v).getD (m.rIdx.length + i) 0
          = v (m.n + i) := by
        intro i hi
        rw [hrl, List.map_append]
        have := getD_append_add (m.r.map v) ((List.range' m.vars.length num).map v) i (0 : K)
        rw [List.length_map] at this
        rw [this, getD_map_range' v _ _ _ hi]; rfl
      have hsel : ∀ (sel : Option K → Option K → Option (K × K)) (Rel : K → K → Prop),
          (∀ i, i < (lb.zip ub).length → ∀ c q, sel ((lb.zip ub).getD i (none, none)).1
            ((lb.zip ub).getD i (none, none)).2 = some (c, q) →
            Rel (c * ((m.r ++ List.range' m.vars.length num).map v).getD (m.rIdx.length + i) 0) q) ↔
          ∀ i, i < num → ∀ c q, sel (lb.getD i none) (ub.getD i none) = some (c, q) →
            Rel (c * v (m.n + i)) q := by
        intro sel Rel
        rw [hz]
        refine forall_congr' fun i => forall_congr' fun hi => ?_
        rw [hx i hi, zip_getD lb ub num i h1 h2 hi]
      have e1 : RowSys (m.ainR ++ ((boundRows selLb m.rIdx.length (lb.zip ub) m.rhsIn).1 ++
            (boundRows selUb m.rIdx.length (lb.zip ub)
              (boundRows selLb m.rIdx.length (lb.zip ub) m.rhsIn).2).1)) (m.ainZ ++ [])
            (boundRows selUb m.rIdx.length (lb.zip ub)
              (boundRows selLb m.rIdx.length (lb.zip ub) m.rhsIn).2).2 (· ≤ ·)
            ((m.r ++ List.range' m.vars.length num).map v) (m.zeta.map v) ↔
          RowSys m.ainR m.ainZ m.rhsIn (· ≤ ·) (m.r.map v) (m.zeta.map v) ∧
          (∀ i, i < num → ∀ c q, selLb (lb.getD i none) (ub.getD i none) = some (c, q) →
            c * v (m.n + i) ≤ q) ∧
          (∀ i, i < num → ∀ c q, selUb (lb.getD i none) (ub.getD i none) = some (c, q) →
            c * v (m.n + i) ≤ q) := by
        rw [← hsel selLb (· ≤ ·), ← hsel selUb (· ≤ ·), ← s1, ← s2, ← List.append_assoc]
        rw [p2]
        rw [show m.ainZ ++ [] = (m.ainZ ++ []) ++ [] by simp]
        rw [rowSys_append, p1, rowSys_append, List.map_append, ← List.append_nil (m.zeta.map v),
          rowSys_ext, List.append_nil]
        · simp [and_assoc]
        · intro t h'; simpa using (ht.inR t h').2
        · intro t h'; simpa using (ht.inZ t h').2
        · exact fun t h' => (ht.inR t h').1
        · exact fun t h' => (ht.inZ t h').1
        · exact fun t h' => (q1 t h').1
        · simp
        · intro t h'
          rw [p1]
          rcases List.mem_append.1 h' with h' | h'
          · have := (ht.inR t h').1; simp; omega
          · exact hT t h'
        · intro t h'
          rw [p1]
          have := (ht.inZ t (by simpa using h')).1; simp; omega
        · exact fun t h' => (q2 t h').1
        · simp
      have e2 : RowSys (m.aeqR ++ (boundRows selFix m.rIdx.length (lb.zip ub) m.rhsEq).1) (m.aeqZ ++ [])
            (boundRows selFix m.rIdx.length (lb.zip ub) m.rhsEq).2 (· = ·)
            ((m.r ++ List.range' m.vars.length num).map v) (m.zeta.map v) ↔
          RowSys m.aeqR m.aeqZ m.rhsEq (· = ·) (m.r.map v) (m.zeta.map v) ∧
          (∀ i, i < num → ∀ c q, selFix (lb.getD i none) (ub.getD i none) = some (c, q) →
            c * v (m.n + i) = q) := by
        rw [← hsel selFix (· = ·), ← s3, p3]
        rw [rowSys_append, List.map_append, ← List.append_nil (m.zeta.map v),
          rowSys_ext, List.append_nil]
        · simp
        · intro t h'; simpa using (ht.eqR t h').2
        · intro t h'; simpa using (ht.eqZ t h').2
        · exact fun t h' => (ht.eqR t h').1
        · exact fun t h' => (ht.eqZ t h').1
        · exact fun t h' => (q3 t h').1
        · simp
      simp only [List.append_nil] at e1 e2
      rw [e1, e2]
      simp only [RecordedOk, true_implies]
      constructor
      · rintro ⟨⟨a1, a2, a3⟩, a4, a5⟩
        exact ⟨⟨a1, a4⟩, fun k hk => ⟨a2 k hk, a3 k hk, a5 k hk⟩⟩
      · rintro ⟨⟨a1, a4⟩, H⟩
        exact ⟨⟨a1, fun k hk => (H k hk).1, fun k hk => (H k hk).2.1⟩, a4, fun k hk => (H k hk).2.2⟩
  all_goals
    obtain ⟨rfl, rfl⟩ := h
    constructor
    · refine ⟨ht.inR, ?_, ht.eqR, ?_⟩
      · intro t ht'; have := ht.inZ t ht'; simp; omega
      · intro t ht'; have := ht.eqZ t ht'; simp; omega
    · intro v
      rw [torchRows_iff, torchRows_iff]
      simp only [List.map_append]
      rw [← List.append_nil (m.r.map v), rowSys_ext, rowSys_ext, List.append_nil]
      · simp
      · intro t h'; simpa using (ht.eqR t h').2
      · intro t h'; simpa using (ht.eqZ t h').2
      · intro t h'; simpa using (ht.inR t h').2
      · intro t h'; simpa using (ht.inZ t h').2

/-! ### addLConstr -/

theorem toTrips_row (row : ℕ) (f : K → K) (l : List (ℕ × K)) : ∀ t ∈ toTrips row f l, t.row = row := by
  intro t ht
  simp [toTrips] at ht
  obtain ⟨a, b, _, rfl⟩ := ht
  rfl

theorem lconstrLoop_sum {m : Mip K} (hw : m.WF) {l : List (K × ℕ)} {ur uz : List ℕ}
    {t : List (ℕ × K) × List (ℕ × K)} (h : lconstrLoop m.rIdx m.zIdx l ur uz = some t) (row : ℕ)
    (f : K → K) (v : ℕ → K) :
    tripRow (toTrips row f t.1) row (m.r.map v) + tripRow (toTrips row f t.2) row (m.zeta.map v)
        = (l.map fun p => f p.1 * v p.2).sum ∧
      (∀ p ∈ t.1, p.1 < m.r.length) ∧ ∀ p ∈ t.2, p.1 < m.zeta.length := by
  induction l generalizing ur uz t with
  | nil =>
    simp [lconstrLoop] at h
    subst h
    simp [toTrips]
  | cons p l ih =>
    obtain ⟨c, w⟩ := p
    rw [lconstrLoop] at h
    cases hr : m.rIdx.lookup w with
    | some j =>
      simp only [hr] at h
      split_ifs at h
      rw [Option.map_eq_some_iff] at h
      obtain ⟨t', h', rfl⟩ := h
      obtain ⟨e1, e2, e3⟩ := ih h'
      rw [hw.ridx] at hr
      have hj := (lookup_zipIdx_some hr).2
      simp only [Nat.sub_zero] at hj
      have hjl := (List.getElem?_eq_some_iff.1 hj).1
      refine ⟨?_, ?_, e3⟩
      · simp only [toTrips, List.map_cons, List.sum_cons] at e1 ⊢
        rw [tripRow_cons, ← e1]
        simp [hj]
        ring
      · intro p hp
        rcases List.mem_cons.1 hp with rfl | hp
        · exact hjl
        · exact e2 p hp
    | none =>
      simp only [hr] at h
      cases hz : m.zIdx.lookup w with
      | some j =>
        simp only [hz] at h
        split_ifs at h
        rw [Option.map_eq_some_iff] at h
        obtain ⟨t', h', rfl⟩ := h
        obtain ⟨e1, e2, e3⟩ := ih h'
        rw [hw.zidx] at hz
        have hj := (lookup_zipIdx_some hz).2
        simp only [Nat.sub_zero] at hj
        have hjl := (List.getElem?_eq_some_iff.1 hj).1
        refine ⟨?_, e2, ?_⟩
        · simp only [toTrips, List.map_cons, List.sum_cons] at e1 ⊢
          rw [tripRow_cons, ← e1]
          simp [hj]
          ring
        · intro p hp
          rcases List.mem_cons.1 hp with rfl | hp
          · exact hjl
          · exact e3 p hp
      | none => simp [hz] at h

theorem sum_zip_id (cs : Vec K) (xs : List ℕ) (v : ℕ → K) :
    ((cs.zip xs).map fun p => id p.1 * v p.2).sum = dot cs (xs.map v) := by
  induction cs generalizing xs with
  | nil => simp
  | cons c cs ih => cases xs with
    | nil => simp
    | cons x xs =>
      have := ih xs
      simp at this ⊢
      rw [this]

theorem sum_zip_neg (cs : Vec K) (xs : List ℕ) (v : ℕ → K) :
    ((cs.zip xs).map fun p => -p.1 * v p.2).sum = - dot cs (xs.map v) := by
  induction cs generalizing xs with
  | nil => simp
  | cons c cs ih => cases xs with
    | nil => simp
    | cons x xs =>
      have := ih xs
      simp at this ⊢
      rw [this]; ring

theorem getD_singleton_lt (a : K) (j : ℕ) (h : j < [a].length) : j = 0 ∧ ([a]).getD j 0 = a := by
  simp at h; subst h; simp

variable [IsStrictOrderedRing K]

theorem addLConstr_torch {m m' : Mip K} {coeffs : List (Vec K)} {xs : List (List ℕ)} {sense : Sense}
    {rhs : K} (h : m.addLConstr coeffs xs sense rhs = some m') (hw : m.WF) (ht : m.TWF) :
    m'.TWF ∧ ∀ v, m'.TorchRows v ↔ m.TorchRows v ∧
      sense.Rel (dot coeffs.flatten (xs.flatten.map v)) rhs := by
  unfold Mip.addLConstr at h
  split_ifs at h with hl
  cases hloop : lconstrLoop m.rIdx m.zIdx (coeffs.flatten.zip xs.flatten) [] [] with
  | none => simp [hloop] at h
  | some t =>
    obtain ⟨lr, lz⟩ := t
    have key : ∀ (row : ℕ) (f : K → K) (v : ℕ → K), _ := fun row f v =>
      lconstrLoop_sum hw hloop row f v
    have hcol : ∀ (row : ℕ) (f : K → K), (∀ u ∈ toTrips row f lr, u.row = row ∧ u.col < m.r.length) ∧
        ∀ u ∈ toTrips row f lz, u.row = row ∧ u.col < m.zeta.length := by
      intro row f
      obtain ⟨_, k2, k3⟩ := key row f (fun _ => 0)
      constructor
      · intro u hu
        simp [toTrips] at hu
        obtain ⟨a, b, hab, rfl⟩ := hu
        exact ⟨rfl, k2 _ hab⟩
      · intro u hu
        simp [toTrips] at hu
        obtain ⟨a, b, hab, rfl⟩ := hu
        exact ⟨rfl, k3 _ hab⟩
    simp only [hloop] at h
    have twf : ∀ (R Z : List (Trip K)) (b : Vec K) (q : K) (f : K → K),
        (∀ u ∈ R, u.row < b.length ∧ u.col < m.r.length) →
        (∀ u ∈ Z, u.row < b.length ∧ u.col < m.zeta.length) →
        (∀ u ∈ R ++ toTrips b.length f lr, u.row < (b ++ [q]).length ∧ u.col < m.r.length) ∧
        ∀ u ∈ Z ++ toTrips b.length f lz, u.row < (b ++ [q]).length ∧ u.col < m.zeta.length := by
      intro R Z b q f hR hZ
      constructor
      · intro u hu
        rcases List.mem_append.1 hu with hu | hu
        · have := hR u hu; simp; omega
        · have := (hcol b.length f).1 u hu; simp; omega
      · intro u hu
        rcases List.mem_append.1 hu with hu | hu
        · have := hZ u hu; simp; omega
        · have := (hcol b.length f).2 u hu; simp; omega
    have sys : ∀ (R Z : List (Trip K)) (b : Vec K) (q : K) (f : K → K) (Rel : K → K → Prop) (v : ℕ → K),
        (∀ u ∈ R, u.row < b.length ∧ u.col < m.r.length) →
        (∀ u ∈ Z, u.row < b.length ∧ u.col < m.zeta.length) →
        (RowSys (R ++ toTrips b.length f lr) (Z ++ toTrips b.length f lz) (b ++ [q]) Rel (m.r.map v)
          (m.zeta.map v) ↔ RowSys R Z b Rel (m.r.map v) (m.zeta.map v) ∧
          Rel ((coeffs.flatten.zip xs.flatten).map fun p => f p.1 * v p.2).sum q) := by
      intro R Z b q f Rel v hR hZ
      rw [rowSys_append (fun u hu => (hR u hu).1) (fun u hu => (hZ u hu).1)
        (fun u hu => ((hcol b.length f).1 u hu).1.ge) (fun u hu => ((hcol b.length f).2 u hu).1.ge)]
      refine and_congr_right fun _ => ?_
      rw [← (key b.length f v).1]
      constructor
      · intro H; simpa using H 0 (by simp)
      · intro H j hj
        obtain ⟨rfl, hj'⟩ := getD_singleton_lt q j hj
        rw [hj']; simpa using H
    cases sense <;> simp at h <;> subst h
    · obtain ⟨a, b⟩ := twf m.ainR m.ainZ m.rhsIn rhs id ht.inR ht.inZ
      refine ⟨⟨a, b, ht.eqR, ht.eqZ⟩, fun v => ?_⟩
      rw [torchRows_iff, torchRows_iff]
      simp only
      rw [sys m.ainR m.ainZ m.rhsIn rhs id _ v ht.inR ht.inZ, sum_zip_id]
      simp only [Sense.Rel]
      tauto
    · obtain ⟨a, b⟩ := twf m.ainR m.ainZ m.rhsIn (-rhs) (fun c => -c) ht.inR ht.inZ
      refine ⟨⟨a, b, ht.eqR, ht.eqZ⟩, fun v => ?_⟩
      rw [torchRows_iff, torchRows_iff]
      simp only
      rw [sys m.ainR m.ainZ m.rhsIn (-rhs) (fun c => -c) _ v ht.inR ht.inZ, sum_zip_neg]
      simp only [Sense.Rel, neg_le_neg_iff]
      tauto
    · obtain ⟨a, b⟩ := twf m.aeqR m.aeqZ m.rhsEq rhs id ht.eqR ht.eqZ
      refine ⟨⟨ht.inR, ht.inZ, a, b⟩, fun v => ?_⟩
      rw [torchRows_iff, torchRows_iff]
      simp only
      rw [sys m.aeqR m.aeqZ m.rhsEq rhs id _ v ht.eqR ht.eqZ, sum_zip_id]
      simp only [Sense.Rel]
      tauto

/-! ### addMConstr -/

theorem mem_maskTrips {idx : List (ℕ × ℕ)} {row : ℕ} {f : K → K} {xs : List ℕ} {cs : Vec K} {t : Trip K}
    (h : t ∈ maskTrips idx row f xs cs) : t.row = row ∧ ∃ w, idx.lookup w = some t.col := by
  unfold maskTrips at h
  rw [List.mem_filterMap] at h
  obtain ⟨p, _, hp⟩ := h
  rw [Option.map_eq_some_iff] at hp
  obtain ⟨j, hj, rfl⟩ := hp
  exact ⟨rfl, _, hj⟩

theorem maskTrips_sum {m : Mip K} (hw : m.WF) (row : ℕ) (f : K → K) (xs : List ℕ) (cs : Vec K)
    (hx : ∀ i ∈ xs, i < m.n) (v : ℕ → K) :
    tripRow (maskTrips m.rIdx row f xs cs) row (m.r.map v)
      + tripRow (maskTrips m.zIdx row f xs cs) row (m.zeta.map v)
      = ((cs.zip xs).map fun p => f p.1 * v p.2).sum := by
  induction xs generalizing cs with
  | nil => simp [maskTrips]
  | cons x xs ih => cases cs with
    | nil => simp [maskTrips]
    | cons c cs =>
      have e := ih cs (fun i hi => hx i (by simp [hi]))
      have hmem : x ∈ m.r ++ m.zeta := (hw.cover x).2 (hx x (by simp))
      have hnd := hw.nodup
      rw [List.nodup_append] at hnd
      rw [List.zip_cons_cons, List.map_cons, List.sum_cons, ← e]
      cases hr : m.rIdx.lookup x with
      | some j =>
        have hr' := hr
        rw [hw.ridx] at hr'
        have hj := (lookup_zipIdx_some hr').2
        simp only [Nat.sub_zero] at hj
        have hxr : x ∈ m.r := List.mem_of_getElem? hj
        have hz : m.zIdx.lookup x = none := by
          rw [hw.zidx, lookup_zipIdx_none]
          intro hxz; exact hnd.2.2 x hxr x hxz rfl
        have e1 : maskTrips m.rIdx row f (x :: xs) (c :: cs)
            = ⟨row, j, f c⟩ :: maskTrips m.rIdx row f xs cs := by
          simp [maskTrips, hr]
        have e2 : maskTrips m.zIdx row f (x :: xs) (c :: cs) = maskTrips m.zIdx row f xs cs := by
          simp [maskTrips, hz]
        rw [e1, e2, tripRow_cons]
        simp [hj]; ring
      | none =>
        have hr' := hr
        rw [hw.ridx, lookup_zipIdx_none] at hr'
        have hxz : x ∈ m.zeta := by
          rcases List.mem_append.1 hmem with h | h
          · exact absurd h hr'
          · exact h
        cases hz : m.zIdx.lookup x with
        | none =>
          rw [hw.zidx, lookup_zipIdx_none] at hz
          exact absurd hxz hz
        | some j =>
          have hz' := hz
          rw [hw.zidx] at hz'
          have hj := (lookup_zipIdx_some hz').2
          simp only [Nat.sub_zero] at hj
          have e1 : maskTrips m.rIdx row f (x :: xs) (c :: cs) = maskTrips m.rIdx row f xs cs := by
            simp [maskTrips, hr]
          have e2 : maskTrips m.zIdx row f (x :: xs) (c :: cs)
              = ⟨row, j, f c⟩ :: maskTrips m.zIdx row f xs cs := by
            simp [maskTrips, hz]
          rw [e1, e2, tripRow_cons]
          simp [hj]; ring

theorem tripRow_flatMap (F : ℕ → List (Trip K)) (start n j : ℕ) (x : Vec K)
    (hF : ∀ i, ∀ t ∈ F i, t.row = start + i) (hj : j < n) :
    tripRow ((List.range n).flatMap F) (start + j) x = tripRow (F j) (start + j) x := by
  induction n with
  | zero => omega
  | succ n ih =>
    rw [List.range_succ, List.flatMap_append, tripRow_append]
    simp only [List.flatMap_cons, List.flatMap_nil, List.append_nil]
    by_cases hjn : j = n
    · subst hjn
      rw [tripRow_zero]
      · simp
      · intro t ht
        rw [List.mem_flatMap] at ht
        obtain ⟨i, hi, ht⟩ := ht
        have := hF i t ht
        rw [List.mem_range] at hi
        omega
    · rw [ih (by omega), tripRow_zero (a := F n)]
      · simp
      · intro t ht
        have := hF n t ht
        omega

theorem addMConstr_torch {m m' : Mip K} {A : List (Tensor2 K)} {x : List (List ℕ)} {sense : Sense}
    {b : Vec K} (h : m.addMConstr A x sense b = some m') (hw : m.WF) (ht : m.TWF) :
    m'.TWF ∧ ∀ v, m'.TorchRows v ↔ m.TorchRows v ∧
      ∀ i, i < b.length → sense.Rel (dot (catRow A i) (x.flatten.map v)) (b.getD i 0) := by
  have hx := (addMConstr_inv h).2.2.2.2.2.2.2.1
  unfold Mip.addMConstr at h
  split_ifs at h with hl
  set T := fun (idx : List (ℕ × ℕ)) (start : ℕ) (f : K → K) =>
      (List.range b.length).flatMap fun i => maskTrips idx (start + i) f x.flatten (catRow A i) with hT
  have hcol : ∀ (start : ℕ) (f : K → K),
      (∀ u ∈ T m.rIdx start f, start ≤ u.row ∧ u.row < start + b.length ∧ u.col < m.r.length) ∧
      ∀ u ∈ T m.zIdx start f, start ≤ u.row ∧ u.row < start + b.length ∧ u.col < m.zeta.length := by
    intro start f
    constructor
    · intro u hu
      rw [hT, List.mem_flatMap] at hu
      obtain ⟨i, hi, hu⟩ := hu
      rw [List.mem_range] at hi
      obtain ⟨h1, w, h2⟩ := mem_maskTrips hu
      rw [hw.ridx] at h2
      have := (List.getElem?_eq_some_iff.1 (lookup_zipIdx_some h2).2).1
      omega
    · intro u hu
      rw [hT, List.mem_flatMap] at hu
      obtain ⟨i, hi, hu⟩ := hu
      rw [List.mem_range] at hi
      obtain ⟨h1, w, h2⟩ := mem_maskTrips hu
      rw [hw.zidx] at h2
      have := (List.getElem?_eq_some_iff.1 (lookup_zipIdx_some h2).2).1
      omega
  have twf : ∀ (R Z : List (Trip K)) (c d : Vec K) (f : K → K), d.length = b.length →
      (∀ u ∈ R, u.row < c.length ∧ u.col < m.r.length) →
      (∀ u ∈ Z, u.row < c.length ∧ u.col < m.zeta.length) →
      (∀ u ∈ R ++ T m.rIdx c.length f, u.row < (c ++ d).length ∧ u.col < m.r.length) ∧
      ∀ u ∈ Z ++ T m.zIdx c.length f, u.row < (c ++ d).length ∧ u.col < m.zeta.length := by
    intro R Z c d f hd hR hZ
    constructor
    · intro u hu
      rcases List.mem_append.1 hu with hu | hu
      · have := hR u hu; simp; omega
      · have := (hcol c.length f).1 u hu; simp; omega
    · intro u hu
      rcases List.mem_append.1 hu with hu | hu
      · have := hZ u hu; simp; omega
      · have := (hcol c.length f).2 u hu; simp; omega
  have sys : ∀ (R Z : List (Trip K)) (c d : Vec K) (f : K → K) (Rel : K → K → Prop) (v : ℕ → K),
      d.length = b.length →
      (∀ u ∈ R, u.row < c.length ∧ u.col < m.r.length) →
      (∀ u ∈ Z, u.row < c.length ∧ u.col < m.zeta.length) →
      (RowSys (R ++ T m.rIdx c.length f) (Z ++ T m.zIdx c.length f) (c ++ d) Rel (m.r.map v)
        (m.zeta.map v) ↔ RowSys R Z c Rel (m.r.map v) (m.zeta.map v) ∧
        ∀ i, i < b.length →
          Rel (((catRow A i).zip x.flatten).map fun p => f p.1 * v p.2).sum (d.getD i 0)) := by
    intro R Z c d f Rel v hd hR hZ
    rw [rowSys_append (fun u hu => (hR u hu).1) (fun u hu => (hZ u hu).1)
      (fun u hu => ((hcol c.length f).1 u hu).1) (fun u hu => ((hcol c.length f).2 u hu).1)]
    refine and_congr_right fun _ => ?_
    rw [hd]
    refine forall_congr' fun i => forall_congr' fun hi => ?_
    rw [← maskTrips_sum hw (c.length + i) f x.flatten (catRow A i) hx v, hT]
    simp only
    rw [tripRow_flatMap _ c.length b.length i (m.r.map v)
        (fun i t ht => (mem_maskTrips ht).1) hi,
      tripRow_flatMap _ c.length b.length i (m.zeta.map v)
        (fun i t ht => (mem_maskTrips ht).1) hi]
  cases sense <;> simp at h <;> subst h
  · obtain ⟨a, b'⟩ := twf m.ainR m.ainZ m.rhsIn b id rfl ht.inR ht.inZ
    refine ⟨⟨a, b', ht.eqR, ht.eqZ⟩, fun v => ?_⟩
    rw [torchRows_iff, torchRows_iff]
    simp only
    have := sys m.ainR m.ainZ m.rhsIn b id (· ≤ ·) v rfl ht.inR ht.inZ
    simp only [sum_zip_id] at this
    rw [this]
    simp only [Sense.Rel]
    tauto
  · obtain ⟨a, b'⟩ := twf m.ainR m.ainZ m.rhsIn (vneg b) (fun c => -c) (by simp) ht.inR ht.inZ
    refine ⟨⟨a, b', ht.eqR, ht.eqZ⟩, fun v => ?_⟩
    rw [torchRows_iff, torchRows_iff]
    simp only
    have := sys m.ainR m.ainZ m.rhsIn (vneg b) (fun c => -c) (· ≤ ·) v (by simp) ht.inR ht.inZ
    simp only [sum_zip_neg, getD_vneg, neg_le_neg_iff] at this
    rw [this]
    simp only [Sense.Rel]
    tauto
  · obtain ⟨a, b'⟩ := twf m.aeqR m.aeqZ m.rhsEq b id rfl ht.eqR ht.eqZ
    refine ⟨⟨ht.inR, ht.inZ, a, b'⟩, fun v => ?_⟩
    rw [torchRows_iff, torchRows_iff]
    simp only
    have := sys m.aeqR m.aeqZ m.rhsEq b id (· = ·) v rfl ht.eqR ht.eqZ
    simp only [sum_zip_id] at this
    rw [this]
    simp only [Sense.Rel]
    tauto

theorem setVarBound_torch {m m' : Mip K} {ids : List ℕ} {lo up : Option (List (Option K))}
    (h : m.setVarBound ids lo up = some m') (ht : m.TWF) :
    m'.TWF ∧ ∀ v, m'.TorchRows v ↔ m.TorchRows v := by
  obtain ⟨rfl, _⟩ := setVarBound_inv h
  exact ⟨⟨ht.inR, ht.inZ, ht.eqR, ht.eqZ⟩, fun v => Iff.rfl⟩

end NNL.Model
