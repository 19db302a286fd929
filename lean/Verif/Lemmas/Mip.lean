import Verif.Model.Mip
import Verif.Lemmas.Mic
import Mathlib.Tactic.LinearCombination

/-! Helper lemmas about `GurobiTorchMIP`: the Gurobi side of every operation. -/

set_option linter.unusedSectionVars false

namespace NNL.Model

open NNL

variable {K : Type*} [Field K] [LinearOrder K]

/-- Every constraint uses existing variables, and the dictionaries only know existing variables. -/
structure Mip.WF (m : Mip K) : Prop where
  cons_lt : ∀ c ∈ m.cons, ∀ i ∈ c.vars, i < m.n
  ridx : m.rIdx = m.r.zipIdx
  zidx : m.zIdx = m.zeta.zipIdx
  nodup : (m.r ++ m.zeta).Nodup
  cover : ∀ i, i ∈ m.r ++ m.zeta ↔ i < m.n

theorem Mip.WF.empty : (Mip.empty : Mip K).WF := by
  constructor <;> simp [Mip.empty, Mip.n]

/-- Feasibility only looks at the existing variables. -/
theorem Mip.WF.feas_congr {m : Mip K} (h : m.WF) {v w : ℕ → K} (hvw : ∀ i, i < m.n → v i = w i) :
    m.Feas v ↔ m.Feas w := by
  unfold Mip.Feas
  refine and_congr ?_ ?_
  · refine forall_congr' fun i => forall_congr' fun g => ?_
    constructor
    · intro h1 h2
      have hi : i < m.n := by
        unfold Mip.n
        exact (List.getElem?_eq_some_iff.1 h2).1
      rw [← hvw i hi]; exact h1 h2
    · intro h1 h2
      have hi : i < m.n := by
        unfold Mip.n
        exact (List.getElem?_eq_some_iff.1 h2).1
      rw [hvw i hi]; exact h1 h2
  · refine forall_congr' fun c => forall_congr' fun hc => ?_
    unfold GCon.Ok
    have : c.vars.map v = c.vars.map w := List.map_congr_left fun i hi => hvw i (h.cons_lt c hc i hi)
    rw [this]

/-! ### Overriding a block of variables -/

/-- `v` with the variables `a, a+1, ...` set to the entries of `w`. -/
def upd (v : ℕ → K) (a : ℕ) (w : Vec K) : ℕ → K :=
  fun i => if a ≤ i ∧ i < a + w.length then w.getD (i - a) 0 else v i

theorem upd_lt (v : ℕ → K) (a : ℕ) (w : Vec K) (i : ℕ) (h : i < a) : upd v a w i = v i := by
  unfold upd
  rw [if_neg (by omega)]

theorem upd_add (v : ℕ → K) (a : ℕ) (w : Vec K) (k : ℕ) (h : k < w.length) :
    upd v a w (a + k) = w.getD k 0 := by
  unfold upd
  rw [if_pos (by omega)]
  congr 1
  omega

theorem map_upd (v : ℕ → K) (a : ℕ) (w : Vec K) (n : ℕ) (hn : w.length = n) :
    (List.range' a n).map (upd v a w) = w := by
  subst hn
  apply vec_ext
  · simp
  · intro i hi
    simp at hi
    rw [← upd_add v a w i hi]
    simp [List.getD, hi]

theorem map_upd_lt (v : ℕ → K) (a : ℕ) (w : Vec K) (ids : List ℕ) (h : ∀ i ∈ ids, i < a) :
    ids.map (upd v a w) = ids.map v :=
  List.map_congr_left fun i hi => upd_lt v a w i (h i hi)

theorem getD_map_range' (v : ℕ → K) (a n k : ℕ) (h : k < n) :
    ((List.range' a n).map v).getD k 0 = v (a + k) := by
  simp [List.getD, h]

theorem forall_mem_range' {P : ℕ → Prop} {a n : ℕ} :
    (∀ i ∈ List.range' a n, P i) ↔ ∀ k, k < n → P (a + k) := by
  constructor
  · intro h k hk
    exact h _ (by rw [List.mem_range'_1]; omega)
  · intro h i hi
    rw [List.mem_range'_1] at hi
    have := h (i - a) (by omega)
    rwa [show a + (i - a) = i by omega] at this

theorem mem_range'_lt {a n b : ℕ} (h : a + n ≤ b) : ∀ i ∈ List.range' a n, i < b := by
  intro i hi
  rw [List.mem_range'_1] at hi
  omega

/-! ### addVars -/

theorem zipIdx_append_range' (l : List ℕ) (ids : List ℕ) :
    l.zipIdx ++ ids.zipIdx l.zipIdx.length = (l ++ ids).zipIdx := by
  rw [List.zipIdx_append]; simp

/-- Values allowed for `num` variables created with bounds `lb`, `ub` and type `vt`. -/
def NewOk (vt : VType) (lb ub : List (Option K)) (x : Vec K) : Prop :=
  ∀ k, k < x.length → (newGVar vt (lb.getD k none) (ub.getD k none)).Ok (x.getD k 0)

theorem addVars_inv {m m' : Mip K} {num : ℕ} {lb ub : List (Option K)} {vt : VType} {ids : List ℕ}
    (h : m.addVars num lb ub vt = some (m', ids)) :
    lb.length = num ∧ ub.length = num ∧ vt ≠ .other ∧ ids = List.range' m.n num ∧
      m'.vars = m.vars ++ List.zipWith (newGVar vt) lb ub ∧ m'.cons = m.cons ∧ m'.obj = m.obj := by
  unfold Mip.addVars at h
  split_ifs at h with hl
  cases vt <;> simp at h
  all_goals
    obtain ⟨rfl, rfl⟩ := h
    simp [hl, Mip.n]

theorem addVars_n {m m' : Mip K} {num : ℕ} {lb ub : List (Option K)} {vt : VType} {ids : List ℕ}
    (h : m.addVars num lb ub vt = some (m', ids)) : m'.n = m.n + num := by
  obtain ⟨h1, h2, _, _, h5, _, _⟩ := addVars_inv h
  simp [Mip.n, h5, h1, h2]

theorem addVars_feas {m m' : Mip K} {num : ℕ} {lb ub : List (Option K)} {vt : VType} {ids : List ℕ}
    (h : m.addVars num lb ub vt = some (m', ids)) (v : ℕ → K) :
    m'.Feas v ↔ m.Feas v ∧ NewOk vt lb ub (ids.map v) := by
  obtain ⟨h1, h2, _, h4, h5, h6, _⟩ := addVars_inv h
  unfold Mip.Feas
  rw [h6, h5]
  have key : (∀ (i : ℕ) (g : GVar K),
      (m.vars ++ List.zipWith (newGVar vt) lb ub)[i]? = some g → g.Ok (v i)) ↔
      (∀ (i : ℕ) (g : GVar K), m.vars[i]? = some g → g.Ok (v i)) ∧ NewOk vt lb ub (ids.map v) := by
    constructor
    · intro H
      refine ⟨fun i g hg => H i g ?_, ?_⟩
      · rw [List.getElem?_append_left (List.getElem?_eq_some_iff.1 hg).1]; exact hg
      · intro k hk
        rw [h4] at hk ⊢
        simp at hk
        rw [getD_map_range' v _ _ _ hk]
        apply H
        rw [List.getElem?_append_right (by simp [Mip.n])]
        simp [Mip.n, List.getD, h1, h2, hk]
    · rintro ⟨H1, H2⟩ i g hg
      by_cases hi : i < m.vars.length
      · rw [List.getElem?_append_left hi] at hg
        exact H1 i g hg
      · rw [List.getElem?_append_right (by omega)] at hg
        have hlt := (List.getElem?_eq_some_iff.1 hg).1
        simp [h1, h2] at hlt
        have := H2 (i - m.vars.length) (by rw [h4]; simpa using hlt)
        rw [h4, getD_map_range' v _ _ _ hlt] at this
        simp [h1, h2, hlt] at hg
        rw [← hg]
        have e : m.n + (i - m.vars.length) = i := by unfold Mip.n; omega
        rw [e] at this
        simpa [List.getD, h1, h2, hlt] using this
  rw [key]
  tauto

theorem addVars_wf {m m' : Mip K} {num : ℕ} {lb ub : List (Option K)} {vt : VType} {ids : List ℕ}
    (h : m.addVars num lb ub vt = some (m', ids)) (hw : m.WF) : m'.WF := by
  have hn := addVars_n h
  obtain ⟨h1, h2, h3, h4, h5, h6, _⟩ := addVars_inv h
  have hd : ∀ i ∈ List.range' m.n num, i ∉ m.r ++ m.zeta := by
    intro i hi hc
    rw [hw.cover] at hc
    rw [List.mem_range'_1] at hi
    omega
  have hnd : (List.range' m.n num).Nodup := List.nodup_range'
  have hno := hw.nodup
  rw [List.nodup_append] at hno
  have hcov : ∀ i, i < m'.n ↔ i ∈ m.r ++ m.zeta ∨ i ∈ List.range' m.n num := by
    intro i
    rw [hw.cover, List.mem_range'_1, hn]
    omega
  unfold Mip.addVars at h
  split_ifs at h with hl
  cases vt <;> simp at h
  · obtain ⟨rfl, rfl⟩ := h
    refine ⟨?_, ?_, ?_, ?_, ?_⟩
    · intro c hc i hi
      have := hw.cons_lt c hc i hi
      omega
    · simp only [hw.ridx]
      exact zipIdx_append_range' _ _
    · exact hw.zidx
    · change ((m.r ++ List.range' m.vars.length num) ++ m.zeta).Nodup
      rw [List.nodup_append, List.nodup_append]
      refine ⟨⟨hno.1, hnd, ?_⟩, hno.2.1, ?_⟩
      · rintro a ha b hb rfl
        exact hd a hb (by simp [ha])
      · rintro a ha b hb rfl
        rcases List.mem_append.1 ha with ha | ha
        · exact hno.2.2 a ha a hb rfl
        · exact hd a ha (by simp [hb])
    · intro i
      rw [hcov]
      simp [Mip.n]
      tauto
  all_goals
    obtain ⟨rfl, rfl⟩ := h
    refine ⟨?_, ?_, ?_, ?_, ?_⟩
    · intro c hc i hi
      have := hw.cons_lt c hc i hi
      omega
    · exact hw.ridx
    · simp only [hw.zidx]
      exact zipIdx_append_range' _ _
    · change (m.r ++ (m.zeta ++ List.range' m.vars.length num)).Nodup
      rw [List.nodup_append, List.nodup_append]
      refine ⟨hno.1, ⟨hno.2.1, hnd, ?_⟩, ?_⟩
      · rintro a ha b hb rfl
        exact hd a hb (by simp [ha])
      · rintro a ha b hb rfl
        rcases List.mem_append.1 hb with hb | hb
        · exact hno.2.2 a ha a hb rfl
        · exact hd a hb (by simp [ha])
    · intro i
      rw [hcov]
      simp [Mip.n]
      tauto

theorem addVars_isSome (m : Mip K) {num : ℕ} {lb ub : List (Option K)} {vt : VType}
    (h1 : lb.length = num) (h2 : ub.length = num) (h3 : vt ≠ .other) :
    ∃ m', m.addVars num lb ub vt = some (m', List.range' m.n num) := by
  unfold Mip.addVars
  rw [if_pos ⟨h1, h2⟩]
  cases vt <;> simp [Mip.n] at h3 ⊢

/-! ### Bounds of created variables -/

theorem newOk_free (n : ℕ) (x : Vec K) : NewOk .continuous (noBound n) (noBound n) x := by
  intro k _
  simp [noBound, newGVar, GVar.Ok, List.getD, List.getElem?_replicate]
  split_ifs <;> simp

theorem newOk_binary (x : Vec K) [IsStrictOrderedRing K] :
    NewOk .binary (scalarBound x.length 0) (scalarBound x.length 1) x ↔ IsBin x := by
  unfold NewOk IsBin
  rw [List.forall_mem_iff_getElem]
  refine forall_congr' fun k => forall_congr' fun hk => ?_
  rw [getD_of_lt _ _ hk]
  simp only [newGVar, GVar.Ok, scalarBound, List.getD, List.getElem?_replicate, hk, if_true,
    Option.getD_some, Option.some.injEq, forall_eq', true_implies]
  constructor
  · rintro ⟨_, _, h⟩; exact h
  · rintro (h | h) <;> rw [h] <;> simp

/-! ### set_var_bound -/

theorem raiseLb_length (vars : List (GVar K)) (ids : List ℕ) (l : List (Option K)) :
    (raiseLb vars ids l).length = vars.length := by
  induction ids generalizing vars l with
  | nil => simp [raiseLb]
  | cons i is ih => cases l with
    | nil => simp [raiseLb]
    | cons a l => simp [raiseLb, ih]

theorem reduceUb_length (vars : List (GVar K)) (ids : List ℕ) (l : List (Option K)) :
    (reduceUb vars ids l).length = vars.length := by
  induction ids generalizing vars l with
  | nil => simp [reduceUb]
  | cons i is ih => cases l with
    | nil => simp [reduceUb]
    | cons a l => simp [reduceUb, ih]

theorem maxLo_le (a b : Option K) (x : K) :
    (∀ l, maxLo a b = some l → l ≤ x) ↔ (∀ l, a = some l → l ≤ x) ∧ (∀ l, b = some l → l ≤ x) := by
  cases a <;> cases b <;> simp [maxLo]

theorem le_minUp (a b : Option K) (x : K) :
    (∀ l, minUp a b = some l → x ≤ l) ↔ (∀ l, a = some l → x ≤ l) ∧ (∀ l, b = some l → x ≤ l) := by
  cases a <;> cases b <;> simp [minUp]

/-- All variables have allowed values. -/
def VarsOk (vars : List (GVar K)) (v : ℕ → K) : Prop :=
  ∀ (i : ℕ) (g : GVar K), vars[i]? = some g → g.Ok (v i)

theorem varsOk_modify (vars : List (GVar K)) (i : ℕ) (f : GVar K → GVar K) (v : ℕ → K) (P : Prop)
    (hi : i < vars.length) (hf : ∀ g, (f g).Ok (v i) ↔ g.Ok (v i) ∧ P) :
    VarsOk (vars.modify i f) v ↔ VarsOk vars v ∧ P := by
  unfold VarsOk
  constructor
  · intro H
    have h0 : (f vars[i]).Ok (v i) := H i _ (by simp [hi])
    rw [hf] at h0
    refine ⟨fun j g hg => ?_, h0.2⟩
    by_cases hj : i = j
    · subst hj
      rw [List.getElem?_eq_getElem hi] at hg
      simp at hg; subst hg; exact h0.1
    · exact H j g (by rw [List.getElem?_modify, hg]; simp [hj])
  · rintro ⟨H, hP⟩ j g hg
    rw [List.getElem?_modify] at hg
    by_cases hj : i = j
    · subst hj
      rw [List.getElem?_eq_getElem hi] at hg
      simp at hg; subst hg
      rw [hf]
      exact ⟨H i _ (List.getElem?_eq_getElem hi), hP⟩
    · simp [hj] at hg
      exact H j g hg

theorem loOk_nil (b : Option (List (Option K))) : LoOk b ([] : Vec K) := by
  intro l _ i hi; simp at hi
theorem upOk_nil (b : Option (List (Option K))) : UpOk b ([] : Vec K) := by
  intro l _ i hi; simp at hi
theorem loOk_none (x : Vec K) : LoOk none x := by intro l h; simp at h
theorem upOk_none (x : Vec K) : UpOk none x := by intro l h; simp at h

theorem loOk_cons (a : Option K) (l : List (Option K)) (x : K) (xs : Vec K) :
    LoOk (some (a :: l)) (x :: xs) ↔ (∀ c, a = some c → c ≤ x) ∧ LoOk (some l) xs := by
  unfold LoOk
  simp only [Option.some.injEq, forall_eq', List.length_cons]
  constructor
  · intro H
    refine ⟨fun c hc => ?_, fun i hi c hc => ?_⟩
    · simpa using H 0 (by simp) c (by simpa using hc)
    · simpa using H (i + 1) (by omega) c (by simpa using hc)
  · rintro ⟨H1, H2⟩ i hi c hc
    cases i with
    | zero => simpa using H1 c (by simpa using hc)
    | succ i => simpa using H2 i (by omega) c (by simpa using hc)

theorem upOk_cons (a : Option K) (l : List (Option K)) (x : K) (xs : Vec K) :
    UpOk (some (a :: l)) (x :: xs) ↔ (∀ c, a = some c → x ≤ c) ∧ UpOk (some l) xs := by
  unfold UpOk
  simp only [Option.some.injEq, forall_eq', List.length_cons]
  constructor
  · intro H
    refine ⟨fun c hc => ?_, fun i hi c hc => ?_⟩
    · simpa using H 0 (by simp) c (by simpa using hc)
    · simpa using H (i + 1) (by omega) c (by simpa using hc)
  · rintro ⟨H1, H2⟩ i hi c hc
    cases i with
    | zero => simpa using H1 c (by simpa using hc)
    | succ i => simpa using H2 i (by omega) c (by simpa using hc)

theorem loOk_some_nil (x : Vec K) : LoOk (some []) x := by
  intro l h i hi c hc
  simp at h; subst h; simp at hc
theorem upOk_some_nil (x : Vec K) : UpOk (some []) x := by
  intro l h i hi c hc
  simp at h; subst h; simp at hc

theorem raiseLb_ok (vars : List (GVar K)) (ids : List ℕ) (l : List (Option K)) (v : ℕ → K)
    (h : ∀ i ∈ ids, i < vars.length) :
    VarsOk (raiseLb vars ids l) v ↔ VarsOk vars v ∧ LoOk (some l) (ids.map v) := by
  induction ids generalizing vars l with
  | nil => simp [raiseLb, loOk_nil]
  | cons i is ih => cases l with
    | nil => simp [raiseLb, loOk_some_nil]
    | cons a l =>
      rw [raiseLb, ih _ _ (by simpa using fun j hj => h j (by simp [hj])),
        varsOk_modify _ _ _ v (∀ c, a = some c → c ≤ v i) (h i (by simp)), List.map_cons, loOk_cons]
      · tauto
      · intro g
        simp only [GVar.Ok, maxLo_le]
        tauto

theorem reduceUb_ok (vars : List (GVar K)) (ids : List ℕ) (l : List (Option K)) (v : ℕ → K)
    (h : ∀ i ∈ ids, i < vars.length) :
    VarsOk (reduceUb vars ids l) v ↔ VarsOk vars v ∧ UpOk (some l) (ids.map v) := by
  induction ids generalizing vars l with
  | nil => simp [reduceUb, upOk_nil]
  | cons i is ih => cases l with
    | nil => simp [reduceUb, upOk_some_nil]
    | cons a l =>
      rw [reduceUb, ih _ _ (by simpa using fun j hj => h j (by simp [hj])),
        varsOk_modify _ _ _ v (∀ c, a = some c → v i ≤ c) (h i (by simp)), List.map_cons, upOk_cons]
      · tauto
      · intro g
        simp only [GVar.Ok, le_minUp]
        tauto

theorem setVarBound_inv {m m' : Mip K} {ids : List ℕ} {lo up : Option (List (Option K))}
    (h : m.setVarBound ids lo up = some m') :
    m' = { m with vars := reduceUb (raiseLb m.vars ids (lo.getD [])) ids (up.getD []) } ∧
      (∀ l, lo = some l → l.length = ids.length) ∧ (∀ l, up = some l → l.length = ids.length) := by
  unfold Mip.setVarBound at h
  split_ifs at h with hl
  simp at h
  refine ⟨h.symm, ?_, ?_⟩
  · intro l hl'; subst hl'; exact hl.1 l rfl
  · intro l hl'; subst hl'; exact hl.2 l rfl

theorem setVarBound_feas {m m' : Mip K} {ids : List ℕ} {lo up : Option (List (Option K))}
    (h : m.setVarBound ids lo up = some m') (hi : ∀ i ∈ ids, i < m.n) (v : ℕ → K) :
    m'.Feas v ↔ m.Feas v ∧ LoOk lo (ids.map v) ∧ UpOk up (ids.map v) := by
  obtain ⟨rfl, _, _⟩ := setVarBound_inv h
  have e1 : LoOk (some (lo.getD [])) (ids.map v) ↔ LoOk lo (ids.map v) := by
    cases lo with
    | none => simp [loOk_none, loOk_some_nil]
    | some l => simp
  have e2 : UpOk (some (up.getD [])) (ids.map v) ↔ UpOk up (ids.map v) := by
    cases up with
    | none => simp [upOk_none, upOk_some_nil]
    | some l => simp
  have := reduceUb_ok (raiseLb m.vars ids (lo.getD [])) ids (up.getD []) v
    (by rw [raiseLb_length]; exact hi)
  have h2 := raiseLb_ok m.vars ids (lo.getD []) v hi
  rw [e2] at this
  rw [e1] at h2
  unfold VarsOk at this h2
  unfold Mip.Feas
  simp only
  rw [this, h2]
  tauto

theorem setVarBound_n {m m' : Mip K} {ids : List ℕ} {lo up : Option (List (Option K))}
    (h : m.setVarBound ids lo up = some m') : m'.n = m.n := by
  obtain ⟨rfl, _, _⟩ := setVarBound_inv h
  simp [Mip.n, raiseLb_length, reduceUb_length]

theorem setVarBound_wf {m m' : Mip K} {ids : List ℕ} {lo up : Option (List (Option K))}
    (h : m.setVarBound ids lo up = some m') (hw : m.WF) : m'.WF := by
  have hn := setVarBound_n h
  obtain ⟨rfl, _, _⟩ := setVarBound_inv h
  refine ⟨?_, hw.ridx, hw.zidx, hw.nodup, ?_⟩
  · intro c hc i hi
    rw [hn]; exact hw.cons_lt c hc i hi
  · intro i
    rw [hn]; exact hw.cover i

theorem setVarBound_isSome (m : Mip K) {ids : List ℕ} {lo up : Option (List (Option K))}
    (h1 : ∀ l, lo = some l → l.length = ids.length) (h2 : ∀ l, up = some l → l.length = ids.length) :
    ∃ m', m.setVarBound ids lo up = some m' := by
  unfold Mip.setVarBound
  rw [if_pos]
  · exact ⟨_, rfl⟩
  · exact ⟨fun l hl => h1 l hl, fun l hl => h2 l hl⟩

/-! ### Dictionaries -/

theorem lookup_zipIdx_some {l : List ℕ} {k v j : ℕ} (h : (l.zipIdx k).lookup v = some j) :
    k ≤ j ∧ l[j - k]? = some v := by
  induction l generalizing k with
  | nil => simp at h
  | cons a l ih =>
    rw [List.zipIdx_cons, List.lookup_cons] at h
    by_cases hv : v = a
    · subst hv
      simp at h; subst h
      simp
    · have : (v == a) = false := by simpa using hv
      rw [this] at h
      obtain ⟨h1, h2⟩ := ih h
      refine ⟨by omega, ?_⟩
      rw [show j - k = (j - (k + 1)) + 1 by omega]
      simpa using h2

theorem lookup_zipIdx_none {l : List ℕ} {k v : ℕ} : (l.zipIdx k).lookup v = none ↔ v ∉ l := by
  induction l generalizing k with
  | nil => simp
  | cons a l ih =>
    rw [List.zipIdx_cons, List.lookup_cons]
    by_cases hv : v = a
    · subst hv; simp
    · have : (v == a) = false := by simpa using hv
      rw [this]
      simp [ih, hv]

/-! ### addLConstr -/

theorem lconstrLoop_known {rIdx zIdx : List (ℕ × ℕ)} {l : List (K × ℕ)} {ur uz : List ℕ}
    {t : List (ℕ × K) × List (ℕ × K)} (h : lconstrLoop rIdx zIdx l ur uz = some t) :
    ∀ p ∈ l, rIdx.lookup p.2 ≠ none ∨ zIdx.lookup p.2 ≠ none := by
  induction l generalizing ur uz t with
  | nil => simp
  | cons p l ih =>
    obtain ⟨c, v⟩ := p
    rw [lconstrLoop] at h
    intro q hq
    cases hr : rIdx.lookup v with
    | some j =>
      simp only [hr] at h
      split_ifs at h
      rw [Option.map_eq_some_iff] at h
      obtain ⟨t', h', _⟩ := h
      rcases List.mem_cons.1 hq with rfl | hq
      · left; simp [hr]
      · exact ih h' q hq
    | none =>
      simp only [hr] at h
      cases hz : zIdx.lookup v with
      | some j =>
        simp only [hz] at h
        split_ifs at h
        rw [Option.map_eq_some_iff] at h
        obtain ⟨t', h', _⟩ := h
        rcases List.mem_cons.1 hq with rfl | hq
        · right; simp [hz]
        · exact ih h' q hq
      | none => simp [hz] at h

theorem length_flatten_eq {α β : Type*} {a : List (List α)} {b : List (List β)}
    (h : a.map List.length = b.map List.length) : a.flatten.length = b.flatten.length := by
  rw [List.length_flatten, List.length_flatten, h]

theorem mem_zip_of_mem {α β : Type*} {a : List α} {b : List β} (h : a.length = b.length) {y : β}
    (hy : y ∈ b) : ∃ x, (x, y) ∈ a.zip b := by
  rw [List.mem_iff_getElem] at hy
  obtain ⟨i, hi, rfl⟩ := hy
  refine ⟨a[i]'(by omega), ?_⟩
  rw [List.mem_iff_getElem]
  exact ⟨i, by simp; omega, by simp⟩

theorem Mip.WF.known {m : Mip K} (hw : m.WF) {i : ℕ}
    (h : m.rIdx.lookup i ≠ none ∨ m.zIdx.lookup i ≠ none) : i < m.n := by
  rw [← hw.cover, List.mem_append]
  rw [hw.ridx, hw.zidx] at h
  simp only [ne_eq, lookup_zipIdx_none, not_not] at h
  exact h

theorem addLConstr_inv {m m' : Mip K} {coeffs : List (Vec K)} {xs : List (List ℕ)} {sense : Sense}
    {rhs : K} (h : m.addLConstr coeffs xs sense rhs = some m') (hw : m.WF) :
    m'.vars = m.vars ∧ m'.cons = m.cons ++ [⟨coeffs.flatten, xs.flatten, sense, rhs⟩] ∧
      m'.r = m.r ∧ m'.zeta = m.zeta ∧ m'.rIdx = m.rIdx ∧ m'.zIdx = m.zIdx ∧ m'.obj = m.obj ∧
      (∀ i ∈ xs.flatten, i < m.n) ∧ coeffs.map List.length = xs.map List.length := by
  unfold Mip.addLConstr at h
  split_ifs at h with hl
  cases hloop : lconstrLoop m.rIdx m.zIdx (coeffs.flatten.zip xs.flatten) [] [] with
  | none => simp [hloop] at h
  | some t =>
    have hk : ∀ i ∈ xs.flatten, i < m.n := by
      intro i hi
      obtain ⟨c, hc⟩ := mem_zip_of_mem (length_flatten_eq hl.2) hi
      exact hw.known (lconstrLoop_known hloop _ hc)
    simp only [hloop] at h
    cases sense <;> simp at h <;> subst h <;> simp [hl.2] <;> simpa using hk

theorem addLConstr_n {m m' : Mip K} {coeffs : List (Vec K)} {xs : List (List ℕ)} {sense : Sense}
    {rhs : K} (h : m.addLConstr coeffs xs sense rhs = some m') (hw : m.WF) : m'.n = m.n := by
  simp [Mip.n, (addLConstr_inv h hw).1]

theorem addLConstr_wf {m m' : Mip K} {coeffs : List (Vec K)} {xs : List (List ℕ)} {sense : Sense}
    {rhs : K} (h : m.addLConstr coeffs xs sense rhs = some m') (hw : m.WF) : m'.WF := by
  have hn := addLConstr_n h hw
  obtain ⟨_, h2, h3, h4, h5, h6, _, h7, _⟩ := addLConstr_inv h hw
  refine ⟨?_, by rw [h5, h3, hw.ridx], by rw [h6, h4, hw.zidx], by rw [h3, h4]; exact hw.nodup, ?_⟩
  · intro c hc i hi
    rw [hn]
    rw [h2, List.mem_append, List.mem_singleton] at hc
    rcases hc with hc | rfl
    · exact hw.cons_lt c hc i hi
    · exact h7 i hi
  · intro i
    rw [h3, h4, hn]; exact hw.cover i

theorem addLConstr_feas {m m' : Mip K} {coeffs : List (Vec K)} {xs : List (List ℕ)} {sense : Sense}
    {rhs : K} (h : m.addLConstr coeffs xs sense rhs = some m') (hw : m.WF) (v : ℕ → K) :
    m'.Feas v ↔ m.Feas v ∧ sense.Rel (dot coeffs.flatten (xs.flatten.map v)) rhs := by
  obtain ⟨h1, h2, _⟩ := addLConstr_inv h hw
  unfold Mip.Feas
  rw [h1, h2]
  simp only [List.forall_mem_append, List.forall_mem_singleton, GCon.Ok]
  tauto

/-! ### addMConstr -/

theorem addMConstr_inv {m m' : Mip K} {A : List (Tensor2 K)} {x : List (List ℕ)} {sense : Sense}
    {b : Vec K} (h : m.addMConstr A x sense b = some m') :
    m'.vars = m.vars ∧
      m'.cons = m.cons ++ (List.range b.length).map
        (fun i => (⟨catRow A i, x.flatten, sense, b.getD i 0⟩ : GCon K)) ∧
      m'.r = m.r ∧ m'.zeta = m.zeta ∧ m'.rIdx = m.rIdx ∧ m'.zIdx = m.zIdx ∧ m'.obj = m.obj ∧
      (∀ i ∈ x.flatten, i < m.n) ∧ A.length = x.length ∧ (∀ Ai ∈ A, Ai.rows.length = b.length) ∧
      (A.map Tensor2.cols).sum = x.flatten.length := by
  unfold Mip.addMConstr at h
  split_ifs at h with hl
  obtain ⟨h1, _, h2, h3, h4⟩ := hl
  cases sense <;> simp at h <;> subst h <;>
    exact ⟨rfl, rfl, rfl, rfl, rfl, rfl, rfl, h4, h1, h2, h3⟩

theorem addMConstr_n {m m' : Mip K} {A : List (Tensor2 K)} {x : List (List ℕ)} {sense : Sense}
    {b : Vec K} (h : m.addMConstr A x sense b = some m') : m'.n = m.n := by
  simp [Mip.n, (addMConstr_inv h).1]

theorem addMConstr_wf {m m' : Mip K} {A : List (Tensor2 K)} {x : List (List ℕ)} {sense : Sense}
    {b : Vec K} (h : m.addMConstr A x sense b = some m') (hw : m.WF) : m'.WF := by
  have hn := addMConstr_n h
  obtain ⟨_, h2, h3, h4, h5, h6, _, h7, _⟩ := addMConstr_inv h
  refine ⟨?_, by rw [h5, h3, hw.ridx], by rw [h6, h4, hw.zidx], by rw [h3, h4]; exact hw.nodup, ?_⟩
  · intro c hc i hi
    rw [hn]
    rw [h2, List.mem_append] at hc
    rcases hc with hc | hc
    · exact hw.cons_lt c hc i hi
    · rw [List.mem_map] at hc
      obtain ⟨k, _, rfl⟩ := hc
      exact h7 i hi
  · intro i
    rw [h3, h4, hn]; exact hw.cover i

theorem addMConstr_feas {m m' : Mip K} {A : List (Tensor2 K)} {x : List (List ℕ)} {sense : Sense}
    {b : Vec K} (h : m.addMConstr A x sense b = some m') (v : ℕ → K) :
    m'.Feas v ↔ m.Feas v ∧
      ∀ i, i < b.length → sense.Rel (dot (catRow A i) (x.flatten.map v)) (b.getD i 0) := by
  obtain ⟨h1, h2, _⟩ := addMConstr_inv h
  unfold Mip.Feas
  rw [h1, h2]
  simp only [List.forall_mem_append, List.forall_mem_map, List.mem_range, GCon.Ok]
  tauto

theorem addMConstr_isSome (m : Mip K) {A : List (Tensor2 K)} {x : List (List ℕ)} {sense : Sense}
    {b : Vec K} (h1 : A.length = x.length) (h2 : A ≠ []) (h3 : ∀ Ai ∈ A, Ai.rows.length = b.length)
    (h4 : (A.map Tensor2.cols).sum = x.flatten.length) (h5 : ∀ i ∈ x.flatten, i < m.n) :
    ∃ m', m.addMConstr A x sense b = some m' := by
  unfold Mip.addMConstr
  rw [if_pos ⟨h1, h2, h3, h4, h5⟩]
  cases sense <;> exact ⟨_, rfl⟩

@[simp] theorem catRow_nil (i : ℕ) : catRow ([] : List (Tensor2 K)) i = [] := rfl
theorem catRow_cons (A : Tensor2 K) (As : List (Tensor2 K)) (i : ℕ) :
    catRow (A :: As) i = A.rows.getD i [] ++ catRow As i := rfl

theorem dot_catRow_cons (A : Tensor2 K) (As : List (Tensor2 K)) (i : ℕ) (x : List ℕ)
    (xs : List (List ℕ)) (v : ℕ → K) (hA : A.Ok) (hc : A.cols = x.length) (hi : i < A.rows.length) :
    dot (catRow (A :: As) i) ((x :: xs).flatten.map v)
      = dot (A.rows.getD i []) (x.map v) + dot (catRow As i) (xs.flatten.map v) := by
  rw [catRow_cons, List.flatten_cons, List.map_append, dot_append]
  have : A.rows.getD i [] ∈ A.rows := by
    simp [List.getD, hi]
  rw [hA _ this, hc, List.length_map]

/-- The shapes of a block match the variables. -/
def BlockFits (Ax : Option (Tensor2 K)) (rows n : ℕ) : Prop :=
  ∀ M, Ax = some M → M.rows.length = rows ∧ M.cols = n ∧ M.Ok

theorem dot_gather (Ax As Az : Option (Tensor2 K)) (x s z : List ℕ) (v : ℕ → K) (rows i : ℕ)
    (hx : BlockFits Ax rows x.length) (hs : BlockFits As rows s.length)
    (hz : BlockFits Az rows z.length) (hi : i < rows) :
    dot (catRow (gather Ax As Az x s z).1 i) ((gather Ax As Az x s z).2.flatten.map v)
      = dot (mrow Ax i) (x.map v) + dot (mrow As i) (s.map v) + dot (mrow Az i) (z.map v) := by
  have key : ∀ (A : Tensor2 K) (y : List ℕ) (As : List (Tensor2 K)) (xs : List (List ℕ)),
      BlockFits (some A) rows y.length →
      dot (catRow (A :: As) i) ((y :: xs).flatten.map v)
        = dot (A.rows.getD i []) (y.map v) + dot (catRow As i) (xs.flatten.map v) := by
    intro A y As xs hA
    obtain ⟨h1, h2, h3⟩ := hA A rfl
    exact dot_catRow_cons A As i y xs v h3 h2 (by omega)
  cases Ax <;> cases As <;> cases Az <;>
    simp only [gather, addIfSome, List.nil_append, List.cons_append, mrow, dot_nil_left, add_zero,
      zero_add, catRow_nil] <;>
    (try rw [key _ _ _ _ ‹_›]) <;> (try rw [key _ _ _ _ ‹_›]) <;> (try rw [key _ _ _ _ ‹_›]) <;>
    simp only [catRow_nil, dot_nil_left, add_zero, add_assoc]

theorem addBlock_n {m m' : Mip K} {Ax As Az : Option (Tensor2 K)} {rhs : Option (Vec K)} {sense : Sense}
    {x s z : List ℕ} (h : m.addBlock Ax As Az rhs sense x s z = some m') : m'.n = m.n := by
  unfold Mip.addBlock at h
  cases rhs with
  | none => simp at h; rw [h]
  | some b =>
    simp only at h
    split_ifs at h with hb
    · exact addMConstr_n h
    · simp at h; rw [h]

theorem addBlock_wf {m m' : Mip K} {Ax As Az : Option (Tensor2 K)} {rhs : Option (Vec K)}
    {sense : Sense} {x s z : List ℕ} (h : m.addBlock Ax As Az rhs sense x s z = some m') (hw : m.WF) :
    m'.WF := by
  unfold Mip.addBlock at h
  cases rhs with
  | none => simp at h; rw [← h]; exact hw
  | some b =>
    simp only at h
    split_ifs at h with hb
    · exact addMConstr_wf h hw
    · simp at h; rw [← h]; exact hw

theorem addBlock_obj {m m' : Mip K} {Ax As Az : Option (Tensor2 K)} {rhs : Option (Vec K)}
    {sense : Sense} {x s z : List ℕ} (h : m.addBlock Ax As Az rhs sense x s z = some m') :
    m'.obj = m.obj := by
  unfold Mip.addBlock at h
  cases rhs with
  | none => simp at h; rw [h]
  | some b =>
    simp only at h
    split_ifs at h with hb
    · exact (addMConstr_inv h).2.2.2.2.2.2.1
    · simp at h; rw [h]

theorem addBlock_feas {m m' : Mip K} {Ax As Az : Option (Tensor2 K)} {rhs : Option (Vec K)}
    {sense : Sense} {x s z : List ℕ} (h : m.addBlock Ax As Az rhs sense x s z = some m')
    (hx : BlockFits Ax (rhs.getD []).length x.length)
    (hs : BlockFits As (rhs.getD []).length s.length)
    (hz : BlockFits Az (rhs.getD []).length z.length) (v : ℕ → K) :
    m'.Feas v ↔ m.Feas v ∧ ∀ i, i < (rhs.getD []).length →
      sense.Rel (dot (mrow Ax i) (x.map v) + dot (mrow As i) (s.map v) + dot (mrow Az i) (z.map v))
        ((rhs.getD []).getD i 0) := by
  unfold Mip.addBlock at h
  cases rhs with
  | none => simp at h; rw [h]; simp
  | some b =>
    simp only [Option.getD_some] at h hx hs hz ⊢
    split_ifs at h with hb
    · rw [addMConstr_feas h]
      refine and_congr_right fun _ => forall_congr' fun i => forall_congr' fun hi => ?_
      rw [dot_gather Ax As Az x s z v b.length i hx hs hz hi]
    · simp at h
      have : b = [] := by
        cases b with
        | nil => rfl
        | cons _ _ => simp at hb
      rw [h, this]; simp

theorem gather_length (Ax As Az : Option (Tensor2 K)) (x s z : List ℕ) :
    (gather Ax As Az x s z).1.length = (gather Ax As Az x s z).2.length := by
  cases Ax <;> cases As <;> cases Az <;> simp [gather, addIfSome]

theorem gather_rows {Ax As Az : Option (Tensor2 K)} {x s z : List ℕ} {rows : ℕ}
    (hx : BlockFits Ax rows x.length) (hs : BlockFits As rows s.length)
    (hz : BlockFits Az rows z.length) :
    (∀ M ∈ (gather Ax As Az x s z).1, M.rows.length = rows) ∧
      ((gather Ax As Az x s z).1.map Tensor2.cols).sum = (gather Ax As Az x s z).2.flatten.length := by
  constructor
  · intro M hM
    have : Ax = some M ∨ As = some M ∨ Az = some M := by
      cases Ax <;> cases As <;> cases Az <;> simp [gather, addIfSome] at hM ⊢ <;> aesop
    rcases this with h | h | h
    · exact (hx M h).1
    · exact (hs M h).1
    · exact (hz M h).1
  · cases Ax <;> cases As <;> cases Az <;> simp [gather, addIfSome] <;>
      (try rw [(hx _ rfl).2.1]) <;> (try rw [(hs _ rfl).2.1]) <;> (try rw [(hz _ rfl).2.1])

theorem mem_gather {Ax As Az : Option (Tensor2 K)} {x s z : List ℕ} {i : ℕ}
    (h : i ∈ (gather Ax As Az x s z).2.flatten) : i ∈ x ∨ i ∈ s ∨ i ∈ z := by
  cases Ax <;> cases As <;> cases Az <;> simp [gather, addIfSome] at h <;> tauto

theorem addBlock_isSome (m : Mip K) {Ax As Az : Option (Tensor2 K)} {rhs : Option (Vec K)}
    {sense : Sense} {x s z : List ℕ}
    (hx : BlockFits Ax (rhs.getD []).length x.length)
    (hs : BlockFits As (rhs.getD []).length s.length)
    (hz : BlockFits Az (rhs.getD []).length z.length)
    (hne : rhs.getD [] ≠ [] → Ax ≠ none ∨ As ≠ none ∨ Az ≠ none)
    (hlt : ∀ i, i ∈ x ∨ i ∈ s ∨ i ∈ z → i < m.n) :
    ∃ m', m.addBlock Ax As Az rhs sense x s z = some m' := by
  unfold Mip.addBlock
  cases rhs with
  | none => exact ⟨_, rfl⟩
  | some b =>
    simp only [Option.getD_some] at hx hs hz hne ⊢
    split_ifs with hb
    · apply addMConstr_isSome
      · exact gather_length _ _ _ _ _ _
      · have := hne (by intro h; simp [h] at hb)
        cases Ax <;> cases As <;> cases Az <;> simp [gather, addIfSome] at this ⊢
      · exact (gather_rows hx hs hz).1
      · exact (gather_rows hx hs hz).2
      · intro i hi; exact hlt i (mem_gather hi)
    · exact ⟨_, rfl⟩

/-! ### add_mixed_integer_linear_constraints -/

theorem dot_negEyeRow (n i : ℕ) (x : Vec K) (hi : i < n) :
    dot (((List.range n).map fun i => vneg (eyeRow n i)).getD i []) x = - x.getD i 0 := by
  have : ((List.range n).map fun i => vneg (eyeRow n i : Vec K)).getD i [] = vneg (eyeRow n i) := by
    simp [List.getD, hi]
  rw [this, dot_vneg_left, dot_eyeRow _ _ _ hi]

theorem addOut_feas {m m' : Mip K} {c : MIC K} {o : List ℕ} {x s z : List ℕ}
    (h : m.addOut c (some o) x s z = some m') (hc : c.Shaped) (hx : c.numInput = x.length)
    (hs : c.numSlack = s.length) (hz : c.numBinary = z.length) (v : ℕ → K) :
    m'.Feas v ↔ m.Feas v ∧
      ∀ i, i < o.length → v (o.getD i 0) = (c.out (x.map v) (s.map v) (z.map v)).getD i 0 := by
  unfold Mip.addOut at h
  simp only at h
  rw [addMConstr_feas h]
  have hrows := (addMConstr_inv h).2.2.2.2.2.2.2.2.2.1
  have hol : o.length = (outRhs c o.length).length := by
    have := hrows _ List.mem_cons_self
    simpa using this
  rw [← hol]
  refine and_congr_right fun _ => forall_congr' fun i => forall_congr' fun hi => ?_
  have hfit : ∀ (A : Option (Tensor2 K)) (n : ℕ), ShapeIs A c.numOut n →
      (∀ M, A = some M → M.rows.length = o.length) → BlockFits A o.length n := by
    intro A n hA hr M hM
    exact ⟨hr M hM, (hA M hM).2.1, (hA M hM).2.2⟩
  have hr1 : ∀ M, c.Aout_input = some M → M.rows.length = o.length := by
    intro M hM
    rw [hol]; apply hrows
    rw [hM]; cases c.Aout_slack <;> cases c.Aout_binary <;> simp [gather, addIfSome]
  have hr2 : ∀ M, c.Aout_slack = some M → M.rows.length = o.length := by
    intro M hM
    rw [hol]; apply hrows
    rw [hM]; cases c.Aout_input <;> cases c.Aout_binary <;> simp [gather, addIfSome]
  have hr3 : ∀ M, c.Aout_binary = some M → M.rows.length = o.length := by
    intro M hM
    rw [hol]; apply hrows
    rw [hM]; cases c.Aout_input <;> cases c.Aout_slack <;> simp [gather, addIfSome]
  rw [dot_catRow_cons _ _ _ _ _ _ (by intro r hr; simp at hr; obtain ⟨a, _, rfl⟩ := hr; simp) rfl
    (by simpa using hi), dot_negEyeRow _ _ _ hi,
    dot_gather c.Aout_input c.Aout_slack c.Aout_binary x s z v o.length i
      (hx ▸ hfit _ _ hc.aout_x hr1) (hs ▸ hfit _ _ hc.aout_s hr2) (hz ▸ hfit _ _ hc.aout_z hr3) hi]
  have hvo : (o.map v).getD i 0 = v (o.getD i 0) := by simp [List.getD, hi]
  rw [hvo]
  have hrhs : (outRhs c o.length).getD i 0 = - (c.Cout.getD []).getD i 0 := by
    unfold outRhs
    cases c.Cout with
    | none => simp
    | some w => simp only [getD_vneg]; rfl
  rw [hrhs]
  have hout : (c.out (x.map v) (s.map v) (z.map v)).getD i 0 =
      dot (mrow c.Aout_input i) (x.map v) + dot (mrow c.Aout_slack i) (s.map v)
        + dot (mrow c.Aout_binary i) (z.map v) + (c.Cout.getD []).getD i 0 := by
    by_cases hno : i < c.numOut
    · simp [MIC.out, List.getD, hno]
    · have h0 : ∀ (A : Option (Tensor2 K)) (n : ℕ), ShapeIs A c.numOut n → (∀ M, A = some M → M.rows.length = o.length) →
          A = none := by
        intro A n hA hr
        cases A with
        | none => rfl
        | some M => have := (hA M rfl).1; have := hr M rfl; omega
      have e1 := h0 _ _ hc.aout_x hr1
      have e2 := h0 _ _ hc.aout_s hr2
      have e3 := h0 _ _ hc.aout_z hr3
      have e4 : (c.Cout.getD []).getD i 0 = 0 := by
        cases hC : c.Cout with
        | none => simp
        | some w =>
          have hw := hc.cout w hC
          simp [List.getD, List.getElem?_eq_none (show w.length ≤ i by omega)]
      rw [e1, e2, e3, e4]
      simp [MIC.out, List.getD, Nat.le_of_not_lt hno]
  rw [hout]
  simp only [Sense.Rel]
  constructor
  · intro H; linear_combination -H
  · intro H; linear_combination -H

theorem addOut_n {m m' : Mip K} {c : MIC K} {o : Option (List ℕ)} {x s z : List ℕ}
    (h : m.addOut c o x s z = some m') : m'.n = m.n := by
  cases o with
  | none => simp [Mip.addOut] at h; rw [h]
  | some o => simp only [Mip.addOut] at h; exact addMConstr_n h

theorem addOut_wf {m m' : Mip K} {c : MIC K} {o : Option (List ℕ)} {x s z : List ℕ}
    (h : m.addOut c o x s z = some m') (hw : m.WF) : m'.WF := by
  cases o with
  | none => simp [Mip.addOut] at h; rw [← h]; exact hw
  | some o => simp only [Mip.addOut] at h; exact addMConstr_wf h hw

theorem addOut_obj {m m' : Mip K} {c : MIC K} {o : Option (List ℕ)} {x s z : List ℕ}
    (h : m.addOut c o x s z = some m') : m'.obj = m.obj := by
  cases o with
  | none => simp [Mip.addOut] at h; rw [h]
  | some o => simp only [Mip.addOut] at h; exact (addMConstr_inv h).2.2.2.2.2.2.1

theorem addSlack_spec {m m' : Mip K} {c : MIC K} {ids : List ℕ} (h : m.addSlack c = some (m', ids))
    (hw : m.WF) :
    ids = List.range' m.n c.slackSize ∧ m'.n = m.n + c.slackSize ∧ m'.WF ∧ m'.obj = m.obj ∧
      ∀ v, m'.Feas v ↔ m.Feas v ∧ LoOk c.slack_lo (ids.map v) ∧ UpOk c.slack_up (ids.map v) := by
  unfold Mip.addSlack at h
  split_ifs at h with hs
  · simp only [Option.bind_eq_bind] at h
    rw [Option.bind_eq_some_iff] at h
    obtain ⟨⟨m1, i1⟩, h1, h⟩ := h
    rw [Option.bind_eq_some_iff] at h
    obtain ⟨m2, h2, h⟩ := h
    simp at h
    obtain ⟨rfl, rfl⟩ := h
    simp only at h2
    have hi := (addVars_inv h1).2.2.2.1
    have hn := addVars_n h1
    refine ⟨hi, ?_, setVarBound_wf h2 (addVars_wf h1 hw), ?_, ?_⟩
    · rw [setVarBound_n h2, hn]
    · rw [(setVarBound_inv h2).1]; exact (addVars_inv h1).2.2.2.2.2.2
    · intro v
      rw [setVarBound_feas h2 (by rw [hi, hn]; exact mem_range'_lt le_rfl), addVars_feas h1]
      have := newOk_free c.slackSize (i1.map v)
      tauto
  · simp at h
    obtain ⟨rfl, rfl⟩ := h
    simp only [ne_eq, not_not] at hs
    simp [hs, hw, loOk_nil, upOk_nil]

theorem addBin_fresh_spec {m m' : Mip K} {c : MIC K} {bt : VType} {ids : List ℕ}
    (h : m.addBin c .fresh bt = some (m', ids)) (hw : m.WF) :
    ids = List.range' m.n c.binSize ∧ m'.n = m.n + c.binSize ∧ m'.WF ∧ m'.obj = m.obj ∧
      ∀ v, m'.Feas v ↔ m.Feas v ∧ NewOk bt (scalarBound c.binSize 0) (scalarBound c.binSize 1) (ids.map v)
        ∧ LoOk c.binary_lo (ids.map v) ∧ UpOk c.binary_up (ids.map v) := by
  unfold Mip.addBin at h
  split_ifs at h with hs
  · simp only [Option.bind_eq_bind] at h
    rw [Option.bind_eq_some_iff] at h
    obtain ⟨⟨m1, i1⟩, h1, h⟩ := h
    rw [Option.bind_eq_some_iff] at h
    obtain ⟨m2, h2, h⟩ := h
    simp at h
    obtain ⟨rfl, rfl⟩ := h
    simp only at h2
    have hi := (addVars_inv h1).2.2.2.1
    have hn := addVars_n h1
    refine ⟨hi, ?_, setVarBound_wf h2 (addVars_wf h1 hw), ?_, ?_⟩
    · rw [setVarBound_n h2, hn]
    · rw [(setVarBound_inv h2).1]; exact (addVars_inv h1).2.2.2.2.2.2
    · intro v
      rw [setVarBound_feas h2 (by rw [hi, hn]; exact mem_range'_lt le_rfl), addVars_feas h1]
      tauto
  · simp at h
    obtain ⟨rfl, rfl⟩ := h
    simp only [ne_eq, not_not] at hs
    simp [hs, hw, loOk_nil, upOk_nil, NewOk]

theorem addBin_given_spec {m m' : Mip K} {c : MIC K} {bt : VType} {ids zs : List ℕ}
    (h : m.addBin c (.given zs) bt = some (m', ids)) :
    m' = m ∧ ids.length = c.binSize ∧ (c.binSize ≠ 0 → ids = zs) ∧ ∀ i ∈ ids, i < m.n := by
  unfold Mip.addBin at h
  split_ifs at h with hs
  · simp only at h
    split_ifs at h with hl
    simp at h
    obtain ⟨rfl, rfl⟩ := h
    refine ⟨rfl, hl.1, fun _ => rfl, ?_⟩
    intro i hi
    have := List.all_eq_true.1 hl.2 i hi
    unfold vtypeIs at this
    cases hv : m.vars[i]? with
    | none => simp [hv] at this
    | some g => exact (List.getElem?_eq_some_iff.1 hv).1
  · simp at h
    obtain ⟨rfl, rfl⟩ := h
    simp only [ne_eq, not_not] at hs
    simp [hs]

/-- A constraint set whose slack and binary variables are all created, with `n` inputs. -/
structure MIC.Sized (c : MIC K) (n : ℕ) : Prop where
  shaped : c.Shaped
  input : c.numInput = n
  slack : c.slackSize = c.numSlack
  binary : c.binSize = c.numBinary

/-- The rows and the output of a constraint set, for variables of a program. -/
def MIC.At (c : MIC K) (x s z : List ℕ) (o : Option (List ℕ)) (v : ℕ → K) : Prop :=
  c.Holds (x.map v) (s.map v) (z.map v) ∧
    (LoOk c.input_lo (x.map v) ∧ UpOk c.input_up (x.map v)) ∧
    (LoOk c.slack_lo (s.map v) ∧ UpOk c.slack_up (s.map v)) ∧
    ∀ o', o = some o' → ∀ i, i < o'.length →
      v (o'.getD i 0) = (c.out (x.map v) (s.map v) (z.map v)).getD i 0

theorem addRows_spec {m1 m2 m3 m4 : Mip K} {c : MIC K} {x s z : List ℕ} {o : Option (List ℕ)}
    (hc : c.Shaped) (hx : c.numInput = x.length) (hs : c.numSlack = s.length)
    (hz : c.numBinary = z.length) (hw : m1.WF)
    (h2 : m1.addBlock c.Ain_input c.Ain_slack c.Ain_binary c.rhs_in .le x s z = some m2)
    (h3 : m2.addBlock c.Aeq_input c.Aeq_slack c.Aeq_binary c.rhs_eq .eq x s z = some m3)
    (h4 : m3.addOut c o x s z = some m4) :
    m4.n = m1.n ∧ m4.WF ∧ m4.obj = m1.obj ∧ ∀ v, m4.Feas v ↔ m1.Feas v ∧
      c.Holds (x.map v) (s.map v) (z.map v) ∧ ∀ o', o = some o' → ∀ i, i < o'.length →
      v (o'.getD i 0) = (c.out (x.map v) (s.map v) (z.map v)).getD i 0 := by
  refine ⟨?_, addOut_wf h4 (addBlock_wf h3 (addBlock_wf h2 hw)), ?_, ?_⟩
  · rw [addOut_n h4, addBlock_n h3, addBlock_n h2]
  · rw [addOut_obj h4, addBlock_obj h3, addBlock_obj h2]
  · intro v
    have fit : ∀ (A : Option (Tensor2 K)) (r n k : ℕ), ShapeIs A r n → n = k → BlockFits A r k := by
      intro A r n k hA hn M hM
      obtain ⟨a, b, d⟩ := hA M hM
      exact ⟨a, by omega, d⟩
    have e4 : m4.Feas v ↔ m3.Feas v ∧ ∀ o', o = some o' → ∀ i, i < o'.length →
        v (o'.getD i 0) = (c.out (x.map v) (s.map v) (z.map v)).getD i 0 := by
      cases o with
      | none => simp [Mip.addOut] at h4; rw [h4]; simp
      | some o =>
        rw [addOut_feas h4 hc hx hs hz]
        simp
    rw [e4, addBlock_feas h3 (fit _ _ _ _ hc.aeq_x hx) (fit _ _ _ _ hc.aeq_s hs)
      (fit _ _ _ _ hc.aeq_z hz), addBlock_feas h2 (fit _ _ _ _ hc.ain_x hx)
      (fit _ _ _ _ hc.ain_s hs) (fit _ _ _ _ hc.ain_z hz), MIC.holds_iff]
    simp only [Sense.Rel, MIC.numIneq, MIC.numEq]
    tauto

theorem addMIC_inv {m m' : Mip K} {c : MIC K} {x s z : List ℕ} {o : Option (List ℕ)} {name : BinName}
    {bt : VType} (h : m.addMIC c x o name bt = some (m', s, z)) :
    ∃ m0 m1 m2 m3 m4, m.setVarBound x c.input_lo c.input_up = some m0 ∧
      m0.addSlack c = some (m1, s) ∧ m1.addBin c name bt = some (m2, z) ∧
      m2.addBlock c.Ain_input c.Ain_slack c.Ain_binary c.rhs_in .le x s z = some m3 ∧
      m3.addBlock c.Aeq_input c.Aeq_slack c.Aeq_binary c.rhs_eq .eq x s z = some m4 ∧
      m4.addOut c o x s z = some m' := by
  unfold Mip.addMIC at h
  simp only [Option.bind_eq_bind, Option.bind_eq_some_iff] at h
  obtain ⟨m0, h0, ⟨m1, s1⟩, h1, ⟨m2, z2⟩, h2, m3, h3, m4, h4, m5, h5, h6⟩ := h
  simp at h6
  obtain ⟨rfl, rfl, rfl⟩ := h6
  exact ⟨m0, m1, m2, m3, m4, h0, h1, h2, h3, h4, h5⟩

theorem addMIC_fresh_spec {m m' : Mip K} {c : MIC K} {x s z : List ℕ} {o : Option (List ℕ)}
    {bt : VType} (h : m.addMIC c x o .fresh bt = some (m', s, z)) (hw : m.WF)
    (hc : c.Sized x.length) (hx : ∀ i ∈ x, i < m.n) :
    s = List.range' m.n c.numSlack ∧ z = List.range' (m.n + c.numSlack) c.numBinary ∧
      m'.n = m.n + c.numSlack + c.numBinary ∧ m'.WF ∧ m'.obj = m.obj ∧
      ∀ v, m'.Feas v ↔ m.Feas v ∧ c.At x s z o v ∧
        NewOk bt (scalarBound c.numBinary 0) (scalarBound c.numBinary 1) (z.map v) ∧
        LoOk c.binary_lo (z.map v) ∧ UpOk c.binary_up (z.map v) := by
  obtain ⟨m0, m1, m2, m3, m4, h0, h1, h2, h3, h4, h5⟩ := addMIC_inv h
  have n0 := setVarBound_n h0
  obtain ⟨hs, n1, w1, o1, f1⟩ := addSlack_spec h1 (setVarBound_wf h0 hw)
  obtain ⟨hz, n2, w2, o2, f2⟩ := addBin_fresh_spec h2 w1
  rw [hc.slack] at hs n1
  rw [hc.binary] at hz n2
  obtain ⟨n4, w4, o4, f4⟩ := addRows_spec hc.shaped hc.input (by rw [hs]; simp) (by rw [hz]; simp) w2
    h3 h4 h5
  refine ⟨by rw [hs, n0], by rw [hz, n1, n0], by omega, w4, ?_, ?_⟩
  · rw [o4, o2, o1, (setVarBound_inv h0).1]
  · intro v
    rw [f4, f2, f1, setVarBound_feas h0 hx, hc.binary, MIC.At]
    tauto

theorem addMIC_given_spec {m m' : Mip K} {c : MIC K} {x s z zs : List ℕ} {o : Option (List ℕ)}
    {bt : VType} (h : m.addMIC c x o (.given zs) bt = some (m', s, z)) (hw : m.WF)
    (hc : c.Sized x.length) (hx : ∀ i ∈ x, i < m.n) :
    s = List.range' m.n c.numSlack ∧ z.length = c.numBinary ∧ (c.numBinary ≠ 0 → z = zs) ∧
      m'.n = m.n + c.numSlack ∧ m'.WF ∧ m'.obj = m.obj ∧
      ∀ v, m'.Feas v ↔ m.Feas v ∧ c.At x s z o v := by
  obtain ⟨m0, m1, m2, m3, m4, h0, h1, h2, h3, h4, h5⟩ := addMIC_inv h
  have n0 := setVarBound_n h0
  obtain ⟨hs, n1, w1, o1, f1⟩ := addSlack_spec h1 (setVarBound_wf h0 hw)
  obtain ⟨rfl, hz, hz', _⟩ := addBin_given_spec h2
  rw [hc.slack] at hs n1
  rw [hc.binary] at hz hz'
  obtain ⟨n4, w4, o4, f4⟩ := addRows_spec hc.shaped hc.input (by rw [hs]; simp) hz.symm w1 h3 h4 h5
  refine ⟨by rw [hs, n0], hz, hz', by omega, w4, ?_, ?_⟩
  · rw [o4, o1, (setVarBound_inv h0).1]
  · intro v
    rw [f4, f1, setVarBound_feas h0 hx, MIC.At]
    tauto

end NNL.Model
