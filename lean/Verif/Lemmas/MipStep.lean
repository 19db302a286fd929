import Verif.Lemmas.Mip

/-!
# Composing calls on a program

`Step m m' k P`: `m'` is well formed, has `k` more variables than `m`, the same objective, and is `m`
restricted by `P`. `Enc m m' D R`: `m'` extends `m` by an encoding: its points satisfy `R`, and every point
of `m` that satisfies `D` extends to a point of `m'`.
-/

set_option linter.unusedSectionVars false

namespace NNL.Model

open NNL

variable {K : Type*} [Field K] [LinearOrder K]

/-- `m'` has `k` more variables than `m` and in addition requires `P`. -/
structure Step (m m' : Mip K) (k : ℕ) (P : (ℕ → K) → Prop) : Prop where
  wf : m'.WF
  n : m'.n = m.n + k
  obj : m'.obj = m.obj
  feas : ∀ v, m'.Feas v ↔ m.Feas v ∧ P v

theorem Step.refl {m : Mip K} (hw : m.WF) : Step m m 0 fun _ => True :=
  ⟨hw, by simp, rfl, by simp⟩

theorem Step.trans {m m1 m2 : Mip K} {k l : ℕ} {P Q : (ℕ → K) → Prop} (h1 : Step m m1 k P)
    (h2 : Step m1 m2 l Q) : Step m m2 (k + l) fun v => P v ∧ Q v :=
  ⟨h2.wf, by rw [h2.n, h1.n]; omega, by rw [h2.obj, h1.obj],
    fun v => by rw [h2.feas, h1.feas, and_assoc]⟩

theorem Step.congr {m m1 : Mip K} {k l : ℕ} {P Q : (ℕ → K) → Prop} (h1 : Step m m1 k P) (hk : k = l)
    (h : ∀ v, P v ↔ Q v) : Step m m1 l Q :=
  ⟨h1.wf, by rw [h1.n, hk], h1.obj, fun v => by rw [h1.feas, h]⟩

/-- An encoding: `R` holds at all points of `m'`; all points of `m` with `D` extend. -/
structure Enc (m m' : Mip K) (D R : (ℕ → K) → Prop) : Prop where
  wf : m'.WF
  n : m.n ≤ m'.n
  obj : m'.obj = m.obj
  sound : ∀ v, m'.Feas v → m.Feas v ∧ R v
  complete : ∀ v, m.Feas v → D v → ∃ v', (∀ i, i < m.n → v' i = v i) ∧ m'.Feas v'

/-- A step whose new variables can be filled in. -/
theorem Step.enc {m m' : Mip K} (hm : m.WF) {k : ℕ} {P D R : (ℕ → K) → Prop} (h : Step m m' k P)
    (hR : ∀ v, P v → R v)
    (hD : ∀ v, m.Feas v → D v → ∃ w : Vec K, w.length = k ∧ P (upd v m.n w)) : Enc m m' D R := by
  refine ⟨h.wf, by rw [h.n]; omega, h.obj, fun v hv => ?_, fun v hv hd => ?_⟩
  · rw [h.feas] at hv
    exact ⟨hv.1, hR v hv.2⟩
  · obtain ⟨w, hw, hP⟩ := hD v hv hd
    refine ⟨upd v m.n w, fun i hi => upd_lt _ _ _ _ hi, (h.feas _).2 ⟨?_, hP⟩⟩
    exact (hm.feas_congr fun i hi => upd_lt _ _ _ _ hi).2 hv

/-- A property that depends only on the variables below `n`. -/
def DepsBelow (n : ℕ) (D : (ℕ → K) → Prop) : Prop := ∀ v w, (∀ i, i < n → v i = w i) → D v → D w

theorem Enc.trans {m m1 m2 : Mip K} {D R D2 R2 : (ℕ → K) → Prop} (h1 : Enc m m1 D R)
    (h2 : Enc m1 m2 D2 R2) (h : ∀ v v', (∀ i, i < m.n → v' i = v i) → D v → m1.Feas v' → R v' → D2 v') :
    Enc m m2 D fun v => R v ∧ R2 v := by
  refine ⟨h2.wf, h1.n.trans h2.n, by rw [h2.obj, h1.obj], fun v hv => ?_, fun v hv hd => ?_⟩
  · obtain ⟨a, b⟩ := h2.sound v hv
    obtain ⟨c, d⟩ := h1.sound v a
    exact ⟨c, d, b⟩
  · obtain ⟨v1, e1, f1⟩ := h1.complete v hv hd
    obtain ⟨v2, e2, f2⟩ := h2.complete v1 f1 (h v v1 e1 hd f1 (h1.sound v1 f1).2)
    exact ⟨v2, fun i hi => by rw [e2 i (lt_of_lt_of_le hi h1.n), e1 i hi], f2⟩

theorem Enc.weaken {m m' : Mip K} {D R D2 R2 : (ℕ → K) → Prop} (h : Enc m m' D R)
    (hD : ∀ v, m.Feas v → D2 v → D v) (hR : ∀ v, m'.Feas v → R v → R2 v) : Enc m m' D2 R2 :=
  ⟨h.wf, h.n, h.obj, fun v hv => ⟨(h.sound v hv).1, hR v hv (h.sound v hv).2⟩,
    fun v hv hd => h.complete v hv (hD v hv hd)⟩

/-! ### The calls as steps -/

variable [IsStrictOrderedRing K]

theorem step_addVars {m m' : Mip K} {num : ℕ} {lb ub : List (Option K)} {vt : VType} {ids : List ℕ}
    (h : m.addVars num lb ub vt = some (m', ids)) (hw : m.WF) :
    Step m m' num fun v => NewOk vt lb ub ((List.range' m.n num).map v) := by
  refine ⟨addVars_wf h hw, addVars_n h, (addVars_inv h).2.2.2.2.2.2, fun v => ?_⟩
  rw [addVars_feas h, (addVars_inv h).2.2.2.1]

theorem free_addVars (m : Mip K) (hw : m.WF) (n : ℕ) :
    ∃ m', m.addVars n (noBound n) (noBound n) .continuous = some (m', List.range' m.n n) ∧
      Step m m' n fun _ => True := by
  obtain ⟨m', h⟩ := addVars_isSome m (num := n) (lb := noBound n) (ub := noBound n)
    (vt := .continuous) (by simp [noBound]) (by simp [noBound]) (by simp)
  exact ⟨m', h, (step_addVars h hw).congr rfl fun v => by simp [newOk_free]⟩

theorem binary_addVars (m : Mip K) (hw : m.WF) (n : ℕ) :
    ∃ m', m.addVars n (scalarBound n 0) (scalarBound n 1) .binary = some (m', List.range' m.n n) ∧
      Step m m' n fun v => IsBin ((List.range' m.n n).map v) := by
  obtain ⟨m', h⟩ := addVars_isSome m (num := n) (lb := scalarBound n 0) (ub := scalarBound n 1)
    (vt := .binary) (by simp [scalarBound]) (by simp [scalarBound]) (by simp)
  refine ⟨m', h, (step_addVars h hw).congr rfl fun v => ?_⟩
  have := newOk_binary ((List.range' m.n n).map v)
  simpa using this

theorem lconstrLoop_isSome {m : Mip K} (hw : m.WF) (l : List (K × ℕ)) (ur uz : List ℕ)
    (hn : (l.map Prod.snd).Nodup) (hl : ∀ t ∈ l, t.2 < m.n)
    (hu : ∀ t ∈ l, (∀ j ∈ ur, m.r[j]? ≠ some t.2) ∧ ∀ j ∈ uz, m.zeta[j]? ≠ some t.2) :
    ∃ t, lconstrLoop m.rIdx m.zIdx l ur uz = some t := by
  induction l generalizing ur uz with
  | nil => exact ⟨_, rfl⟩
  | cons t l ih =>
    obtain ⟨c, i⟩ := t
    simp only [List.map_cons, List.nodup_cons] at hn
    have hne : ∀ t ∈ l, t.2 ≠ i := by
      rintro t ht rfl
      exact hn.1 (List.mem_map_of_mem ht)
    have hl' : ∀ t ∈ l, t.2 < m.n := fun t ht => hl t (by simp [ht])
    rw [lconstrLoop]
    cases hr : m.rIdx.lookup i with
    | some j =>
      have hr' := hr
      rw [hw.ridx] at hr'
      have hj : m.r[j]? = some i := by simpa using (lookup_zipIdx_some hr').2
      have : j ∉ ur := fun h => (hu (c, i) (by simp)).1 j h hj
      obtain ⟨t, ht⟩ := ih (j :: ur) uz hn.2 hl' fun t ht => ⟨by
        intro k hk
        rcases List.mem_cons.1 hk with rfl | hk
        · rw [hj]
          intro e
          exact hne t ht (by simpa using e.symm)
        · exact (hu t (by simp [ht])).1 k hk, (hu t (by simp [ht])).2⟩
      simp [this, ht]
    | none =>
      cases hz : m.zIdx.lookup i with
      | some j =>
        have hz' := hz
        rw [hw.zidx] at hz'
        have hj : m.zeta[j]? = some i := by simpa using (lookup_zipIdx_some hz').2
        have : j ∉ uz := fun h => (hu (c, i) (by simp)).2 j h hj
        obtain ⟨t, ht⟩ := ih ur (j :: uz) hn.2 hl' fun t ht => ⟨(hu t (by simp [ht])).1, by
          intro k hk
          rcases List.mem_cons.1 hk with rfl | hk
          · rw [hj]
            intro e
            exact hne t ht (by simpa using e.symm)
          · exact (hu t (by simp [ht])).2 k hk⟩
        simp [this, ht]
      | none =>
        exfalso
        rw [hw.ridx] at hr
        rw [hw.zidx] at hz
        have := (hw.cover i).2 (hl (c, i) (by simp))
        rw [List.mem_append] at this
        rcases this with h | h
        · exact lookup_zipIdx_none.1 hr h
        · exact lookup_zipIdx_none.1 hz h

theorem map_snd_zip_sublist {α β : Type*} (a : List α) (b : List β) :
    ((a.zip b).map Prod.snd).Sublist b := by
  induction a generalizing b with
  | nil => simp
  | cons x a ih => cases b with
    | nil => simp
    | cons y b => simpa using ih b

theorem step_addLConstr {m m' : Mip K} {coeffs : List (Vec K)} {xs : List (List ℕ)} {sense : Sense}
    {rhs : K} (h : m.addLConstr coeffs xs sense rhs = some m') (hw : m.WF) :
    Step m m' 0 fun v => sense.Rel (dot coeffs.flatten (xs.flatten.map v)) rhs :=
  ⟨addLConstr_wf h hw, by rw [addLConstr_n h hw]; simp, (addLConstr_inv h hw).2.2.2.2.2.2.1,
    addLConstr_feas h hw⟩

theorem addLConstr_isSome (m : Mip K) (hw : m.WF) (coeffs : List (Vec K)) (xs : List (List ℕ))
    (sense : Sense) (rhs : K) (h1 : coeffs.length = xs.length)
    (h2 : coeffs.map List.length = xs.map List.length) (hn : xs.flatten.Nodup)
    (hl : ∀ i ∈ xs.flatten, i < m.n) : ∃ m', m.addLConstr coeffs xs sense rhs = some m' := by
  obtain ⟨t, ht⟩ := lconstrLoop_isSome hw (coeffs.flatten.zip xs.flatten) [] []
    (List.Nodup.sublist (map_snd_zip_sublist _ _) hn)
    (fun t ht => hl _ (List.of_mem_zip (show (t.1, t.2) ∈ _ from ht)).2) (by simp)
  unfold Mip.addLConstr
  rw [if_pos ⟨h1, h2⟩]
  simp only [ht]
  cases sense <;> exact ⟨_, rfl⟩

theorem step_addMConstr {m m' : Mip K} {A : List (Tensor2 K)} {x : List (List ℕ)} {sense : Sense}
    {b : Vec K} (h : m.addMConstr A x sense b = some m') (hw : m.WF) :
    Step m m' 0 fun v =>
      ∀ i, i < b.length → sense.Rel (dot (catRow A i) (x.flatten.map v)) (b.getD i 0) :=
  ⟨addMConstr_wf h hw, by rw [addMConstr_n h]; simp, (addMConstr_inv h).2.2.2.2.2.2.1,
    addMConstr_feas h⟩

/-! ### Constraint sets -/

/-- What `add_mixed_integer_linear_constraints` needs of the bounds: they have the right lengths. -/
structure MIC.BoundLens (c : MIC K) : Prop where
  ilo : ∀ l, c.input_lo = some l → l.length = c.numInput
  iup : ∀ l, c.input_up = some l → l.length = c.numInput
  slo : ∀ l, c.slack_lo = some l → l.length = c.numSlack
  sup : ∀ l, c.slack_up = some l → l.length = c.numSlack
  blo : ∀ l, c.binary_lo = some l → l.length = c.numBinary
  bup : ∀ l, c.binary_up = some l → l.length = c.numBinary

/-- Every block of rows has a coefficient matrix. -/
structure MIC.NoEmptyRows (c : MIC K) : Prop where
  ineq : 0 < c.numIneq → c.Ain_input ≠ none ∨ c.Ain_slack ≠ none ∨ c.Ain_binary ≠ none
  eq : 0 < c.numEq → c.Aeq_input ≠ none ∨ c.Aeq_slack ≠ none ∨ c.Aeq_binary ≠ none

theorem addSlack_isSome (m : Mip K) (c : MIC K) (h : c.slackSize = c.numSlack) (hb : c.BoundLens) :
    ∃ t, m.addSlack c = some t := by
  unfold Mip.addSlack
  split_ifs with hs
  · obtain ⟨m1, h1⟩ := addVars_isSome m (num := c.slackSize) (lb := noBound c.slackSize)
      (ub := noBound c.slackSize) (vt := .continuous) (by simp [noBound]) (by simp [noBound]) (by simp)
    obtain ⟨m2, h2⟩ := setVarBound_isSome m1 (ids := List.range' m.n c.slackSize) (lo := c.slack_lo)
      (up := c.slack_up) (fun l hl => by simp [hb.slo l hl, h]) (fun l hl => by simp [hb.sup l hl, h])
    exact ⟨(m2, List.range' m.n c.slackSize), by simp [h1, h2]⟩
  · exact ⟨_, rfl⟩

theorem addBin_isSome (m : Mip K) (c : MIC K) (h : c.binSize = c.numBinary) (hb : c.BoundLens)
    (bt : VType) (hbt : bt ≠ .other) : ∃ t, m.addBin c .fresh bt = some t := by
  unfold Mip.addBin
  split_ifs with hs
  · obtain ⟨m1, h1⟩ := addVars_isSome m (num := c.binSize) (lb := scalarBound c.binSize 0)
      (ub := scalarBound c.binSize 1) (vt := bt) (by simp [scalarBound]) (by simp [scalarBound]) hbt
    obtain ⟨m2, h2⟩ := setVarBound_isSome m1 (ids := List.range' m.n c.binSize) (lo := c.binary_lo)
      (up := c.binary_up) (fun l hl => by simp [hb.blo l hl, h]) (fun l hl => by simp [hb.bup l hl, h])
    exact ⟨(m2, List.range' m.n c.binSize), by simp [h1, h2]⟩
  · exact ⟨_, rfl⟩

theorem blockFits_of_shapeIs {A : Option (Tensor2 K)} {r n k : ℕ} (h : ShapeIs A r n) (hk : n = k) :
    BlockFits A r k := by
  intro M hM
  obtain ⟨a, b, d⟩ := h M hM
  exact ⟨a, by omega, d⟩

theorem addOut_isSome (m : Mip K) (c : MIC K) (hc : c.Shaped) (o : Option (List ℕ)) (x s z : List ℕ)
    (hx : c.numInput = x.length) (hs : c.numSlack = s.length) (hz : c.numBinary = z.length)
    (ho : ∀ o', o = some o' → o'.length = c.numOut ∧ ∀ i ∈ o', i < m.n)
    (hlt : ∀ i, i ∈ x ∨ i ∈ s ∨ i ∈ z → i < m.n) :
    ∃ m', m.addOut c o x s z = some m' := by
  cases o with
  | none => exact ⟨_, rfl⟩
  | some o =>
    obtain ⟨h1, h2⟩ := ho o rfl
    have f1 := blockFits_of_shapeIs hc.aout_x hx
    have f2 := blockFits_of_shapeIs hc.aout_s hs
    have f3 := blockFits_of_shapeIs hc.aout_z hz
    have hr : (outRhs c o.length).length = c.numOut := by
      unfold outRhs
      cases hC : c.Cout with
      | none => simpa using h1
      | some w => simpa using hc.cout w hC
    simp only [Mip.addOut]
    apply addMConstr_isSome
    · simp [gather_length]
    · simp
    · intro M hM
      rw [hr]
      rcases List.mem_cons.1 hM with rfl | hM
      · simpa using h1
      · exact (gather_rows f1 f2 f3).1 M hM
    · have := (gather_rows f1 f2 f3).2
      simp [this]
    · intro i hi
      rw [List.flatten_cons, List.mem_append] at hi
      rcases hi with hi | hi
      · exact h2 i hi
      · exact hlt i (mem_gather hi)

/-- Everything `add_mixed_integer_linear_constraints` needs of a constraint set with `n` inputs. -/
structure MIC.Ready (c : MIC K) (n : ℕ) : Prop where
  sized : c.Sized n
  lens : c.BoundLens
  rows : c.NoEmptyRows

theorem addMIC_isSome (m : Mip K) (hw : m.WF) (c : MIC K) (x : List ℕ) (o : Option (List ℕ)) (bt : VType)
    (hbt : bt ≠ .other) (hc : c.Ready x.length) (hx : ∀ i ∈ x, i < m.n)
    (ho : ∀ o', o = some o' → o'.length = c.numOut ∧ ∀ i ∈ o', i < m.n) :
    ∃ t, m.addMIC c x o .fresh bt = some t := by
  obtain ⟨m0, h0⟩ := setVarBound_isSome m (ids := x) (lo := c.input_lo) (up := c.input_up)
    (fun l hl => by rw [hc.lens.ilo l hl, hc.sized.input])
    (fun l hl => by rw [hc.lens.iup l hl, hc.sized.input])
  have w0 := setVarBound_wf h0 hw
  have n0 := setVarBound_n h0
  obtain ⟨⟨m1, s⟩, h1⟩ := addSlack_isSome m0 c hc.sized.slack hc.lens
  obtain ⟨hs, n1, w1, _, _⟩ := addSlack_spec h1 w0
  obtain ⟨⟨m2, z⟩, h2⟩ := addBin_isSome m1 c hc.sized.binary hc.lens bt hbt
  obtain ⟨hz, n2, w2, _, _⟩ := addBin_fresh_spec h2 w1
  have hlt : ∀ i, i ∈ x ∨ i ∈ s ∨ i ∈ z → i < m2.n := by
    intro i hi
    rcases hi with hi | hi | hi
    · have := hx i hi; omega
    · rw [hs] at hi
      have := mem_range'_lt le_rfl i hi
      omega
    · rw [hz] at hi
      have := mem_range'_lt le_rfl i hi
      omega
  have ls : c.numSlack = s.length := by rw [hs]; simp [hc.sized.slack]
  have lz : c.numBinary = z.length := by rw [hz]; simp [hc.sized.binary]
  have hsh := hc.sized.shaped
  obtain ⟨m3, h3⟩ := addBlock_isSome m2 (sense := .le) (blockFits_of_shapeIs hsh.ain_x hc.sized.input)
    (blockFits_of_shapeIs hsh.ain_s ls) (blockFits_of_shapeIs hsh.ain_z lz)
    (fun h => hc.rows.ineq (List.length_pos_iff.2 h)) hlt
  have n3 := addBlock_n h3
  obtain ⟨m4, h4⟩ := addBlock_isSome m3 (sense := .eq) (blockFits_of_shapeIs hsh.aeq_x hc.sized.input)
    (blockFits_of_shapeIs hsh.aeq_s ls) (blockFits_of_shapeIs hsh.aeq_z lz)
    (fun h => hc.rows.eq (List.length_pos_iff.2 h)) (by rw [n3]; exact hlt)
  have n4 := addBlock_n h4
  obtain ⟨m5, h5⟩ := addOut_isSome m4 c hsh o x s z hc.sized.input ls lz
    (fun o' h => ⟨(ho o' h).1, fun i hi => by have := (ho o' h).2 i hi; omega⟩)
    (by rw [n4, n3]; exact hlt)
  refine ⟨(m5, s, z), ?_⟩
  unfold Mip.addMIC
  simp [h0, h1, h2, h3, h4, h5]

/-- `add_mixed_integer_linear_constraints` with new binary variables, as a step. -/
theorem mic_step (m : Mip K) (hw : m.WF) (c : MIC K) (x : List ℕ) (o : Option (List ℕ))
    (hc : c.Ready x.length) (hx : ∀ i ∈ x, i < m.n)
    (ho : ∀ o', o = some o' → o'.length = c.numOut ∧ ∀ i ∈ o', i < m.n) :
    ∃ m', m.addMIC c x o .fresh .binary = some (m', List.range' m.n c.numSlack,
        List.range' (m.n + c.numSlack) c.numBinary) ∧
      Step m m' (c.numSlack + c.numBinary) fun v =>
        c.Feas (x.map v) ((List.range' m.n c.numSlack).map v)
          ((List.range' (m.n + c.numSlack) c.numBinary).map v) ∧
        ∀ o', o = some o' → ∀ i, i < o'.length → v (o'.getD i 0) =
          (c.out (x.map v) ((List.range' m.n c.numSlack).map v)
            ((List.range' (m.n + c.numSlack) c.numBinary).map v)).getD i 0 := by
  obtain ⟨⟨m', s, z⟩, h⟩ := addMIC_isSome m hw c x o .binary (by simp) hc hx ho
  obtain ⟨h1, h2, h3, h4, h5, h6⟩ := addMIC_fresh_spec h hw hc.sized hx
  refine ⟨m', by rw [h, h1, h2], h4, by rw [h3]; omega, h5, fun v => ?_⟩
  rw [h6]
  have hz : (z.map v).length = c.numBinary := by rw [h2]; simp
  have hs : (s.map v).length = c.numSlack := by rw [h1]; simp
  have hbin := newOk_binary (z.map v)
  rw [hz] at hbin
  rw [hbin, ← h1, ← h2]
  constructor
  · rintro ⟨a, ⟨b1, b2, b3, b4⟩, c1, c2, c3⟩
    exact ⟨a, ⟨hs, hz, c1, b1, b2.1, b2.2, b3.1, b3.2, c2, c3⟩, b4⟩
  · rintro ⟨a, ⟨_, _, b3, b4, b5, b6, b7, b8, b9, b10⟩, c1⟩
    exact ⟨a, ⟨b4, ⟨b5, b6⟩, ⟨b7, b8⟩, c1⟩, b3, b9, b10⟩

end NNL.Model
