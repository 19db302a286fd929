import Verif.Lemmas.HybridBounds

/-!
# C42, C43, C44: hybrid linear systems
-/

set_option linter.unusedSectionVars false

namespace NNL.Props

open NNL NNL.Spec NNL.Model

variable {K : Type*} [Field K] [LinearOrder K] [IsStrictOrderedRing K]

/-! ## C44 -/

/-- The systems obtained by any sequence of calls of `add_mode`. -/
inductive Built (lp : LpSolver K) (n m : ℕ) : Hybrid K → Prop
  | new : Built lp n m { xdim := n, udim := m }
  | add {S S' : Hybrid K} {md : HMode K} (h : Built lp n m S) (ha : S.addMode lp md = some S') : Built lp n m S'

/-- The values of entry `j` of `[x; u]` over the modes. -/
def coords (modes : List (HMode K)) (d j : ℕ) : Set K :=
  {v | ∃ md ∈ modes, ∃ w : Vec K, w.length = d ∧ InPoly md.P md.q w ∧ w.getD j 0 = v}

/-- What the calls establish. -/
structure Recorded (n m : ℕ) (S : Hybrid K) : Prop where
  xdim : S.xdim = n
  udim : S.udim = m
  ok : ∀ md ∈ S.modes, md.Ok n m
  lenLo : S.loAll.length = n + m
  lenUp : S.upAll.length = n + m
  numLo : S.los.length = S.modes.length
  numUp : S.ups.length = S.modes.length
  inf : ∀ j, j < n + m → ExactInf (coords S.modes (n + m) j) (S.loAll.getD j ⊤)
  sup : ∀ j, j < n + m → ExactSup (coords S.modes (n + m) j) (S.upAll.getD j ⊥)
  infs : ∀ i (hi : i < S.modes.length), ∀ j, j < n + m →
    ExactInf (coords [S.modes[i]] (n + m) j) ((S.los.getD i []).getD j ⊤)
  sups : ∀ i (hi : i < S.modes.length), ∀ j, j < n + m →
    ExactSup (coords [S.modes[i]] (n + m) j) ((S.ups.getD i []).getD j ⊥)

theorem coords_append (l l' : List (HMode K)) (d j : ℕ) : coords (l ++ l') d j = coords l d j ∪ coords l' d j := by
  ext v
  simp only [coords, List.mem_append, Set.mem_union, Set.mem_ofPred_eq, or_and_right, exists_or]

/-- C44. After any sequence of calls of `add_mode` with a correct solver, the bounds of every mode and the
bounds over all modes are the exact infima and suprema (attained when finite). -/
theorem C44_recorded {lp : LpSolver K} (ht : lp.Truthful) {n m : ℕ} {S : Hybrid K} (h : Built lp n m S) :
    Recorded n m S := by
  induction h with
  | new =>
    refine ⟨rfl, rfl, by simp, by simp, by simp, by simp, by simp, fun j hj => ?_, fun j hj => ?_, ?_, ?_⟩
    · have : coords ([] : List (HMode K)) (n + m) j = ∅ := by ext; simp [coords]
      rw [this]
      simpa [List.getD, List.getElem?_replicate, hj] using exactInf_empty
    · have : coords ([] : List (HMode K)) (n + m) j = ∅ := by ext; simp [coords]
      rw [this]
      simpa [List.getD, List.getElem?_replicate, hj] using exactSup_empty
    · intro i hi
      simp at hi
    · intro i hi
      simp at hi
  | @add S S' md _ ha ih =>
    obtain ⟨e1, e2, ok, l1, l2, n1, n2, hinf, hsup, hinfs, hsups⟩ := ih
    unfold Hybrid.addMode at ha
    rw [e1, e2] at ha
    split at ha
    · rename_i hok
      cases hb : boundsOf lp (n + m) md.P md.q (eye (n + m)) with
      | none => rw [hb] at ha; cases ha
      | some b =>
        rw [hb] at ha
        obtain ⟨b1, b2, be⟩ := boundsOf_exact ht _ hb
        simp only [length_eye] at b1 b2 be
        have be' : ∀ j, j < n + m → ExactInf (coords [md] (n + m) j) (b.1.getD j ⊤) ∧
            ExactSup (coords [md] (n + m) j) (b.2.getD j ⊥) := by
          intro j hj
          have := be j hj
          rw [polyValues_eye _ _ _ _ hj] at this
          simpa [coords] using this
        simp only [Option.bind_eq_bind, Option.bind_some, Option.some.injEq] at ha
        subst ha
        refine ⟨rfl, rfl, ?_, by simp [l1, b1], by simp [l2, b2], by simp [n1], by simp [n2], fun j hj => ?_,
          fun j hj => ?_, fun i hi j hj => ?_, fun i hi j hj => ?_⟩
        · intro x hx
          simp only [List.mem_append, List.mem_singleton] at hx
          rcases hx with hx | rfl
          · exact ok x hx
          · exact hok
        · simp only
          rw [coords_append, getD_zipWith_ext _ _ _ _ _ (by omega) (by omega)]
          exact (hinf j hj).union (be' j hj).1
        · simp only
          rw [coords_append, getD_zipWith_ext _ _ _ _ _ (by omega) (by omega)]
          exact (hsup j hj).union (be' j hj).2
        · simp only at hi ⊢
          rcases Nat.lt_or_ge i S.modes.length with h | h
          · rw [getD_append_lt _ _ _ _ (by omega), List.getElem_append_left h]
            exact hinfs i h j hj
          · have : i = S.modes.length := by simp at hi; omega
            subst this
            have := (be' j hj).1
            simpa [List.getD, n1] using this
        · simp only at hi ⊢
          rcases Nat.lt_or_ge i S.modes.length with h | h
          · rw [getD_append_lt _ _ _ _ (by omega), List.getElem_append_left h]
            exact hsups i h j hj
          · have : i = S.modes.length := by simp at hi; omega
            subst this
            have := (be' j hj).2
            simpa [List.getD, n2] using this
    · cases ha

/-- C44. The recorded bounds contain every mode. -/
theorem C44_contains {lp : LpSolver K} (ht : lp.Truthful) {n m : ℕ} {S : Hybrid K} (h : Built lp n m S)
    {md : HMode K} (hmd : md ∈ S.modes) {x u : Vec K} (hx : x.length = n) (hu : u.length = m)
    (hP : md.Has x u) (j : ℕ) (hj : j < n + m) :
    S.loAll.getD j ⊤ ≤ Ext.fin ((x ++ u).getD j 0) ∧ Ext.fin ((x ++ u).getD j 0) ≤ S.upAll.getD j ⊥ := by
  have R := C44_recorded ht h
  have hv : (x ++ u).getD j 0 ∈ coords S.modes (n + m) j := ⟨md, hmd, x ++ u, by simp [hx, hu], hP, rfl⟩
  exact ⟨(R.inf j hj).1.1 ⟨_, hv, rfl⟩, (R.sup j hj).1.1 ⟨_, hv, rfl⟩⟩

/-- C44. A finite recorded bound is attained in some mode. -/
theorem C44_attained {lp : LpSolver K} (ht : lp.Truthful) {n m : ℕ} {S : Hybrid K} (h : Built lp n m S)
    (j : ℕ) (hj : j < n + m) (v : K) :
    (S.loAll.getD j ⊤ = Ext.fin v → ∃ md ∈ S.modes, ∃ w : Vec K, w.length = n + m ∧ InPoly md.P md.q w ∧
      w.getD j 0 = v) ∧
    (S.upAll.getD j ⊥ = Ext.fin v → ∃ md ∈ S.modes, ∃ w : Vec K, w.length = n + m ∧ InPoly md.P md.q w ∧
      w.getD j 0 = v) := by
  have R := C44_recorded ht h
  exact ⟨fun e => (R.inf j hj).2 v e, fun e => (R.sup j hj).2 v e⟩

/-! ### Without input -/

/-- The autonomous systems obtained by any sequence of calls of `add_mode`. -/
inductive ABuilt (lp : LpSolver K) (n : ℕ) : AutoHybrid K → Prop
  | new : ABuilt lp n { xdim := n }
  | add {S S' : AutoHybrid K} {md : AMode K} (h : ABuilt lp n S) (ha : S.addMode lp md = some S') :
    ABuilt lp n S'

/-- The values of entry `j` of `A x + g` over the modes. -/
def derivs (modes : List (AMode K)) (n j : ℕ) : Set K :=
  {v | ∃ md ∈ modes, ∃ w : Vec K, w.length = n ∧ InPoly md.P md.q w ∧ (vadd (matVec md.A w) md.g).getD j 0 = v}

/-- What the calls establish. -/
structure ARecorded (n : ℕ) (S : AutoHybrid K) : Prop where
  xdim : S.xdim = n
  ok : ∀ md ∈ S.modes, md.toH.Ok n 0
  lenLo : S.loAll.length = n
  lenUp : S.upAll.length = n
  lenDLo : S.dxLo.length = n
  lenDUp : S.dxUp.length = n
  numLo : S.axLo.length = S.modes.length
  numUp : S.axUp.length = S.modes.length
  inf : ∀ j, j < n → ExactInf (coords (S.modes.map AMode.toH) n j) (S.loAll.getD j ⊤)
  sup : ∀ j, j < n → ExactSup (coords (S.modes.map AMode.toH) n j) (S.upAll.getD j ⊥)
  dinf : ∀ j, j < n → ExactInf (derivs S.modes n j) (S.dxLo.getD j ⊤)
  dsup : ∀ j, j < n → ExactSup (derivs S.modes n j) (S.dxUp.getD j ⊥)
  infs : ∀ i (hi : i < S.modes.length), ∀ j, j < n →
    ExactInf (polyValues n S.modes[i].P S.modes[i].q (S.modes[i].A.getD j [])) ((S.axLo.getD i []).getD j ⊤)
  sups : ∀ i (hi : i < S.modes.length), ∀ j, j < n →
    ExactSup (polyValues n S.modes[i].P S.modes[i].q (S.modes[i].A.getD j [])) ((S.axUp.getD i []).getD j ⊥)

theorem derivs_append (l l' : List (AMode K)) (d j : ℕ) : derivs (l ++ l') d j = derivs l d j ∪ derivs l' d j := by
  ext v
  simp only [derivs, List.mem_append, Set.mem_union, Set.mem_ofPred_eq, or_and_right, exists_or]

theorem derivs_one (md : AMode K) (n j : ℕ) (h : md.toH.Ok n 0) :
    derivs [md] n j = (· + md.g.getD j 0) '' polyValues n md.P md.q (md.A.getD j []) := by
  have h1 : md.A.length = n := h.rowsA
  have h2 : md.g.length = n := h.c
  ext v
  simp only [derivs, polyValues, List.mem_singleton, exists_eq_left, Set.mem_ofPred_eq, Set.mem_image]
  have e : ∀ w : Vec K, (vadd (matVec md.A w) md.g).getD j 0 = dot (md.A.getD j []) w + md.g.getD j 0 := by
    intro w
    rw [getD_vadd _ _ _ (by simp [h1, h2]), getD_matVec]
  constructor
  · rintro ⟨w, a, b, c⟩
    exact ⟨_, ⟨w, a, b, rfl⟩, by rw [← e]; exact c⟩
  · rintro ⟨_, ⟨w, a, b, rfl⟩, c⟩
    exact ⟨w, a, b, by rw [e]; exact c⟩

/-- C44. After any sequence of calls of `add_mode` of the autonomous system, the state bounds, the bounds of
`A x` in each mode and the bounds of the derivative are the exact infima and suprema. -/
theorem C44_auto_recorded {lp : LpSolver K} (ht : lp.Truthful) {n : ℕ} {S : AutoHybrid K}
    (h : ABuilt lp n S) : ARecorded n S := by
  induction h with
  | new =>
    have e1 : ∀ j, coords (([] : List (AMode K)).map AMode.toH) n j = ∅ := by intro j; ext; simp [coords]
    have e2 : ∀ j, derivs ([] : List (AMode K)) n j = ∅ := by intro j; ext; simp [derivs]
    refine ⟨rfl, by simp, by simp, by simp, by simp, by simp, by simp, by simp, fun j hj => ?_, fun j hj => ?_,
      fun j hj => ?_, fun j hj => ?_, ?_, ?_⟩
    · rw [e1]; simpa [List.getD, List.getElem?_replicate, hj] using exactInf_empty
    · rw [e1]; simpa [List.getD, List.getElem?_replicate, hj] using exactSup_empty
    · rw [e2]; simpa [List.getD, List.getElem?_replicate, hj] using exactInf_empty
    · rw [e2]; simpa [List.getD, List.getElem?_replicate, hj] using exactSup_empty
    · intro i hi
      simp at hi
    · intro i hi
      simp at hi
  | @add S S' md _ ha ih =>
    obtain ⟨e1, ok, l1, l2, l3, l4, n1, n2, hinf, hsup, dinf, dsup, hinfs, hsups⟩ := ih
    unfold AutoHybrid.addMode at ha
    rw [e1] at ha
    split at ha
    · rename_i hok
      cases hb : boundsOf lp n md.P md.q (eye n) with
      | none => rw [hb] at ha; cases ha
      | some b =>
        cases hd : boundsOf lp n md.P md.q md.A with
        | none => rw [hb, hd] at ha; cases ha
        | some d =>
          rw [hb, hd] at ha
          obtain ⟨b1, b2, be⟩ := boundsOf_exact ht _ hb
          obtain ⟨d1, d2, de⟩ := boundsOf_exact ht _ hd
          simp only [length_eye] at b1 b2 be
          have hA : md.A.length = n := hok.rowsA
          have hg : md.g.length = n := hok.c
          rw [hA] at d1 d2 de
          have be' : ∀ j, j < n → ExactInf (coords [md.toH] n j) (b.1.getD j ⊤) ∧
              ExactSup (coords [md.toH] n j) (b.2.getD j ⊥) := by
            intro j hj
            have := be j hj
            rw [polyValues_eye _ _ _ _ hj] at this
            simpa [coords, AMode.toH] using this
          have de' : ∀ j, j < n → ExactInf (derivs [md] n j) ((List.zipWith Ext.addFin d.1 md.g).getD j ⊤) ∧
              ExactSup (derivs [md] n j) ((List.zipWith Ext.addFin d.2 md.g).getD j ⊥) := by
            intro j hj
            have z1 : (List.zipWith Ext.addFin d.1 md.g).getD j ⊤ = (d.1.getD j ⊤).addFin (md.g.getD j 0) := by
              simp [List.getD, d1, hg, hj]
            have z2 : (List.zipWith Ext.addFin d.2 md.g).getD j ⊥ = (d.2.getD j ⊥).addFin (md.g.getD j 0) := by
              simp [List.getD, d2, hg, hj]
            rw [derivs_one _ _ _ hok, z1, z2]
            exact ⟨(de j hj).1.add _, (de j hj).2.add _⟩
          simp only [Option.bind_eq_bind, Option.bind_some, Option.some.injEq] at ha
          subst ha
          refine ⟨rfl, ?_, by simp [l1, b1], by simp [l2, b2], by simp [l3, d1, hg], by simp [l4, d2, hg],
            by simp [n1], by simp [n2], fun j hj => ?_, fun j hj => ?_, fun j hj => ?_, fun j hj => ?_,
            fun i hi j hj => ?_, fun i hi j hj => ?_⟩
          · intro x hx
            simp only [List.mem_append, List.mem_singleton] at hx
            rcases hx with hx | rfl
            · exact ok x hx
            · exact hok
          · simp only [List.map_append, List.map_cons, List.map_nil]
            rw [coords_append, getD_zipWith_ext _ _ _ _ _ (by omega) (by omega)]
            exact (hinf j hj).union (be' j hj).1
          · simp only [List.map_append, List.map_cons, List.map_nil]
            rw [coords_append, getD_zipWith_ext _ _ _ _ _ (by omega) (by omega)]
            exact (hsup j hj).union (be' j hj).2
          · simp only
            rw [derivs_append, getD_zipWith_ext _ _ _ _ _ (by omega) (by simp [d1, hg, hj])]
            exact (dinf j hj).union (de' j hj).1
          · simp only
            rw [derivs_append, getD_zipWith_ext _ _ _ _ _ (by omega) (by simp [d2, hg, hj])]
            exact (dsup j hj).union (de' j hj).2
          · simp only at hi ⊢
            rcases Nat.lt_or_ge i S.modes.length with h | h
            · rw [getD_append_lt _ _ _ _ (by omega), List.getElem_append_left h]
              exact hinfs i h j hj
            · have : i = S.modes.length := by simp at hi; omega
              subst this
              have := (de j hj).1
              simpa [List.getD, n1] using this
          · simp only at hi ⊢
            rcases Nat.lt_or_ge i S.modes.length with h | h
            · rw [getD_append_lt _ _ _ _ (by omega), List.getElem_append_left h]
              exact hsups i h j hj
            · have : i = S.modes.length := by simp at hi; omega
              subst this
              have := (de j hj).2
              simpa [List.getD, n2] using this
    · cases ha

/-- C44. The recorded state bounds contain every state of every mode, and the recorded derivative bounds its
derivative. -/
theorem C44_auto_contains {lp : LpSolver K} (ht : lp.Truthful) {n : ℕ} {S : AutoHybrid K} (h : ABuilt lp n S)
    {md : AMode K} (hmd : md ∈ S.modes) {x : Vec K} (hx : x.length = n) (hP : InPoly md.P md.q x) (j : ℕ)
    (hj : j < n) :
    (S.loAll.getD j ⊤ ≤ Ext.fin (x.getD j 0) ∧ Ext.fin (x.getD j 0) ≤ S.upAll.getD j ⊥) ∧
    S.dxLo.getD j ⊤ ≤ Ext.fin ((vadd (matVec md.A x) md.g).getD j 0) ∧
      Ext.fin ((vadd (matVec md.A x) md.g).getD j 0) ≤ S.dxUp.getD j ⊥ := by
  have R := C44_auto_recorded ht h
  have hv : x.getD j 0 ∈ coords (S.modes.map AMode.toH) n j :=
    ⟨md.toH, List.mem_map_of_mem hmd, x, hx, hP, rfl⟩
  have hd : (vadd (matVec md.A x) md.g).getD j 0 ∈ derivs S.modes n j := ⟨md, hmd, x, hx, hP, rfl⟩
  exact ⟨⟨(R.inf j hj).1.1 ⟨_, hv, rfl⟩, (R.sup j hj).1.1 ⟨_, hv, rfl⟩⟩, (R.dinf j hj).1.1 ⟨_, hd, rfl⟩,
    (R.dsup j hj).1.1 ⟨_, hd, rfl⟩⟩

/-! ## C42 -/

/-- C42. The constraint set built for the bounds `lo`, `up` holds at `(x, u)` with output `x⁺` exactly if
`(x, u)` is in the box and `x⁺` is a successor of `(x, u)`; the slacks and binaries are then determined by
the mode. -/
theorem C42_exact {n m : ℕ} {modes : List (HMode K)} {lo up : Vec K} {c : MIC K}
    (h : hybridMIC n m modes lo up = some c) (hm : ∀ md ∈ modes, md.Ok n m) (hl : lo.length = n + m)
    (hup : up.length = n + m) {x u : Vec K} (hx : x.length = n) (hu : u.length = m) (xn : Vec K) :
    (∃ s z, c.Feas (x ++ u) s z ∧ c.out (x ++ u) s z = xn) ↔ InBox lo up (x ++ u) ∧ HStep modes x u xn := by
  constructor
  · rintro ⟨s, z, hf, ho⟩
    obtain ⟨hb, i, hi, hP, rfl, rfl⟩ := (hybrid_feas h hm hx hu hl hup).1 hf
    rw [hybrid_out h hm hx hu hi] at ho
    exact ⟨hb, modes[i], List.getElem_mem hi, hP, ho.symm⟩
  · rintro ⟨hb, md, hmd, hP, rfl⟩
    obtain ⟨i, hi, rfl⟩ := List.mem_iff_getElem.1 hmd
    exact ⟨_, _, (hybrid_feas h hm hx hu hl hup).2 ⟨hb, i, hi, hP, rfl, rfl⟩, hybrid_out h hm hx hu hi⟩

/-- The bounds given by the caller hold. -/
def Given (lo up : Option (Vec K)) (x : Vec K) : Prop :=
  (∀ l, lo = some l → ∀ i, i < x.length → l.getD i 0 ≤ x.getD i 0) ∧
    ∀ u, up = some u → ∀ i, i < x.length → x.getD i 0 ≤ u.getD i 0

theorem tighten_max {l r : List (Ext K)} {x : Option (Vec K)} (h : tighten max l x = some r) :
    r.length = l.length ∧ ∀ i, i < l.length → ∀ a, (r.getD i ⊤ ≤ Ext.fin a ↔ l.getD i ⊤ ≤ Ext.fin a ∧
      ∀ y, x = some y → y.getD i 0 ≤ a) := by
  unfold tighten at h
  cases x with
  | none =>
    cases h
    simp
  | some y =>
    simp only at h
    split at h
    · rename_i hy
      cases h
      refine ⟨by simp [hy], fun i hi a => ?_⟩
      have : (y.map Ext.fin).getD i ⊤ = Ext.fin (y.getD i 0) := by simp [List.getD, hy, hi]
      rw [getD_zipWith_ext _ _ _ _ _ hi (by simp [hy, hi]), this, max_le_iff, fin_le_fin]
      simp
    · cases h

theorem tighten_min {l r : List (Ext K)} {x : Option (Vec K)} (h : tighten min l x = some r) :
    r.length = l.length ∧ ∀ i, i < l.length → ∀ a, (Ext.fin a ≤ r.getD i ⊥ ↔ Ext.fin a ≤ l.getD i ⊥ ∧
      ∀ y, x = some y → a ≤ y.getD i 0) := by
  unfold tighten at h
  cases x with
  | none =>
    cases h
    simp
  | some y =>
    simp only at h
    split at h
    · rename_i hy
      cases h
      refine ⟨by simp [hy], fun i hi a => ?_⟩
      have : (y.map Ext.fin).getD i ⊥ = Ext.fin (y.getD i 0) := by simp [List.getD, hy, hi]
      rw [getD_zipWith_ext _ _ _ _ _ hi (by simp [hy, hi]), this, le_min_iff, fin_le_fin]
      simp
    · cases h

theorem fin_getD {l : List (Ext K)} {v : Vec K} (h : finVec l = some v) (i : ℕ) (hi : i < l.length)
    (d : Ext K) : l.getD i d = Ext.fin (v.getD i 0) := by
  have e := finVec_some h
  subst e
  have hi' : i < v.length := by simpa using hi
  simp [List.getD, hi']

/-- The parts of a successful call. -/
theorem mic_parts {S : Hybrid K} {xlo xup ulo uup : Option (Vec K)} {c : MIC K}
    (h : S.mic xlo xup ulo uup = some c) : ∃ a b e d lo up, tighten max (S.loAll.take S.xdim) xlo = some a ∧
      tighten min (S.upAll.take S.xdim) xup = some b ∧ tighten max (S.loAll.drop S.xdim) ulo = some e ∧
      tighten min (S.upAll.drop S.xdim) uup = some d ∧ finVec (a ++ e) = some lo ∧ finVec (b ++ d) = some up ∧
      hybridMIC S.xdim S.udim S.modes lo up = some c := by
  unfold Hybrid.mic at h
  simp only [Option.bind_eq_bind, Option.bind_eq_some_iff] at h
  obtain ⟨a, ha, b, hb, e, he, d, hd, lo, hlo, up, hup, h⟩ := h
  exact ⟨a, b, e, d, lo, up, ha, hb, he, hd, hlo, hup, h⟩

/-- The box used for the products: the recorded bounds and those of the caller. -/
theorem mic_box {n m : ℕ} {S : Hybrid K} (R : Recorded n m S) {xlo xup ulo uup : Option (Vec K)}
    {a b e d : List (Ext K)} {lo up : Vec K} (ha : tighten max (S.loAll.take S.xdim) xlo = some a)
    (hb : tighten min (S.upAll.take S.xdim) xup = some b)
    (he : tighten max (S.loAll.drop S.xdim) ulo = some e)
    (hd : tighten min (S.upAll.drop S.xdim) uup = some d) (hlo : finVec (a ++ e) = some lo)
    (hup : finVec (b ++ d) = some up) :
    lo.length = n + m ∧ up.length = n + m ∧ ∀ x u : Vec K, x.length = n → u.length = m →
      (InBox lo up (x ++ u) ↔ (∀ j, j < n + m → S.loAll.getD j ⊤ ≤ Ext.fin ((x ++ u).getD j 0) ∧
        Ext.fin ((x ++ u).getD j 0) ≤ S.upAll.getD j ⊥) ∧ Given xlo xup x ∧ Given ulo uup u) := by
  rw [R.xdim] at ha hb he hd
  obtain ⟨la, ea⟩ := tighten_max ha
  obtain ⟨lb, eb⟩ := tighten_min hb
  obtain ⟨le, ee⟩ := tighten_max he
  obtain ⟨ld, ed⟩ := tighten_min hd
  simp only [List.length_take, List.length_drop, R.lenLo, R.lenUp] at la lb le ld ea eb ee ed
  have l1 := congrArg List.length (finVec_some hlo)
  have l2 := congrArg List.length (finVec_some hup)
  simp only [List.length_append, List.length_map] at l1 l2
  refine ⟨by omega, by omega, fun x u hx hu => ?_⟩
  have lw : (x ++ u).length = n + m := by simp [hx, hu]
  -- the bounds, entry by entry
  have kx : ∀ j, j < n → ((lo.getD j 0 ≤ (x ++ u).getD j 0 ↔ S.loAll.getD j ⊤ ≤ Ext.fin ((x ++ u).getD j 0) ∧
      ∀ y, xlo = some y → y.getD j 0 ≤ x.getD j 0) ∧
      ((x ++ u).getD j 0 ≤ up.getD j 0 ↔ Ext.fin ((x ++ u).getD j 0) ≤ S.upAll.getD j ⊥ ∧
      ∀ y, xup = some y → x.getD j 0 ≤ y.getD j 0)) := by
    intro j hj
    have e1 := fin_getD hlo j (by simp; omega) ⊤
    have e2 := fin_getD hup j (by simp; omega) ⊥
    rw [getD_append_lt _ _ _ _ (by omega)] at e1 e2
    have t1 := ea j (by omega) (x.getD j 0)
    have t2 := eb j (by omega) (x.getD j 0)
    rw [e1, fin_le_fin] at t1
    rw [e2, fin_le_fin] at t2
    have g1 : (S.loAll.take n).getD j ⊤ = S.loAll.getD j ⊤ := by simp [List.getD, hj]
    have g2 : (S.upAll.take n).getD j ⊥ = S.upAll.getD j ⊥ := by simp [List.getD, hj]
    rw [g1] at t1
    rw [g2] at t2
    rw [getD_append_lt x u _ _ (by omega)]
    exact ⟨t1, t2⟩
  have ku : ∀ j, j < m → ((lo.getD (n + j) 0 ≤ (x ++ u).getD (n + j) 0 ↔
      S.loAll.getD (n + j) ⊤ ≤ Ext.fin ((x ++ u).getD (n + j) 0) ∧
      ∀ y, ulo = some y → y.getD j 0 ≤ u.getD j 0) ∧
      ((x ++ u).getD (n + j) 0 ≤ up.getD (n + j) 0 ↔ Ext.fin ((x ++ u).getD (n + j) 0) ≤ S.upAll.getD (n + j) ⊥ ∧
      ∀ y, uup = some y → u.getD j 0 ≤ y.getD j 0)) := by
    intro j hj
    have e1 := fin_getD hlo (n + j) (by simp; omega) ⊤
    have e2 := fin_getD hup (n + j) (by simp; omega) ⊥
    have a1 : n = a.length := by omega
    have b1 : n = b.length := by omega
    have x1 : n = x.length := by omega
    rw [show (a ++ e).getD (n + j) ⊤ = e.getD j ⊤ by rw [a1, getD_append_add]] at e1
    rw [show (b ++ d).getD (n + j) ⊥ = d.getD j ⊥ by rw [b1, getD_append_add]] at e2
    have t1 := ee j (by omega) (u.getD j 0)
    have t2 := ed j (by omega) (u.getD j 0)
    rw [e1, fin_le_fin] at t1
    rw [e2, fin_le_fin] at t2
    have g1 : (S.loAll.drop n).getD j ⊤ = S.loAll.getD (n + j) ⊤ := by simp [List.getD]
    have g2 : (S.upAll.drop n).getD j ⊥ = S.upAll.getD (n + j) ⊥ := by simp [List.getD]
    rw [g1] at t1
    rw [g2] at t2
    rw [show (x ++ u).getD (n + j) 0 = u.getD j 0 by rw [x1, getD_append_add]]
    exact ⟨t1, t2⟩
  constructor
  · rintro ⟨-, -, hb⟩
    rw [lw] at hb
    refine ⟨fun j hj => ?_, ⟨fun y hy i hi => ?_, fun y hy i hi => ?_⟩, fun y hy i hi => ?_, fun y hy i hi => ?_⟩
    · rcases Nat.lt_or_ge j n with h | h
      · exact ⟨((kx j h).1.1 (hb j hj).1).1, ((kx j h).2.1 (hb j hj).2).1⟩
      · obtain ⟨r, rfl⟩ := Nat.exists_eq_add_of_le h
        have hr : r < m := by omega
        exact ⟨((ku r hr).1.1 (hb _ hj).1).1, ((ku r hr).2.1 (hb _ hj).2).1⟩
    · exact ((kx i (by omega)).1.1 (hb i (by omega)).1).2 y hy
    · exact ((kx i (by omega)).2.1 (hb i (by omega)).2).2 y hy
    · exact ((ku i (by omega)).1.1 (hb (n + i) (by omega)).1).2 y hy
    · exact ((ku i (by omega)).2.1 (hb (n + i) (by omega)).2).2 y hy
  · rintro ⟨hb, ⟨g1, g2⟩, g3, g4⟩
    refine ⟨by omega, by omega, fun j hj => ?_⟩
    rw [lw] at hj
    rcases Nat.lt_or_ge j n with h | h
    · exact ⟨(kx j h).1.2 ⟨(hb j hj).1, fun y hy => g1 y hy j (by omega)⟩,
        (kx j h).2.2 ⟨(hb j hj).2, fun y hy => g2 y hy j (by omega)⟩⟩
    · obtain ⟨r, rfl⟩ := Nat.exists_eq_add_of_le h
      have hr : r < m := by omega
      exact ⟨(ku r hr).1.2 ⟨(hb _ hj).1, fun y hy => g3 y hy r (by omega)⟩,
        (ku r hr).2.2 ⟨(hb _ hj).2, fun y hy => g4 y hy r (by omega)⟩⟩

/-- C42. For a hybrid system built by any calls of `add_mode`: the constraints returned by
`mixed_integer_constraints` are satisfied at `(x, u)` with output `x⁺` exactly if the bounds given by the
caller hold and some mode contains `(x, u)` and maps it to `x⁺`. -/
theorem C42_controlled {lp : LpSolver K} (ht : lp.Truthful) {n m : ℕ} {S : Hybrid K} (hS : Built lp n m S)
    {xlo xup ulo uup : Option (Vec K)} {c : MIC K} (h : S.mic xlo xup ulo uup = some c) {x u : Vec K}
    (hx : x.length = n) (hu : u.length = m) (xn : Vec K) :
    (∃ s z, c.Feas (x ++ u) s z ∧ c.out (x ++ u) s z = xn) ↔
      (Given xlo xup x ∧ Given ulo uup u) ∧ HStep S.modes x u xn := by
  have R := C44_recorded ht hS
  obtain ⟨a, b, e, d, lo, up, ha, hb, he, hd, hlo, hup, hc⟩ := mic_parts h
  obtain ⟨l1, l2, hbox⟩ := mic_box R ha hb he hd hlo hup
  rw [R.xdim, R.udim] at hc
  rw [C42_exact hc R.ok l1 l2 hx hu, hbox x u hx hu]
  constructor
  · rintro ⟨⟨-, g⟩, hs⟩
    exact ⟨g, hs⟩
  · rintro ⟨g, md, hmd, hP, he⟩
    exact ⟨⟨fun j hj => C44_contains ht hS hmd hx hu hP j hj, g⟩, md, hmd, hP, he⟩

theorem hybridMIC_isSome {n m : ℕ} {modes : List (HMode K)} {lo up : Vec K} (hne : modes ≠ [])
    (hb : ∀ j, j < n + m → lo.getD j 0 ≤ up.getD j 0) : ∃ c, hybridMIC n m modes lo up = some c := by
  obtain ⟨rs, h⟩ := prodLoop_isSome (k := modes.length) hb
    ((List.range modes.length).flatMap fun i => (List.range (n + m)).map fun j => (i, j)) (by
      intro p hp
      simp only [List.mem_flatMap, List.mem_range, List.mem_map] at hp
      obtain ⟨i, hi, j, hj, rfl⟩ := hp
      exact hj)
  unfold hybridMIC
  simp only
  rw [if_neg hne, h]
  exact ⟨_, rfl⟩

/-- C42. The constraints exist if the modes are bounded and at least one of them is not empty. -/
theorem C42_available {lp : LpSolver K} (ht : lp.Truthful) {n m : ℕ} {S : Hybrid K} (hS : Built lp n m S)
    (hb : ∀ md ∈ S.modes, ∃ M, ∀ w : Vec K, w.length = n + m → InPoly md.P md.q w →
      ∀ j, j < n + m → -M ≤ w.getD j 0 ∧ w.getD j 0 ≤ M)
    (hne : ∃ md ∈ S.modes, ∃ w : Vec K, w.length = n + m ∧ InPoly md.P md.q w) :
    ∃ c, S.mic none none none none = some c := by
  have R := C44_recorded ht hS
  -- one bound for all modes
  have hall : ∀ l : List (HMode K), (∀ md ∈ l, ∃ M, ∀ w : Vec K, w.length = n + m → InPoly md.P md.q w →
      ∀ j, j < n + m → -M ≤ w.getD j 0 ∧ w.getD j 0 ≤ M) →
      ∃ M, ∀ md ∈ l, ∀ w : Vec K, w.length = n + m → InPoly md.P md.q w →
      ∀ j, j < n + m → -M ≤ w.getD j 0 ∧ w.getD j 0 ≤ M := by
    intro l
    induction l with
    | nil => exact fun _ => ⟨0, by simp⟩
    | cons a l ih =>
      intro h
      obtain ⟨M1, h1⟩ := h a (by simp)
      obtain ⟨M2, h2⟩ := ih fun md hmd => h md (by simp [hmd])
      refine ⟨max M1 M2, fun md hmd w hw hP j hj => ?_⟩
      have m1 := le_max_left M1 M2
      have m2 := le_max_right M1 M2
      rcases List.mem_cons.1 hmd with rfl | hmd
      · have := h1 w hw hP j hj
        constructor <;> linarith
      · have := h2 md hmd w hw hP j hj
        constructor <;> linarith
  obtain ⟨M, hM⟩ := hall S.modes hb
  obtain ⟨md, hmd, w, hw, hP⟩ := hne
  have hmem : ∀ j, w.getD j 0 ∈ coords S.modes (n + m) j := fun j => ⟨md, hmd, w, hw, hP, rfl⟩
  have flo : ∀ j, j < n + m → ∃ v, S.loAll.getD j ⊤ = Ext.fin v := by
    intro j hj
    have hinf := R.inf j hj
    rcases ext_cases (S.loAll.getD j ⊤) with e | e | e
    · rw [e] at hinf
      refine absurd ⟨-M, ?_⟩ hinf.bot
      rintro _ ⟨md, hmd, w, hw, hP, rfl⟩
      exact (hM md hmd w hw hP j hj).1
    · rw [e] at hinf
      have := hmem j
      rw [hinf.top] at this
      cases this
    · exact e
  have fup : ∀ j, j < n + m → ∃ v, S.upAll.getD j ⊥ = Ext.fin v := by
    intro j hj
    have hsup := R.sup j hj
    rcases ext_cases (S.upAll.getD j ⊥) with e | e | e
    · rw [e] at hsup
      have := hmem j
      rw [hsup.bot] at this
      cases this
    · rw [e] at hsup
      refine absurd ⟨M, ?_⟩ hsup.top
      rintro _ ⟨md, hmd, w, hw, hP, rfl⟩
      exact (hM md hmd w hw hP j hj).2
    · exact e
  obtain ⟨lo, hlo⟩ := finVec_isSome S.loAll (by rw [R.lenLo]; exact flo)
  obtain ⟨up, hup⟩ := finVec_isSome S.upAll (by
    rw [R.lenUp]
    intro i hi
    obtain ⟨v, hv⟩ := fup i hi
    refine ⟨v, ?_⟩
    rw [← hv]
    simp [List.getD, R.lenUp, hi])
  have hle : ∀ j, j < n + m → lo.getD j 0 ≤ up.getD j 0 := by
    intro j hj
    have a := (R.inf j hj).1.1 ⟨_, hmem j, rfl⟩
    have b := (R.sup j hj).1.1 ⟨_, hmem j, rfl⟩
    rw [fin_getD hlo j (by rw [R.lenLo]; exact hj), fin_le_fin] at a
    rw [fin_getD hup j (by rw [R.lenUp]; exact hj), fin_le_fin] at b
    exact le_trans a b
  obtain ⟨c, hc⟩ := hybridMIC_isSome (List.ne_nil_of_mem hmd) hle
  refine ⟨c, ?_⟩
  unfold Hybrid.mic
  simp only [tighten, Option.bind_eq_bind, Option.bind_some, List.take_append_drop, hlo, hup, R.xdim,
    R.udim, hc]

/-- C42. `add_dynamics_constraint` adds exactly the dynamics: every solution of the new program satisfies
them, and every solution of the old program that satisfies them extends to a solution of the new one. -/
theorem C42_dynamics {lp : LpSolver K} (ht : lp.Truthful) {n m : ℕ} {S : Hybrid K} (hS : Built lp n m S)
    (hc : (S.mic none none none none).isSome) (mip : Mip K) (hw : mip.WF) (x xn u : List ℕ)
    (lx : x.length = n) (lxn : xn.length = n) (lu : u.length = m) (hx : ∀ i ∈ x, i < mip.n)
    (hxn : ∀ i ∈ xn, i < mip.n) (hu : ∀ i ∈ u, i < mip.n) :
    ∃ mip' s g, S.addDynamics mip x xn u .binary = some (mip', s, g) ∧
      s.length = (n + m) * S.modes.length ∧ g.length = S.modes.length ∧
      Enc mip mip' (fun v => HStep S.modes (x.map v) (u.map v) (xn.map v)) fun v =>
        HStep S.modes (x.map v) (u.map v) (xn.map v) ∧ IsBin (g.map v) := by
  have R := C44_recorded ht hS
  obtain ⟨c, hc⟩ := Option.isSome_iff_exists.1 hc
  obtain ⟨a, b, e, d, lo, up, ha, hb, he, hd, hlo, hup, hM⟩ := mic_parts hc
  rw [R.xdim, R.udim] at hM
  have hr := hybrid_ready hM R.ok
  obtain ⟨n1, n2, n3, -⟩ := hybrid_num hM
  obtain ⟨mip', h1, -, h3⟩ := mic_out_enc mip hw c (x ++ u) xn (by simpa [lx, lu] using hr)
    (by
      intro i hi
      rcases List.mem_append.1 hi with hi | hi
      · exact hx i hi
      · exact hu i hi) (by omega) hxn
  refine ⟨mip', List.range' mip.n c.numSlack, List.range' (mip.n + c.numSlack) c.numBinary,
    by simp [Hybrid.addDynamics, hc, h1], by simp [n1], by simp [n2], h3.weaken ?_ ?_⟩
  · intro v _ hv
    rw [List.map_append]
    exact (C42_controlled ht hS hc (by simp [lx]) (by simp [lu]) _).2
      ⟨⟨⟨by simp, by simp⟩, by simp, by simp⟩, hv⟩
  · intro v _ hv
    refine ⟨?_, hv.1.bin⟩
    rw [List.map_append] at hv
    exact ((C42_controlled ht hS hc (by simp [lx]) (by simp [lu]) _).1 ⟨_, _, hv.1, hv.2⟩).2

/-! ### Without input -/

theorem AMode.next_toH (md : AMode K) {n : ℕ} (h : md.toH.Ok n 0) (x : Vec K) :
    md.toH.next x [] = vadd (matVec md.A x) md.g := by
  have h1 : md.A.length = n := h.rowsA
  have h2 : md.g.length = n := h.c
  refine vec_ext (by simp [HMode.next, AMode.toH, h1, h2]) fun i hi => ?_
  have e : ((List.replicate md.A.length ([] : List K)).getD i []) = [] := by
    simp [List.getD, List.getElem?_replicate]
    split_ifs <;> rfl
  simp only [HMode.next, AMode.toH]
  rw [getD_vadd _ _ _ (by simp [h1, h2]), getD_vadd _ _ _ (by simp), getD_vadd _ _ _ (by simp [h1, h2]),
    getD_matVec, getD_matVec, e]
  simp

/-- The (set-valued) dynamics of an autonomous system. -/
def AStep (modes : List (AMode K)) (x xn : Vec K) : Prop :=
  ∃ md ∈ modes, InPoly md.P md.q x ∧ xn = vadd (matVec md.A x) md.g

theorem aStep_iff {modes : List (AMode K)} {n : ℕ} (h : ∀ md ∈ modes, md.toH.Ok n 0) (x xn : Vec K) :
    HStep (modes.map AMode.toH) x [] xn ↔ AStep modes x xn := by
  constructor
  · rintro ⟨_, hmd', hP, rfl⟩
    obtain ⟨md, hmd, rfl⟩ := List.mem_map.1 hmd'
    refine ⟨md, hmd, ?_, AMode.next_toH md (h md hmd) x⟩
    simpa [HMode.Has, AMode.toH] using hP
  · rintro ⟨md, hmd, hP, rfl⟩
    refine ⟨md.toH, List.mem_map_of_mem hmd, ?_, (AMode.next_toH md (h md hmd) x).symm⟩
    simpa [HMode.Has, AMode.toH] using hP

/-- The parts of a successful call. -/
theorem auto_parts {S : AutoHybrid K} {xlo xup : Option (Vec K)} {c : MIC K} (h : S.mic xlo xup = some c) :
    ∃ a b lo up, tighten max S.loAll xlo = some a ∧ tighten min S.upAll xup = some b ∧
      finVec a = some lo ∧ finVec b = some up ∧
      hybridMIC S.xdim 0 (S.modes.map AMode.toH) lo up = some c := by
  unfold AutoHybrid.mic at h
  split at h
  · simp only [Option.bind_eq_bind, Option.bind_eq_some_iff] at h
    obtain ⟨a, ha, b, hb, lo, hlo, up, hup, h⟩ := h
    exact ⟨a, b, lo, up, ha, hb, hlo, hup, h⟩
  · cases h

/-- C42, autonomous systems: the constraints returned by `mixed_integer_constraints` are satisfied at `x` with
output `x⁺` exactly if the bounds given by the caller hold and some mode contains `x` and maps it to `x⁺`. -/
theorem C42_autonomous {lp : LpSolver K} (ht : lp.Truthful) {n : ℕ} {S : AutoHybrid K} (hS : ABuilt lp n S)
    {xlo xup : Option (Vec K)} {c : MIC K} (h : S.mic xlo xup = some c) {x : Vec K} (hx : x.length = n)
    (xn : Vec K) :
    (∃ s z, c.Feas x s z ∧ c.out x s z = xn) ↔ Given xlo xup x ∧ AStep S.modes x xn := by
  have R := C44_auto_recorded ht hS
  obtain ⟨a, b, lo, up, ha, hb, hlo, hup, hc⟩ := auto_parts h
  rw [R.xdim] at hc
  obtain ⟨la, ea⟩ := tighten_max ha
  obtain ⟨lb, eb⟩ := tighten_min hb
  rw [R.lenLo] at la ea
  rw [R.lenUp] at lb eb
  have l1 := congrArg List.length (finVec_some hlo)
  have l2 := congrArg List.length (finVec_some hup)
  simp only [List.length_map] at l1 l2
  have key := C42_exact hc (by simpa using R.ok) (by omega) (by omega) hx (u := []) rfl xn
  rw [List.append_nil, aStep_iff R.ok] at key
  rw [key]
  have k : ∀ j, j < n → ((lo.getD j 0 ≤ x.getD j 0 ↔ S.loAll.getD j ⊤ ≤ Ext.fin (x.getD j 0) ∧
      ∀ y, xlo = some y → y.getD j 0 ≤ x.getD j 0) ∧
      (x.getD j 0 ≤ up.getD j 0 ↔ Ext.fin (x.getD j 0) ≤ S.upAll.getD j ⊥ ∧
      ∀ y, xup = some y → x.getD j 0 ≤ y.getD j 0)) := by
    intro j hj
    have t1 := ea j hj (x.getD j 0)
    have t2 := eb j hj (x.getD j 0)
    rw [fin_getD hlo j (by omega), fin_le_fin] at t1
    rw [fin_getD hup j (by omega), fin_le_fin] at t2
    exact ⟨t1, t2⟩
  constructor
  · rintro ⟨⟨-, -, hb⟩, hs⟩
    exact ⟨⟨fun y hy i hi => ((k i (by omega)).1.1 (hb i hi).1).2 y hy,
      fun y hy i hi => ((k i (by omega)).2.1 (hb i hi).2).2 y hy⟩, hs⟩
  · rintro ⟨⟨g1, g2⟩, md, hmd, hP, he⟩
    refine ⟨⟨by omega, by omega, fun j hj => ?_⟩, md, hmd, hP, he⟩
    have := (C44_auto_contains ht hS hmd hx hP j (by omega)).1
    exact ⟨(k j (by omega)).1.2 ⟨this.1, fun y hy => g1 y hy j hj⟩,
      (k j (by omega)).2.2 ⟨this.2, fun y hy => g2 y hy j hj⟩⟩

/-- C42. `add_dynamics_constraint` of an autonomous system adds exactly its dynamics; it can therefore be used
as the system of every Lyapunov and barrier program (C33, C34, C37, C40, C41). -/
theorem C42_auto_dynamics {lp : LpSolver K} (ht : lp.Truthful) {n : ℕ} {S : AutoHybrid K} (hS : ABuilt lp n S)
    (hc : (S.mic none none).isSome) : SysEnc S.addDynamics n (AStep S.modes) (AStep S.modes) := by
  intro mip x xn hw lx lxn _ hx hxn
  have R := C44_auto_recorded ht hS
  obtain ⟨c, hc⟩ := Option.isSome_iff_exists.1 hc
  obtain ⟨a, b, lo, up, ha, hb, hlo, hup, hM⟩ := auto_parts hc
  rw [R.xdim] at hM
  have hr := hybrid_ready hM (by simpa using R.ok)
  obtain ⟨n1, n2, n3, -⟩ := hybrid_num hM
  obtain ⟨mip', h1, -, h3⟩ := mic_out_enc mip hw c x xn (by simpa [lx] using hr) hx (by omega) hxn
  refine ⟨mip', List.range' mip.n c.numSlack, List.range' (mip.n + c.numSlack) c.numBinary,
    by simp [AutoHybrid.addDynamics, hc, h1], h3.weaken ?_ ?_⟩
  · intro v _ hv
    exact (C42_autonomous ht hS hc (by simp [lx]) _).2 ⟨⟨by simp, by simp⟩, hv⟩
  · intro v _ hv
    exact ((C42_autonomous ht hS hc (by simp [lx]) _).1 ⟨_, _, hv.1, hv.2⟩).2

/-! ## C43 -/

theorem polyHas_iff (P : Mat K) (q w : Vec K) : polyHas P q w = true ↔ InPoly P q w := by
  simp [polyHas, InPoly]

theorem firstIdx_some {α : Type*} (p : α → Bool) : ∀ (l : List α) (k i : ℕ), firstIdx p l k = some i ↔
    ∃ j, i = k + j ∧ (∃ a, l[j]? = some a ∧ p a = true) ∧ ∀ j', j' < j → ∀ a, l[j']? = some a → p a = false
  | [], k, i => by simp [firstIdx]
  | a :: l, k, i => by
    unfold firstIdx
    by_cases h : p a = true
    · simp only [h, if_true, Option.some.injEq]
      constructor
      · rintro rfl
        exact ⟨0, by simp, ⟨a, by simp, h⟩, by omega⟩
      · rintro ⟨j, rfl, -, h2⟩
        rcases Nat.eq_zero_or_pos j with rfl | hj
        · simp
        · have := h2 0 hj a (by simp)
          rw [h] at this
          cases this
    · simp only [h, if_false, Bool.false_eq_true]
      rw [firstIdx_some p l (k + 1) i]
      constructor
      · rintro ⟨j, rfl, ⟨b, h1, h2⟩, h3⟩
        refine ⟨j + 1, by omega, ⟨b, by simpa using h1, h2⟩, fun j' hj' c hc => ?_⟩
        cases j' with
        | zero =>
          simp only [List.getElem?_cons_zero, Option.some.injEq] at hc
          subst hc
          simpa using h
        | succ j' => exact h3 j' (by omega) c (by simpa using hc)
      · rintro ⟨j, rfl, ⟨b, h1, h2⟩, h3⟩
        cases j with
        | zero =>
          simp only [List.getElem?_cons_zero, Option.some.injEq] at h1
          subst h1
          exact absurd h2 h
        | succ j =>
          exact ⟨j, by omega, ⟨b, by simpa using h1, h2⟩, fun j' hj' c hc =>
            h3 (j' + 1) (by omega) c (by simpa using hc)⟩

theorem firstIdx_none {α : Type*} (p : α → Bool) (l : List α) (k : ℕ) :
    firstIdx p l k = none ↔ ∀ a ∈ l, p a = false := by
  induction l generalizing k with
  | nil => simp [firstIdx]
  | cons a l ih =>
    unfold firstIdx
    by_cases h : p a = true
    · simp [h]
    · simp [h, ih]

/-- The first element with the property. -/
theorem firstIdx_head {α : Type*} (p : α → Bool) : ∀ (l : List α) (k : ℕ),
    (firstIdx p l k).bind (fun i => l[i - k]?) = (l.filter p).head?
  | [], k => by simp [firstIdx]
  | a :: l, k => by
    unfold firstIdx
    by_cases h : p a = true
    · simp [h]
    · simp only [h, Bool.false_eq_true, if_false, List.filter_cons_of_neg, not_false_eq_true]
      rw [← firstIdx_head p l (k + 1)]
      cases hf : firstIdx p l (k + 1) with
      | none => rfl
      | some i =>
        obtain ⟨j, rfl, -⟩ := (firstIdx_some p l (k + 1) i).1 hf
        simp only [Option.bind_some]
        have e1 : k + 1 + j - k = j + 1 := by omega
        have e2 : k + 1 + j - (k + 1) = j := by omega
        rw [e1, e2, List.getElem?_cons_succ]

/-- C43. `mode` returns the index of the first mode that contains `(x, u)`. -/
theorem C43_mode (S : Hybrid K) (x u : Vec K) (hx : x.length = S.xdim) (hu : u.length = S.udim) (i : ℕ) :
    S.mode x u = some (some i) ↔ (∃ md, S.modes[i]? = some md ∧ md.Has x u) ∧
      ∀ j, j < i → ∀ md, S.modes[j]? = some md → ¬ md.Has x u := by
  unfold Hybrid.mode
  rw [if_pos ⟨hx, hu⟩, Option.some.injEq, firstIdx_some]
  simp only [polyHas_iff, Bool.eq_false_iff, ne_eq, zero_add, HMode.Has]
  constructor
  · rintro ⟨j, rfl, h⟩
    exact h
  · intro h
    exact ⟨i, rfl, h⟩

/-- C43. `mode` returns `None` exactly if no mode contains `(x, u)`. -/
theorem C43_mode_none (S : Hybrid K) (x u : Vec K) (hx : x.length = S.xdim) (hu : u.length = S.udim) :
    S.mode x u = some none ↔ ∀ md ∈ S.modes, ¬ md.Has x u := by
  unfold Hybrid.mode
  rw [if_pos ⟨hx, hu⟩, Option.some.injEq, firstIdx_none]
  simp only [Bool.eq_false_iff, ne_eq, polyHas_iff, HMode.Has]

/-- C43. `possible_dx` lists exactly the successors. -/
theorem C43_possible (S : Hybrid K) (x u : Vec K) (hx : x.length = S.xdim) (hu : u.length = S.udim) :
    ∃ l, S.possibleDx x u = some l ∧ ∀ xn, xn ∈ l ↔ HStep S.modes x u xn := by
  refine ⟨_, by rw [Hybrid.possibleDx, if_pos ⟨hx, hu⟩], fun xn => ?_⟩
  simp only [List.mem_map, List.mem_filter, polyHas_iff, HStep, HMode.Has]
  constructor
  · rintro ⟨md, ⟨h1, h2⟩, rfl⟩
    exact ⟨md, h1, h2, rfl⟩
  · rintro ⟨md, h1, h2, rfl⟩
    exact ⟨md, ⟨h1, h2⟩, rfl⟩

/-- C43. The state returned by `step_forward` is the first element of `possible_dx`; it is `None` exactly if
there is none. -/
theorem C43_step (S : Hybrid K) (x u : Vec K) :
    (S.stepForward x u).map (Option.map Prod.fst) = (S.possibleDx x u).map List.head? := by
  unfold Hybrid.stepForward Hybrid.possibleDx Hybrid.mode
  by_cases h : x.length = S.xdim ∧ u.length = S.udim
  · rw [if_pos h, if_pos h]
    have e := firstIdx_head (fun md : HMode K => polyHas md.P md.q (x ++ u)) S.modes 0
    cases hf : firstIdx (fun md : HMode K => polyHas md.P md.q (x ++ u)) S.modes 0 with
    | none =>
      rw [hf] at e
      simp only [Option.bind_none] at e
      simp [← e]
    | some i =>
      rw [hf] at e
      simp only [Option.bind_some, Nat.sub_zero] at e
      simp only [Option.map_map, Option.map_some, List.head?_map, ← e]
      obtain ⟨j, hj, ⟨a, ha, -⟩, -⟩ := (firstIdx_some _ _ _ _).1 hf
      have : i = j := by omega
      subst this
      rw [ha]
      rfl
  · rw [if_neg h, if_neg h]
    rfl

/-- C43. The mode returned by `step_forward` is the one of `mode`, and the state is its image. -/
theorem C43_step_mode (S : Hybrid K) (x u xn : Vec K) (i : ℕ) :
    S.stepForward x u = some (some (xn, i)) ↔ S.mode x u = some (some i) ∧
      ∃ md, S.modes[i]? = some md ∧ xn = md.next x u := by
  unfold Hybrid.stepForward
  cases h : S.mode x u with
  | none => simp
  | some o => cases o with
    | none => simp
    | some j =>
      simp only [Option.map_eq_some_iff, Option.some.injEq, Prod.mk.injEq]
      constructor
      · rintro ⟨md, h1, h2, rfl⟩
        exact ⟨rfl, md, h1, h2.symm⟩
      · rintro ⟨rfl, md, h1, h2⟩
        exact ⟨md, h1, h2.symm, rfl⟩

/-- C43. Stepping a batch steps its members; it fails if one of them is in no mode. -/
theorem C43_batch (S : Hybrid K) : ∀ (ps : List (Vec K × Vec K)) (rs : List (Vec K × ℕ)),
    S.stepBatch ps = some rs ↔ List.Forall₂ (fun p r => S.stepForward p.1 p.2 = some (some r)) ps rs
  | [], rs => by
    cases rs <;> simp [Hybrid.stepBatch]
  | p :: ps, rs => by
    unfold Hybrid.stepBatch
    simp only [Option.bind_eq_bind, Option.bind_eq_some_iff, Option.some.injEq]
    constructor
    · rintro ⟨r, h1, r', h2, rs', h3, rfl⟩
      subst h2
      exact List.Forall₂.cons h1 ((C43_batch S ps rs').1 h3)
    · intro h
      cases h with
      | cons h1 h2 => exact ⟨_, h1, _, rfl, _, (C43_batch S ps _).2 h2, rfl⟩

/-- C43, autonomous systems. -/
theorem C43_auto_mode (S : AutoHybrid K) (x : Vec K) (hx : x.length = S.xdim) (i : ℕ) :
    S.mode x = some (some i) ↔ (∃ md, S.modes[i]? = some md ∧ InPoly md.P md.q x) ∧
      ∀ j, j < i → ∀ md, S.modes[j]? = some md → ¬ InPoly md.P md.q x := by
  unfold AutoHybrid.mode
  rw [if_pos hx, Option.some.injEq, firstIdx_some]
  simp only [polyHas_iff, Bool.eq_false_iff, ne_eq, zero_add]
  constructor
  · rintro ⟨j, rfl, h⟩
    exact h
  · intro h
    exact ⟨i, rfl, h⟩

/-- C43, autonomous systems: `mode` returns `None` exactly if no mode contains `x`. -/
theorem C43_auto_mode_none (S : AutoHybrid K) (x : Vec K) (hx : x.length = S.xdim) :
    S.mode x = some none ↔ ∀ md ∈ S.modes, ¬ InPoly md.P md.q x := by
  unfold AutoHybrid.mode
  rw [if_pos hx, Option.some.injEq, firstIdx_none]
  simp only [Bool.eq_false_iff, ne_eq, polyHas_iff]

/-- C43, autonomous systems: `possible_dx` lists exactly the successors. -/
theorem C43_auto_possible (S : AutoHybrid K) (x : Vec K) (hx : x.length = S.xdim) :
    ∃ l, S.possibleDx x = some l ∧ ∀ xn, xn ∈ l ↔ AStep S.modes x xn := by
  refine ⟨_, by rw [AutoHybrid.possibleDx, if_pos hx], fun xn => ?_⟩
  simp only [List.mem_map, List.mem_filter, polyHas_iff, AStep]
  constructor
  · rintro ⟨md, ⟨h1, h2⟩, rfl⟩
    exact ⟨md, h1, h2, rfl⟩
  · rintro ⟨md, h1, h2, rfl⟩
    exact ⟨md, ⟨h1, h2⟩, rfl⟩

/-- C43, autonomous systems: `step_forward` returns the first element of `possible_dx`, and raises if there is
none. -/
theorem C43_auto_step (S : AutoHybrid K) (x : Vec K) :
    S.stepForward x = (S.possibleDx x).bind List.head? := by
  unfold AutoHybrid.stepForward AutoHybrid.possibleDx AutoHybrid.mode
  by_cases h : x.length = S.xdim
  · simp only [if_pos h, Option.join_some, Option.bind_some]
    have e := firstIdx_head (fun md : AMode K => polyHas md.P md.q x) S.modes 0
    cases hf : firstIdx (fun md : AMode K => polyHas md.P md.q x) S.modes 0 with
    | none =>
      rw [hf] at e
      simp only [Option.bind_none] at e
      simp [← e]
    | some i =>
      rw [hf] at e
      simp only [Option.bind_some, Nat.sub_zero] at e
      simp only [List.head?_map, ← e]
  · simp [if_neg h]

/-- C43, autonomous systems: with a mode given by the caller, the map of that mode is applied. -/
theorem C43_auto_given (S : AutoHybrid K) (x : Vec K) (hx : x.length = S.xdim) (i : ℕ) (md : AMode K)
    (h : S.modes[i]? = some md) : S.stepForward x (some i) = some (vadd (matVec md.A x) md.g) := by
  simp [AutoHybrid.stepForward, hx, h]

/-- C43, autonomous systems: stepping a batch steps its members. -/
theorem C43_auto_batch (S : AutoHybrid K) : ∀ (xs : List (Vec K)) (rs : List (Vec K)),
    S.stepBatch xs = some rs ↔ List.Forall₂ (fun x r => S.stepForward x = some r) xs rs
  | [], rs => by
    cases rs <;> simp [AutoHybrid.stepBatch]
  | p :: ps, rs => by
    unfold AutoHybrid.stepBatch
    simp only [Option.bind_eq_bind, Option.bind_eq_some_iff, Option.some.injEq]
    constructor
    · rintro ⟨r, h1, rs', h3, rfl⟩
      exact List.Forall₂.cons h1 ((C43_auto_batch S ps rs').1 h3)
    · intro h
      cases h with
      | cons h1 h2 => exact ⟨_, h1, _, (C43_auto_batch S ps _).2 h2, rfl⟩

/-- C43. The state returned by `step_forward` is one the constraints of C42 admit. -/
theorem C43_step_feasible {lp : LpSolver K} (ht : lp.Truthful) {n : ℕ} {S : AutoHybrid K} (hS : ABuilt lp n S)
    {c : MIC K} (h : S.mic none none = some c) {x xn : Vec K} (hx : x.length = n)
    (hs : S.stepForward x = some xn) : ∃ s z, c.Feas x s z ∧ c.out x s z = xn := by
  have R := C44_auto_recorded ht hS
  rw [C42_autonomous ht hS h hx]
  refine ⟨⟨by simp, by simp⟩, ?_⟩
  rw [C43_auto_step] at hs
  obtain ⟨l, h1, h2⟩ := C43_auto_possible S x (by rw [R.xdim]; exact hx)
  rw [h1] at hs
  exact (h2 xn).1 (List.mem_of_head? hs)

/-! ## Examples -/

open Classical in
/-- A correct solver: it answers whenever the optimum is attained. -/
noncomputable def exactLp : LpSolver K := fun n P q c b =>
  if b then
    if h : ∃ v, IsGreatest (polyValues n P q c) v then .optimal h.choose else .other
  else
    if h : ∃ v, IsLeast (polyValues n P q c) v then .optimal h.choose else .other

theorem exactLp_truthful : (exactLp : LpSolver K).Truthful := by
  intro n P q c b
  unfold exactLp
  cases b
  · by_cases h : ∃ v, IsLeast (polyValues n P q c) v
    · simpa [h, LpAnswer.True] using h.choose_spec
    · simp [h, LpAnswer.True]
  · by_cases h : ∃ v, IsGreatest (polyValues n P q c) v
    · simpa [h, LpAnswer.True] using h.choose_spec
    · simp [h, LpAnswer.True]

theorem exactLp_bounds {n : ℕ} {P : Mat K} {q c : Vec K} {a b : K} (ha : IsLeast (polyValues n P q c) a)
    (hb : IsGreatest (polyValues n P q c) b) : lpBounds exactLp n P q c = some (Ext.fin a, Ext.fin b) := by
  have h1 : ∃ v, IsGreatest (polyValues n P q c) v := ⟨b, hb⟩
  have h2 : ∃ v, IsLeast (polyValues n P q c) v := ⟨a, ha⟩
  have e1 : exactLp n P q c true = .optimal b := by
    simp only [exactLp, if_true, h1, dite_true]
    rw [h1.choose_spec.unique hb]
  have e2 : exactLp n P q c false = .optimal a := by
    simp only [exactLp, Bool.false_eq_true, if_false, h2, dite_true]
    rw [h2.choose_spec.unique ha]
  simp [lpBounds, e1, e2, lpUpper, lpLower]

/-- `x⁺ = -x/2` on `[-1, 0]`. -/
def exModeA : AMode ℚ := ⟨[[-1/2]], [0], [[1], [-1]], [0, 1]⟩

/-- `x⁺ = x/4 + 1/8` on `[0, 1]`. -/
def exModeB : AMode ℚ := ⟨[[1/4]], [1/8], [[1], [-1]], [1, 0]⟩

theorem mem_interval (a b c v : ℚ) : v ∈ polyValues 1 [[1], [-1]] [b, -a] [c] ↔
    ∃ x, a ≤ x ∧ x ≤ b ∧ c * x = v := by
  constructor
  · rintro ⟨w, hw, hP, rfl⟩
    obtain ⟨x, rfl⟩ := List.length_eq_one_iff.1 hw
    have h1 := hP 0 (by simp)
    have h2 := hP 1 (by simp)
    simp [dot] at h1 h2
    exact ⟨x, by linarith, h1, by simp [dot]⟩
  · rintro ⟨x, h1, h2, rfl⟩
    refine ⟨[x], rfl, ?_, by simp [dot]⟩
    intro i hi
    match i, hi with
    | 0, _ => simpa [dot] using h2
    | 1, _ => simpa [dot] using h1
    | n + 2, hi => simp at hi

theorem exA_x : lpBounds exactLp 1 exModeA.P exModeA.q [1] = some (Ext.fin (-1), Ext.fin 0) := by
  have m := mem_interval (-1) 0 1
  norm_num at m
  refine exactLp_bounds ⟨(m _).2 (by norm_num), fun v hv => ?_⟩ ⟨(m _).2 (by norm_num), fun v hv => ?_⟩
  · exact ((m v).1 hv).1
  · exact ((m v).1 hv).2

theorem exA_ax : lpBounds exactLp 1 exModeA.P exModeA.q [-1/2] = some (Ext.fin 0, Ext.fin (1/2)) := by
  have m := mem_interval (-1) 0 (-1/2)
  norm_num at m
  have e : ([-1/2] : Vec ℚ) = [-(1/2)] := by norm_num
  rw [e]
  refine exactLp_bounds ⟨(m _).2 ⟨0, by norm_num⟩, fun v hv => ?_⟩ ⟨(m _).2 ⟨-1, by norm_num⟩, fun v hv => ?_⟩
  · obtain ⟨x, h1, h2, h3⟩ := (m v).1 hv
    linarith
  · obtain ⟨x, h1, h2, h3⟩ := (m v).1 hv
    linarith

theorem exB_x : lpBounds exactLp 1 exModeB.P exModeB.q [1] = some (Ext.fin 0, Ext.fin 1) := by
  have m := mem_interval 0 1 1
  norm_num at m
  refine exactLp_bounds ⟨(m _).2 (by norm_num), fun v hv => ?_⟩ ⟨(m _).2 (by norm_num), fun v hv => ?_⟩
  · exact ((m v).1 hv).1
  · exact ((m v).1 hv).2

theorem exB_ax : lpBounds exactLp 1 exModeB.P exModeB.q [1/4] = some (Ext.fin 0, Ext.fin (1/4)) := by
  have m := mem_interval 0 1 (1/4)
  norm_num at m
  have e : ([1/4] : Vec ℚ) = [(1/4)] := by norm_num
  rw [e]
  refine exactLp_bounds ⟨(m _).2 ⟨0, by norm_num⟩, fun v hv => ?_⟩ ⟨(m _).2 ⟨1, by norm_num⟩, fun v hv => ?_⟩
  · obtain ⟨x, h1, h2, h3⟩ := (m v).1 hv
    linarith
  · obtain ⟨x, h1, h2, h3⟩ := (m v).1 hv
    linarith

/-- The system with both modes. -/
def exAuto : AutoHybrid ℚ where
  xdim := 1
  modes := [exModeA, exModeB]
  los := [[Ext.fin (-1)], [Ext.fin 0]]
  ups := [[Ext.fin 0], [Ext.fin 1]]
  loAll := [Ext.fin (-1)]
  upAll := [Ext.fin 1]
  axLo := [[Ext.fin 0], [Ext.fin 0]]
  axUp := [[Ext.fin (1/2)], [Ext.fin (1/4)]]
  dxLo := [Ext.fin 0]
  dxUp := [Ext.fin (1/2)]

theorem min_top_ext (a : Ext K) : min ⊤ a = a := by
  apply min_eq_right
  exact le_top

theorem max_bot_ext (a : Ext K) : max ⊥ a = a := max_eq_right bot_le

theorem fin_min (a b : K) : min (Ext.fin a) (Ext.fin b) = Ext.fin (min a b) := by
  rcases le_total a b with h | h
  · rw [min_eq_left h, min_eq_left ((fin_le_fin _ _).2 h)]
  · rw [min_eq_right h, min_eq_right ((fin_le_fin _ _).2 h)]

theorem fin_max (a b : K) : max (Ext.fin a) (Ext.fin b) = Ext.fin (max a b) := by
  rcases le_total a b with h | h
  · rw [max_eq_right h, max_eq_right ((fin_le_fin _ _).2 h)]
  · rw [max_eq_left h, max_eq_left ((fin_le_fin _ _).2 h)]

/-- It is what the two calls of `add_mode` build. -/
theorem exAuto_built : ABuilt exactLp 1 exAuto := by
  have okA : exModeA.toH.Ok 1 0 := by decide
  have okB : exModeB.toH.Ok 1 0 := by decide
  have hadd : ∀ (a g : ℚ), Ext.addFin (Ext.fin a) g = Ext.fin (a + g) := fun a g => rfl
  have e1 : eye 1 = ([[1]] : Mat ℚ) := by simp [eye, eyeRow]
  refine ABuilt.add (md := exModeB) (ABuilt.add (md := exModeA) (S' := ?S1) ABuilt.new ?h1) ?h2
  case h1 =>
    rw [AutoHybrid.addMode, if_pos okA]
    simp only [e1]
    simp only [boundsOf, exA_x, show exModeA.A = [[-1/2]] from rfl, exA_ax, Option.bind_eq_bind, Option.bind_some]
    rfl
  case h2 =>
    rw [AutoHybrid.addMode, if_pos okB]
    simp only [e1]
    simp only [boundsOf, exB_x, show exModeB.A = [[1/4]] from rfl, exB_ax, Option.bind_eq_bind, Option.bind_some]
    simp only [exAuto, List.replicate_one, List.zipWith_cons_cons, List.zipWith_nil_right, min_top_ext, max_bot_ext,
      show exModeA.g = [0] from rfl, show exModeB.g = [1/8] from rfl, hadd, fin_min, fin_max, List.nil_append,
      List.cons_append]
    norm_num

/-- C44 applies: the recorded bounds of the example are exact. -/
example : ARecorded 1 exAuto := C44_auto_recorded exactLp_truthful exAuto_built

theorem exAuto_mic : (exAuto.mic none none).isSome := by
  decide

/-- C42 applies to the example, and its relation is not empty. -/
example : SysEnc exAuto.addDynamics 1 (AStep exAuto.modes) (AStep exAuto.modes) :=
  C42_auto_dynamics exactLp_truthful exAuto_built exAuto_mic

example : AStep exAuto.modes [0] [0] ∧ AStep exAuto.modes [0] [1/8] ∧ ¬ AStep exAuto.modes [2] [0] := by
  refine ⟨⟨exModeA, by simp [exAuto], ?_, ?_⟩, ⟨exModeB, by simp [exAuto], ?_, ?_⟩, ?_⟩
  · rw [← polyHas_iff]; decide +kernel
  · decide +kernel
  · rw [← polyHas_iff]; decide +kernel
  · decide +kernel
  · rintro ⟨md, hmd, h, -⟩
    rw [← polyHas_iff] at h
    simp only [exAuto, List.mem_cons, List.not_mem_nil, or_false] at hmd
    rcases hmd with rfl | rfl <;> revert h <;> decide +kernel

/-- C43: at `0` both modes apply and the first is taken; outside of both nothing is. -/
example : exAuto.mode [0] = some (some 0) ∧ exAuto.stepForward [0] = some [0] ∧
    exAuto.possibleDx [0] = some [[0], [1/8]] ∧ exAuto.mode [2] = some none ∧ exAuto.stepForward [2] = none := by
  decide +kernel

end NNL.Props
