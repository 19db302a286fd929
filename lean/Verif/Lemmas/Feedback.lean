import Verif.Lemmas.ReluSystem
import Verif.Lemmas.HybridBounds
import Verif.Props.Saturation
import Verif.Model.Feedback
import Verif.Spec.Feedback

/-!
# The feedback loop
-/

set_option linter.unusedSectionVars false

namespace NNL.Model

open NNL NNL.Spec NNL.Props

variable {K : Type*} [Field K] [LinearOrder K] [IsStrictOrderedRing K]

/-! ### Saturation of one input -/

theorem fin_max (a b : K) : max (Ext.fin a) (Ext.fin b) = Ext.fin (max a b) := by
  rcases le_total a b with h | h
  · rw [max_eq_right h, max_eq_right ((fin_le_fin a b).2 h)]
  · rw [max_eq_left h, max_eq_left ((fin_le_fin b a).2 h)]

theorem fin_min (a b : K) : min (Ext.fin a) (Ext.fin b) = Ext.fin (min a b) := by
  rcases le_total a b with h | h
  · rw [min_eq_left h, min_eq_left ((fin_le_fin a b).2 h)]
  · rw [min_eq_right h, min_eq_right ((fin_le_fin b a).2 h)]

theorem sat_ext {l h : Ext K} (hl : Limits l h) (p u : K) :
    max (min (Ext.fin p) h) l = Ext.fin u ↔ Saturated l h p u := by
  rcases hl with ⟨rfl, rfl⟩ | ⟨a, b, rfl, rfl, hab⟩
  · rw [min_top_right, max_bot_right, fin_inj]
    constructor
    · rintro rfl
      exact Or.inl ⟨rfl, rfl, rfl⟩
    · rintro (⟨-, -, rfl⟩ | ⟨a, b, h, -⟩)
      · rfl
      · exact absurd h.symm (fin_ne_bot a)
  · rw [fin_min, fin_max, fin_inj]
    constructor
    · rintro rfl
      exact Or.inr ⟨a, b, rfl, rfl, max_comm _ _⟩
    · rintro (⟨h, -⟩ | ⟨a', b', h1, h2, rfl⟩)
      · exact absurd h (fin_ne_bot a)
      · rw [fin_inj] at h1 h2
        subst h1 h2
        exact max_comm _ _

theorem sat_exists {l h : Ext K} (hl : Limits l h) (p : K) : ∃ u, Saturated l h p u := by
  rcases hl with ⟨rfl, rfl⟩ | ⟨a, b, rfl, rfl, hab⟩
  · exact ⟨p, Or.inl ⟨rfl, rfl, rfl⟩⟩
  · exact ⟨clamp a b p, Or.inr ⟨a, b, rfl, rfl, rfl⟩⟩

theorem sat_unique {l h : Ext K} {p u u' : K} (h1 : Saturated l h p u) (h2 : Saturated l h p u') : u = u' := by
  rcases h1 with ⟨rfl, rfl, rfl⟩ | ⟨a, b, rfl, rfl, rfl⟩ <;> rcases h2 with ⟨e1, e2, rfl⟩ | ⟨a', b', e1, e2, rfl⟩
  · rfl
  · exact absurd e1.symm (fin_ne_bot a')
  · exact absurd e1 (fin_ne_bot a)
  · rw [fin_inj] at e1 e2
    subst e1 e2
    rfl

theorem clamp_mono (a b : K) {p q : K} (h : p ≤ q) : clamp a b p ≤ clamp a b q :=
  max_le_max le_rfl (min_le_min h le_rfl)

theorem sat_mono {l h : Ext K} {p q u w : K} (h1 : Saturated l h p u) (h2 : Saturated l h q w) (hpq : p ≤ q) :
    u ≤ w := by
  rcases h1 with ⟨rfl, rfl, rfl⟩ | ⟨a, b, rfl, rfl, rfl⟩ <;> rcases h2 with ⟨e1, e2, rfl⟩ | ⟨a', b', e1, e2, rfl⟩
  · exact hpq
  · exact absurd e1.symm (fin_ne_bot a')
  · exact absurd e1 (fin_ne_bot a)
  · rw [fin_inj] at e1 e2
    subst e1 e2
    exact clamp_mono _ _ hpq

theorem sat_limits {l h : Ext K} (hl : Limits l h) {p u : K} (hs : Saturated l h p u) :
    l ≤ Ext.fin u ∧ Ext.fin u ≤ h := by
  rcases hs with ⟨rfl, rfl, rfl⟩ | ⟨a, b, rfl, rfl, rfl⟩
  · exact ⟨bot_le, le_top⟩
  · rcases hl with ⟨e, -⟩ | ⟨a', b', e1, e2, hab⟩
    · exact absurd e (fin_ne_bot a)
    · rw [fin_inj] at e1 e2
      subst e1 e2
      rw [fin_le_fin, fin_le_fin]
      exact ⟨le_max_left _ _, max_le hab (min_le_right _ _)⟩

theorem limits_le {l h : Ext K} (hl : Limits l h) : l ≤ h := by
  rcases hl with ⟨rfl, rfl⟩ | ⟨a, b, rfl, rfl, hab⟩
  · exact bot_le
  · rwa [fin_le_fin]

/-- The bounds of the code are the saturated bounds. -/
theorem sat_lower {l h : Ext K} (hl : Limits l h) (p u : K) :
    min (max l (Ext.fin p)) h = Ext.fin u ↔ Saturated l h p u := by
  rw [← sat_ext hl]
  have := limits_le hl
  rcases le_total (Ext.fin p) h with h1 | h1
  · rw [min_eq_left h1, min_eq_left (max_le this h1), max_comm]
  · rw [min_eq_right h1, max_eq_left this, min_eq_right (h1.trans (le_max_right _ _))]

theorem sat_upper {l h : Ext K} (hl : Limits l h) (p u : K) :
    max (min h (Ext.fin p)) l = Ext.fin u ↔ Saturated l h p u := by
  rw [← sat_ext hl, min_comm]

/-! ### The saturation block only adds -/

/-- More variables and constraints, the same objective. -/
def Grows (m m' : Mip K) : Prop := m.n ≤ m'.n ∧ m'.obj = m.obj ∧ ∀ v, m'.Feas v → m.Feas v

theorem Grows.trans {a b c : Mip K} (h1 : Grows a b) (h2 : Grows b c) : Grows a c :=
  ⟨h1.1.trans h2.1, by rw [h2.2.1, h1.2.1], fun v h => h1.2.2 v (h2.2.2 v h)⟩

theorem grows_vars {m m' : Mip K} {num : ℕ} {lb ub : List (Option K)} {vt : VType} {ids : List ℕ}
    (h : m.addVars num lb ub vt = some (m', ids)) : Grows m m' :=
  ⟨by rw [addVars_n h]; omega, (addVars_inv h).2.2.2.2.2.2, fun v hv => ((addVars_feas h v).1 hv).1⟩

theorem grows_m {m m' : Mip K} {A : List (Tensor2 K)} {x : List (List ℕ)} {sense : Sense}
    {b : Vec K} (h : m.addMConstr A x sense b = some m') : Grows m m' :=
  ⟨by rw [addMConstr_n h], (addMConstr_inv h).2.2.2.2.2.2.1, fun v hv => ((addMConstr_feas h v).1 hv).1⟩

theorem grows_l {m m' : Mip K} {coeffs : List (Vec K)} {xs : List (List ℕ)} {sense : Sense}
    {rhs : K} (h : m.addLConstr coeffs xs sense rhs = some m') (hw : m.WF) : Grows m m' :=
  ⟨by rw [addLConstr_n h hw], (addLConstr_inv h hw).2.2.2.2.2.2.1,
    fun v hv => (((step_addLConstr h hw).feas v).1 hv).1⟩

theorem grows_sat {m m' : Mip K} {x y : ℕ} {lower upper lo up : K} {bs : List ℕ} (hw : m.WF)
    (h : m.addSaturation x y lower upper lo up .binary = some (m', bs)) : Grows m m' := by
  unfold Mip.addSaturation at h
  split_ifs at h
  · obtain ⟨m1, h1, h⟩ := Option.bind_eq_some_iff.1 h
    cases h
    exact grows_l h1 hw
  · obtain ⟨m1, h1, h⟩ := Option.bind_eq_some_iff.1 h
    cases h
    exact grows_l h1 hw
  · obtain ⟨m1, h1, h⟩ := Option.bind_eq_some_iff.1 h
    cases h
    exact grows_l h1 hw
  · obtain ⟨R, -, h⟩ := Option.bind_eq_some_iff.1 h
    obtain ⟨t, h1, h⟩ := Option.bind_eq_some_iff.1 h
    obtain ⟨m2, h2, h⟩ := Option.bind_eq_some_iff.1 h
    cases h
    exact (grows_vars h1).trans (grows_m h2)
  · obtain ⟨R, -, h⟩ := Option.bind_eq_some_iff.1 h
    obtain ⟨t, h1, h⟩ := Option.bind_eq_some_iff.1 h
    obtain ⟨m2, h2, h⟩ := Option.bind_eq_some_iff.1 h
    cases h
    exact (grows_vars h1).trans (grows_m h2)
  · obtain ⟨tz, h1, h⟩ := Option.bind_eq_some_iff.1 h
    obtain ⟨t, h2, h⟩ := Option.bind_eq_some_iff.1 h
    obtain ⟨m3, h3, h⟩ := Option.bind_eq_some_iff.1 h
    obtain ⟨R1, -, h⟩ := Option.bind_eq_some_iff.1 h
    obtain ⟨m4, h4, h⟩ := Option.bind_eq_some_iff.1 h
    obtain ⟨R2, -, h⟩ := Option.bind_eq_some_iff.1 h
    obtain ⟨m5, h5, h⟩ := Option.bind_eq_some_iff.1 h
    cases h
    have w1 := addVars_wf h1 hw
    have w2 := addVars_wf h2 w1
    exact (((((grows_vars h1).trans (grows_vars h2)).trans (grows_l h3 w2)).trans (grows_m h4)).trans
      (grows_m h5))

/-- One turn of the loop. -/
theorem satTurn_enc (m : Mip K) (hw : m.WF) (u pre : ℕ) (hu : u < m.n) (hp : pre < m.n) (hne : pre ≠ u)
    {l h : Ext K} (hl : Limits l h) (a b : K) :
    ∃ m', satTurn u pre l h a b m = some m' ∧
      Enc m m' (fun v => a ≤ v pre ∧ v pre ≤ b ∧ Saturated l h (v pre) (v u)) fun v =>
        a ≤ v pre → v pre ≤ b → Saturated l h (v pre) (v u) := by
  rcases hl with ⟨rfl, rfl⟩ | ⟨c, d, rfl, rfl, hcd⟩
  · obtain ⟨m', h1⟩ := addLConstr_isSome m hw [[1, -1]] [[u, pre]] .eq 0 rfl rfl (by simpa using hne.symm)
      (by simp [hu, hp])
    have hs := step_addLConstr h1 hw
    refine ⟨m', by simp [satTurn, isInf, h1], (hs.enc0 hw).weaken ?_ ?_⟩
    · rintro v - ⟨-, -, ⟨-, -, e⟩ | ⟨c, d, e, -⟩⟩
      · simp [Sense.Rel, e]
      · exact absurd e.symm (fin_ne_bot c)
    · intro v _ hv _ _
      refine Or.inl ⟨rfl, rfl, ?_⟩
      simp only [Sense.Rel, List.flatten_cons, List.flatten_nil, List.append_nil, List.map_cons, List.map_nil,
        dot_cons, dot_nil_left] at hv
      linarith
  · obtain ⟨m', bs, h1, h2, h3, h4, h5⟩ := C07_saturation m hw pre u hp hu hne c d a b hcd
    have hg := grows_sat hw h1
    refine ⟨m', by simp [satTurn, isInf, h1], h2, hg.1, hg.2.1, ?_, ?_⟩
    · intro v hv
      exact ⟨hg.2.2 v hv, fun e1 e2 => Or.inr ⟨c, d, rfl, rfl, (h4 v hv e1 e2).2.1⟩⟩
    · rintro v hv ⟨e1, e2, ⟨e, -⟩ | ⟨c', d', e, e', hs⟩⟩
      · exact absurd e (fin_ne_bot c)
      · rw [fin_inj] at e e'
        subst e e'
        exact h5 v hv e1 e2 hs

/-- The loop over the inputs. -/
theorem satLoop_enc : ∀ (k : ℕ) (m : Mip K) (u pre : List ℕ) (lower upper : List (Ext K)) (a b : Vec K), m.WF →
    u.length = k → pre.length = k → lower.length = k → upper.length = k → a.length = k → b.length = k →
    (∀ i ∈ u, i < m.n) → (∀ i ∈ pre, i < m.n) → (∀ i, i < k → pre.getD i 0 ≠ u.getD i 0) →
    (∀ i, i < k → Limits (lower.getD i ⊥) (upper.getD i ⊤)) →
    ∃ m', satLoop .binary u pre lower upper a b m = some m' ∧
      Enc m m' (fun v => ∀ i, i < k → a.getD i 0 ≤ v (pre.getD i 0) ∧ v (pre.getD i 0) ≤ b.getD i 0 ∧
          Saturated (lower.getD i ⊥) (upper.getD i ⊤) (v (pre.getD i 0)) (v (u.getD i 0))) fun v =>
        ∀ i, i < k → a.getD i 0 ≤ v (pre.getD i 0) → v (pre.getD i 0) ≤ b.getD i 0 →
          Saturated (lower.getD i ⊥) (upper.getD i ⊤) (v (pre.getD i 0)) (v (u.getD i 0)) := by
  intro k
  induction k with
  | zero =>
    intro m u pre lower upper a b hw h1 _ _ _ _ _ _ _ _ _
    obtain rfl := List.length_eq_zero_iff.1 h1
    exact ⟨m, by cases pre <;> rfl, hw, le_rfl, rfl, fun v hv => ⟨hv, by simp⟩, fun v hv _ => ⟨v, by simp, hv⟩⟩
  | succ k ih =>
    intro m u pre lower upper a b hw h1 h2 h3 h4 h5 h6 hu hp hne hlim
    obtain ⟨u0, u, rfl⟩ := List.exists_cons_of_length_eq_add_one h1
    obtain ⟨p0, pre, rfl⟩ := List.exists_cons_of_length_eq_add_one h2
    obtain ⟨l0, lower, rfl⟩ := List.exists_cons_of_length_eq_add_one h3
    obtain ⟨g0, upper, rfl⟩ := List.exists_cons_of_length_eq_add_one h4
    obtain ⟨a0, a, rfl⟩ := List.exists_cons_of_length_eq_add_one h5
    obtain ⟨b0, b, rfl⟩ := List.exists_cons_of_length_eq_add_one h6
    simp only [List.length_cons, Nat.add_right_cancel_iff] at h1 h2 h3 h4 h5 h6
    obtain ⟨m1, t1, e1⟩ := satTurn_enc m hw u0 p0 (hu _ (by simp)) (hp _ (by simp))
      (by simpa using hne 0 (by omega)) (by simpa using hlim 0 (by omega)) a0 b0
    obtain ⟨m2, t2, e2⟩ := ih m1 u pre lower upper a b e1.wf h1 h2 h3 h4 h5 h6
      (fun i hi => (hu i (List.mem_cons_of_mem _ hi)).trans_le e1.n)
      (fun i hi => (hp i (List.mem_cons_of_mem _ hi)).trans_le e1.n)
      (fun i hi => by simpa using hne (i + 1) (by omega)) (fun i hi => by simpa using hlim (i + 1) (by omega))
    refine ⟨m2, by simp [satLoop, t1, t2], ?_⟩
    set D : (ℕ → K) → Prop := fun v => ∀ i, i < k + 1 → (a0 :: a).getD i 0 ≤ v ((p0 :: pre).getD i 0) ∧
      v ((p0 :: pre).getD i 0) ≤ (b0 :: b).getD i 0 ∧ Saturated ((l0 :: lower).getD i ⊥) ((g0 :: upper).getD i ⊤)
        (v ((p0 :: pre).getD i 0)) (v ((u0 :: u).getD i 0)) with hD
    have dep : DepsBelow m.n D := by
      intro v w hvw hv i hi
      have q1 : v ((p0 :: pre).getD i 0) = w ((p0 :: pre).getD i 0) := hvw _ (hp _ (by
        rw [List.getD, List.getElem?_eq_getElem (by simp; omega)]
        exact List.getElem_mem _))
      have q2 : v ((u0 :: u).getD i 0) = w ((u0 :: u).getD i 0) := hvw _ (hu _ (by
        rw [List.getD, List.getElem?_eq_getElem (by simp; omega)]
        exact List.getElem_mem _))
      rw [← q1, ← q2]
      exact hv i hi
    have e1' : Enc m m1 D _ := e1.weaken (fun v _ hv => by simpa using hv 0 (by omega)) (fun _ _ h => h)
    refine (e1'.seq e2 dep fun v hv _ i hi => by simpa using hv (i + 1) (by omega)).weaken (fun _ _ h => h) ?_
    rintro v - ⟨r1, r2⟩ i hi
    cases i with
    | zero => simpa using r1
    | succ i => simpa using r2 i (by omega)

theorem sat_list {k : ℕ} {lower upper : List (Ext K)} {p : Vec K} (f : Ext K → Ext K → Ext K → Ext K)
    (hf : ∀ {l h : Ext K}, Limits l h → ∀ q u : K, f l h (Ext.fin q) = Ext.fin u ↔ Saturated l h q u)
    (L : List (Ext K)) (lL : L.length = k)
    (eL : ∀ i, i < k → L.getD i ⊤ = f (lower.getD i ⊥) (upper.getD i ⊤) (Ext.fin (p.getD i 0)))
    (hlim : ∀ i, i < k → Limits (lower.getD i ⊥) (upper.getD i ⊤)) :
    ∃ w, finVec L = some w ∧ w.length = k ∧ (∀ i, i < k →
      Saturated (lower.getD i ⊥) (upper.getD i ⊤) (p.getD i 0) (w.getD i 0)) ∧ L = w.map Ext.fin := by
  obtain ⟨w, hw⟩ := finVec_isSome L (by
    intro i hi
    rw [lL] at hi
    obtain ⟨u, hu⟩ := sat_exists (hlim i hi) (p.getD i 0)
    exact ⟨u, by rw [eL i hi]; exact (hf (hlim i hi) _ _).2 hu⟩)
  have e := finVec_some hw
  have lw : w.length = k := by rw [← lL, e]; simp
  refine ⟨w, hw, lw, fun i hi => (hf (hlim i hi) _ _).1 ?_, e⟩
  rw [← eL i hi, e]
  simp [List.getD, lw, hi]

/-- The saturation block. -/
theorem addInputSat_enc (m : Mip K) (hw : m.WF) (k : ℕ) (u pre : List ℕ) (lower upper : List (Ext K)) (a b : Vec K)
    (h1 : u.length = k) (h2 : pre.length = k) (h3 : lower.length = k) (h4 : upper.length = k) (h5 : a.length = k)
    (h6 : b.length = k) (hu : ∀ i ∈ u, i < m.n) (hp : ∀ i ∈ pre, i < m.n)
    (hne : ∀ i, i < k → pre.getD i 0 ≠ u.getD i 0)
    (hlim : ∀ i, i < k → Limits (lower.getD i ⊥) (upper.getD i ⊤)) (hab : ∀ i, i < k → a.getD i 0 ≤ b.getD i 0) :
    ∃ m' lo up, addInputSat m u pre lower upper a b = some (m', lo, up) ∧ lo.length = k ∧ up.length = k ∧
      (∀ i, i < k → ∀ p w, a.getD i 0 ≤ p → p ≤ b.getD i 0 → Saturated (lower.getD i ⊥) (upper.getD i ⊤) p w →
        lo.getD i 0 ≤ w ∧ w ≤ up.getD i 0) ∧
      Enc m m' (fun v => ∀ i, i < k → a.getD i 0 ≤ v (pre.getD i 0) ∧ v (pre.getD i 0) ≤ b.getD i 0 ∧
          Saturated (lower.getD i ⊥) (upper.getD i ⊤) (v (pre.getD i 0)) (v (u.getD i 0))) fun v =>
        ∀ i, i < k → a.getD i 0 ≤ v (pre.getD i 0) → v (pre.getD i 0) ≤ b.getD i 0 →
          Saturated (lower.getD i ⊥) (upper.getD i ⊤) (v (pre.getD i 0)) (v (u.getD i 0)) := by
  obtain ⟨m', t, e⟩ := satLoop_enc k m u pre lower upper a b hw h1 h2 h3 h4 h5 h6 hu hp hne hlim
  obtain ⟨lo, q1, q2, q3, -⟩ := sat_list (k := k) (lower := lower) (upper := upper) (p := a)
    (fun l h q => min (max l q) h) (fun hl q u => sat_lower hl q u)
    (List.zipWith min (List.zipWith max lower (a.map Ext.fin)) upper) (by simp [h3, h4, h5])
    (by
      intro i hi
      simp [List.getD, h3, h4, h5, hi]) hlim
  obtain ⟨up, r1, r2, r3, -⟩ := sat_list (k := k) (lower := lower) (upper := upper) (p := b)
    (fun l h q => max (min h q) l) (fun hl q u => sat_upper hl q u)
    (List.zipWith max (List.zipWith min upper (b.map Ext.fin)) lower) (by simp [h3, h4, h6])
    (by
      intro i hi
      simp [List.getD, h3, h4, h6, hi]) hlim
  have zip_le : ∀ {α : Type _} [LE α] (x y : List α) (d d' : α), x.length = k → y.length = k →
      (∀ i, i < k → x.getD i d ≤ y.getD i d') → ∀ p ∈ List.zip x y, p.1 ≤ p.2 := by
    intro α _ x y d d' lx ly hxy p hp
    obtain ⟨i, hi, rfl⟩ := List.getElem_of_mem hp
    have hi' : i < k := by simp [lx, ly] at hi; exact hi
    have := hxy i hi'
    simpa [List.getD, lx, ly, hi'] using this
  refine ⟨m', lo, up, ?_, q2, r2, fun i hi p w e1 e2 hs => ⟨sat_mono (q3 i hi) hs e1, sat_mono hs (r3 i hi) e2⟩, e⟩
  unfold addInputSat
  rw [if_pos ⟨zip_le _ _ _ _ h3 h4 fun i hi => limits_le (hlim i hi), zip_le _ _ _ _ h5 h6 hab⟩, t, q1, r1]
  simp only [Option.bind_eq_bind, Option.bind_some]
  rw [if_pos (zip_le lo up 0 0 q2 r2 fun i hi => sat_mono (q3 i hi) (r3 i hi) (hab i hi))]

/-! ### The controller -/

/-- The shapes asserted by the constructor (feedback_system.py 77-103), ordered state bounds, admissible limits, and
for a network: bounds of its units that can be computed and are valid. -/
structure Feedback.Ok (S : Feedback K) (n k : ℕ) : Prop where
  lo : S.xLo.length = n
  up : S.xUp.length = n
  le : ∀ i, i < n → S.xLo.getD i 0 ≤ S.xUp.getD i 0
  udim : S.uDim = k
  eq : S.xEq.length = n
  ueq : S.uEq.length = k
  lower : S.uLower.length = k
  upper : S.uUpper.length = k
  limits : ∀ i, i < k → Limits (S.uLower.getD i ⊥) (S.uUpper.getD i ⊤)
  out : ∀ x, (S.ctrl.eval x).length = k
  net : ∀ N method, S.ctrl = .net N method → N.Ok n ∧ N.last.W.length = k ∧ MethodValid N S.xLo S.xUp method ∧
    (outputConstraint N n S.xLo S.xUp method).isSome
  lin : ∀ l, S.ctrl = .lin l → l.Ok ∧ l.inF = n ∧ l.W.length = k

theorem length_preSat {S : Feedback K} {n k : ℕ} (h : S.Ok n k) (x : Vec K) : (S.preSat x).length = k := by
  simp [Feedback.preSat, h.out, h.ueq]

theorem getD_preSat {S : Feedback K} {n k : ℕ} (h : S.Ok n k) (x : Vec K) (i : ℕ) : (S.preSat x).getD i 0 =
    (S.ctrl.eval x).getD i 0 - (S.ctrl.eval S.xEq).getD i 0 + S.uEq.getD i 0 := by
  rw [Feedback.preSat, getD_vadd _ _ _ (by simp [h.out, h.ueq]), getD_vsub _ _ _ (by rw [h.out, h.out])]

theorem computeU_law {S : Feedback K} {n k : ℕ} (h : S.Ok n k) (x : Vec K) :
    ∃ w, finVec (S.computeU x) = some w ∧ w.length = k ∧ (∀ i, i < k →
      Saturated (S.uLower.getD i ⊥) (S.uUpper.getD i ⊤) ((S.preSat x).getD i 0) (w.getD i 0)) ∧
      S.computeU x = w.map Ext.fin := by
  have lp := length_preSat h x
  refine sat_list (fun l h q => max (min q h) l) (fun hl q u => sat_ext hl q u) (S.computeU x)
    (by simp [Feedback.computeU, lp, h.lower, h.upper]) (fun i hi => ?_) h.limits
  simp [Feedback.computeU, List.getD, lp, h.lower, h.upper, hi]

theorem computeU_iff {S : Feedback K} {n k : ℕ} (h : S.Ok n k) (x w : Vec K) :
    finVec (S.computeU x) = some w ↔ w.length = k ∧ ∀ i, i < k →
      Saturated (S.uLower.getD i ⊥) (S.uUpper.getD i ⊤) ((S.preSat x).getD i 0) (w.getD i 0) := by
  obtain ⟨w', h1, h2, h3, -⟩ := computeU_law h x
  constructor
  · intro hw
    rw [h1] at hw
    cases hw
    exact ⟨h2, h3⟩
  · rintro ⟨l, hs⟩
    rw [h1]
    congr 1
    exact vec_ext (by rw [h2, l]) fun i hi => sat_unique (h3 i (by omega)) (hs i (by omega))

/-- Whether the controller is a network with hidden layers. -/
def Feedback.isNet (S : Feedback K) : Prop := ∃ N method, S.ctrl = .net N method

/-- The last part, common to the two kinds of controllers. -/
theorem ctrl_tail {S : Feedback K} {n k : ℕ} (h : S.Ok n k) {m m1 : Mip K} {x u pre : List ℕ} {R : (ℕ → K) → Prop}
    (lx : x.length = n) (lu : u.length = k) (hx : ∀ i ∈ x, i < m.n) (hu : ∀ i ∈ u, i < m.n)
    (he : Enc m m1 (fun v => InBox S.xLo S.xUp (x.map v) ∧ finVec (S.computeU (x.map v)) = some (u.map v)) R)
    (lp : pre.length = k) (hp : ∀ i ∈ pre, m.n ≤ i ∧ i < m1.n)
    (hR : ∀ v, R v → InBox S.xLo S.xUp (x.map v) → pre.map v = S.preSat (x.map v)) (a b : Vec K)
    (hab : ∀ y, InBox S.xLo S.xUp y → InBox a b (S.preSat y)) :
    ∃ m' lo up, addInputSat m1 u pre S.uLower S.uUpper a b = some (m', lo, up) ∧ lo.length = k ∧ up.length = k ∧
      (∀ y w, InBox S.xLo S.xUp y → finVec (S.computeU y) = some w → InBox lo up w) ∧
      Enc m m' (fun v => InBox S.xLo S.xUp (x.map v) ∧ finVec (S.computeU (x.map v)) = some (u.map v)) fun v =>
        R v ∧ (InBox S.xLo S.xUp (x.map v) → finVec (S.computeU (x.map v)) = some (u.map v)) := by
  have hbox : InBox S.xLo S.xUp S.xLo := ⟨rfl, by rw [h.lo, h.up], fun i hi => ⟨le_rfl, h.le i (by rw [← h.lo]; exact hi)⟩⟩
  have hb0 := hab _ hbox
  have la : a.length = k := by rw [← hb0.1, length_preSat h]
  have lb : b.length = k := by rw [← hb0.2.1, length_preSat h]
  have mem : ∀ (l : List ℕ), l.length = k → ∀ i, i < k → l.getD i 0 ∈ l := by
    intro l hl i hi
    rw [List.getD, List.getElem?_eq_getElem (by omega)]
    exact List.getElem_mem _
  have gm : ∀ (l : List ℕ) (v : ℕ → K), l.length = k → ∀ i, i < k → (l.map v).getD i 0 = v (l.getD i 0) := by
    intro l v hl i hi
    simp [List.getD, hl, hi]
  obtain ⟨m', lo, up, t, l1, l2, hb, e⟩ := addInputSat_enc m1 he.wf k u pre S.uLower S.uUpper a b lu lp h.lower
    h.upper la lb (fun i hi => (hu i hi).trans_le he.n) (fun i hi => (hp i hi).2)
    (fun i hi heq => by
      have h1 := (hp _ (mem pre lp i hi)).1
      have h2 := hu _ (mem u lu i hi)
      omega) h.limits
    (fun i hi => by
      have := hb0.2.2 i (by rw [length_preSat h]; exact hi)
      exact this.1.trans this.2)
  refine ⟨m', lo, up, t, l1, l2, fun y w hy hw => ?_, ?_⟩
  · obtain ⟨lw, hs⟩ := (computeU_iff h y w).1 hw
    refine ⟨by omega, by omega, fun i hi => ?_⟩
    have := (hab y hy).2.2 i (by rw [length_preSat h]; omega)
    exact hb i (by omega) _ _ this.1 this.2 (hs i (by omega))
  · have dep : DepsBelow m.n fun v => InBox S.xLo S.xUp (x.map v) ∧ finVec (S.computeU (x.map v)) = some (u.map v) := by
      intro v w hvw hv
      have q1 : x.map w = x.map v := List.map_congr_left fun i hi => (hvw i (hx i hi)).symm
      have q2 : u.map w = u.map v := List.map_congr_left fun i hi => (hvw i (hu i hi)).symm
      rwa [q1, q2]
    refine (he.seq e dep ?_).weaken (fun _ _ h => h) ?_
    · rintro v ⟨hv1, hv2⟩ hr i hi
      have hpre := hR v hr hv1
      have q := (hab _ hv1).2.2 i (by rw [length_preSat h]; exact hi)
      rw [← gm pre v lp i hi, ← gm u v lu i hi, hpre]
      exact ⟨q.1, q.2, ((computeU_iff h _ _).1 hv2).2 i hi⟩
    · rintro v - ⟨hr, hs⟩
      refine ⟨hr, fun hv1 => (computeU_iff h _ _).2 ⟨by simpa using lu, fun i hi => ?_⟩⟩
      have hpre := hR v hr hv1
      have q := (hab _ hv1).2.2 i (by rw [length_preSat h]; exact hi)
      have := hs i hi
      rw [← gm pre v lp i hi, ← gm u v lu i hi, hpre] at this
      exact this q.1 q.2

theorem InBox_affine {lo up y e c : Vec K} {k : ℕ} (h : InBox lo up y) (ly : y.length = k) (he : e.length = k)
    (hc : c.length = k) : InBox (vadd (vsub lo e) c) (vadd (vsub up e) c) (vadd (vsub y e) c) := by
  obtain ⟨h1, h2, h3⟩ := h
  refine ⟨by simp; omega, by simp; omega, fun i hi => ?_⟩
  have := h3 i (by simp at hi; omega)
  rw [getD_vadd _ _ _ (by simp; omega), getD_vadd _ _ _ (by simp; omega), getD_vadd _ _ _ (by simp; omega),
    getD_vsub _ _ _ (by omega), getD_vsub _ _ _ (by omega), getD_vsub _ _ _ (by omega)]
  constructor <;> linarith

theorem negEye_row (k i : ℕ) (hi : i < k) (w : Vec K) :
    dot (((eye k).map vneg).getD i []) w = - w.getD i 0 := by
  have : ((eye k : Mat K).map vneg).getD i [] = vneg (eyeRow k i) := by
    simp [eye, List.getD, hi]
  rw [this, dot_vneg_left, dot_eyeRow _ _ _ hi]

theorem negEye_cols (k : ℕ) : ∀ r ∈ (eye k : Mat K).map vneg, r.length = k := by
  intro r hr
  obtain ⟨r', hr', rfl⟩ := List.mem_map.1 hr
  simp only [eye, List.mem_map] at hr'
  obtain ⟨i, -, rfl⟩ := hr'
  simp

/-- `_add_controller_mip_constraint`: on the box, the input is the saturated control. -/
theorem addCtrl_fb {S : Feedback K} {n k : ℕ} (h : S.Ok n k) (m : Mip K) (hw : m.WF) (x u : List ℕ)
    (lx : x.length = n) (lu : u.length = k) (hx : ∀ i ∈ x, i < m.n) (hu : ∀ i ∈ u, i < m.n) :
    ∃ m' s g lo up, S.addCtrl m x u = some (m', s, g, lo, up) ∧ lo.length = k ∧ up.length = k ∧
      (∀ y w, InBox S.xLo S.xUp y → finVec (S.computeU y) = some w → InBox lo up w) ∧
      Enc m m' (fun v => InBox S.xLo S.xUp (x.map v) ∧ finVec (S.computeU (x.map v)) = some (u.map v)) fun v =>
        (S.isNet → InBox S.xLo S.xUp (x.map v)) ∧
          (InBox S.xLo S.xUp (x.map v) → finVec (S.computeU (x.map v)) = some (u.map v)) := by
  cases hc : S.ctrl with
  | net N method =>
    obtain ⟨hN, hW, hM, hr⟩ := h.net N method hc
    obtain ⟨r, hr⟩ := Option.isSome_iff_exists.1 hr
    have hev : S.ctrl.eval = N.eval := by rw [hc]; rfl
    obtain ⟨f1, f2, hA, hC0, hAi0, hAb0, hOk⟩ := relu_fields hr hN
    have ln : ∀ x, (N.eval x).length = k := fun x => by rw [← hev, h.out]
    have lb : N.last.b.length = k := by rw [hN.2.2, hW]
    have hrows : (netOut N).rows.length = k := by simp [netOut, hW]
    have hcols : r.mic.numSlack = (netOut N).cols := by
      obtain ⟨-, -, h3, -⟩ := outputConstraint_some hr
      exact (outputCons_ready h3 hN).2.1
    obtain ⟨m1, hm1, hn1, e1⟩ := mic_enc m hw r.mic x (by rwa [lx]) hx
    set sl := List.range' m.n r.mic.numSlack with hsl
    set bi := List.range' (m.n + r.mic.numSlack) r.mic.numBinary with hbi
    obtain ⟨m2, hm2, s2⟩ := free_addVars m1 e1.wf k
    set pre := List.range' m1.n k with hpre
    have lsl : sl.length = (netOut N).cols := by simp [hsl, hcols]
    have lpre : pre.length = k := by simp [hpre]
    set e := N.eval S.xEq with he
    set B := vsub (vsub e S.uEq) N.last.b with hB
    have lB : B.length = k := by simp [hB, he, ln, h.ueq, lb]
    obtain ⟨m3, hm3, s3⟩ := mconstr2_step m2 s2.wf (netOut N).rows ((eye k).map vneg) sl pre .eq B
      (by rw [lsl]; exact hOk) (by rw [lpre]; exact negEye_cols k) (by rw [hrows, lB]) (by simp [lB])
      (fun i hi => by
        have := (List.mem_range'_1.1 (hsl ▸ hi)).2
        have := s2.n
        omega)
      (fun i hi => by
        have := (List.mem_range'_1.1 (hpre ▸ hi)).2
        have := s2.n
        omega)
    have e23 : Enc m1 m3 (fun _ => True) fun v => ∀ i, i < k → (pre.map v).getD i 0 =
        dot ((netOut N).rows.getD i []) (sl.map v) + N.last.b.getD i 0 - e.getD i 0 + S.uEq.getD i 0 := by
      refine ((s2.trans s3).congr (l := k) (by simp) fun v => Iff.rfl).enc e1.wf ?_ ?_
      · rintro v ⟨-, hv⟩ i hi
        have := hv i (by omega)
        rw [negEye_row _ _ hi, hB, getD_vsub _ _ _ (by simp [he, ln, h.ueq, lb]),
          getD_vsub _ _ _ (by simp [he, ln, h.ueq])] at this
        simp only [Sense.Rel] at this
        linarith
      · rintro v - -
        refine ⟨(List.range k).map fun i => dot ((netOut N).rows.getD i []) (sl.map v) + N.last.b.getD i 0
          - e.getD i 0 + S.uEq.getD i 0, by simp, trivial, fun i hi => ?_⟩
        rw [lB] at hi
        rw [negEye_row _ _ hi, map_upd _ _ _ _ (by simp), map_upd_lt _ _ _ _ (fun j hj => by
          have := (List.mem_range'_1.1 (hsl ▸ hj)).2
          omega), hB, getD_vsub _ _ _ (by simp [he, ln, h.ueq, lb]), getD_vsub _ _ _ (by simp [he, ln, h.ueq])]
        have : ∀ f : ℕ → K, ((List.range k).map f).getD i 0 = f i := fun f => by simp [List.getD, hi]
        rw [this]
        simp only [Sense.Rel]
        ring
    have fe := fun v : ℕ → K => relu_feas_exact hr hN hM h.lo h.up (x := x.map v) (by simpa using lx)
    have e1' : Enc m m1 (fun v => InBox S.xLo S.xUp (x.map v) ∧ finVec (S.computeU (x.map v)) = some (u.map v))
        fun v => r.mic.Feas (x.map v) (sl.map v) (bi.map v) :=
      e1.weaken (fun v _ hv => (fe v).1.2 hv.1) (fun _ _ h => h)
    have dep : DepsBelow m.n fun v => InBox S.xLo S.xUp (x.map v) ∧ finVec (S.computeU (x.map v)) = some (u.map v) := by
      intro v w hvw hv
      have q1 : x.map w = x.map v := List.map_congr_left fun i hi => (hvw i (hx i hi)).symm
      have q2 : u.map w = u.map v := List.map_congr_left fun i hi => (hvw i (hu i hi)).symm
      rwa [q1, q2]
    have e13 := e1'.seq e23 dep fun _ _ _ => trivial
    obtain ⟨m', lo, up, t, l1, l2, hb, E⟩ := ctrl_tail h lx lu hx hu e13 lpre
      (fun i hi => by
        have := List.mem_range'_1.1 (hpre ▸ hi)
        have := s2.n
        have : m3.n = m2.n := by simpa using s3.n
        omega)
      (by
        rintro v ⟨hf, hv⟩ -
        refine vec_ext (by rw [length_preSat h]; simp [lpre]) fun i hi => ?_
        have hi : i < k := by simpa [lpre] using hi
        rw [hv i hi, getD_preSat h, (fe v).2 _ _ hf, netOut_entry hr hN (by simpa using lx) i (by rw [hW]; exact hi),
          hev])
      (vadd (vsub r.nnOutputLo e) S.uEq) (vadd (vsub r.nnOutputUp e) S.uEq)
      (by
        intro y hy
        have := InBox_affine (C11_bounds_sound hr hN hM hy).2.2 (ln _) (ln S.xEq) h.ueq
        rwa [Feedback.preSat, hev])
    refine ⟨m', sl, bi, lo, up, ?_, l1, l2, hb, E.weaken (fun _ _ h => h) ?_⟩
    · unfold Feedback.addCtrl
      rw [hc]
      simp only
      unfold Feedback.addNetCtrl Feedback.addNetCtrlGiven
      rw [h.lo, hr]
      simp only [Option.bind_eq_bind, Option.bind_some, hm1, h.udim, hm2, hA, hC0, ← he]
      rw [lsl, lpre] at hm3
      have eta : (⟨(netOut N).cols, (netOut N).rows⟩ : Tensor2 K) = netOut N := rfl
      rw [eta] at hm3
      rw [hm3]
      simp only [Option.bind_some]
      rw [t]
      rfl
    · rintro v - ⟨⟨hf, -⟩, hv⟩
      exact ⟨fun _ => (fe v).1.1 ⟨_, _, hf⟩, hv⟩
  | lin l =>
    obtain ⟨hl, hin, hW⟩ := h.lin l hc
    have hev : S.ctrl.eval = l.eval := by rw [hc]; rfl
    have ln : ∀ x, (l.eval x).length = k := fun x => by rw [← hev, h.out]
    have hb : l.bias.getD (zeros k) = l.b := by rw [Lin.b, hW]
    have lb : l.b.length = k := by rw [hl.2, hW]
    obtain ⟨m2, hm2, s2⟩ := free_addVars m hw k
    set pre := List.range' m.n k with hpre
    have lpre : pre.length = k := by simp [hpre]
    set e := l.eval S.xEq with he
    set B := vsub (vadd (vneg S.uEq) e) l.b with hB
    have lB : B.length = k := by simp [hB, he, ln, h.ueq, lb]
    obtain ⟨m3, hm3, s3⟩ := mconstr2_step m2 s2.wf ((eye k).map vneg) l.W pre x .eq B
      (by rw [lpre]; exact negEye_cols k) (by rw [lx, ← hin]; exact hl.1) (by simp [lB]) (by rw [hW, lB])
      (fun i hi => by
        have := (List.mem_range'_1.1 (hpre ▸ hi)).2
        have := s2.n
        omega)
      (fun i hi => by
        have := hx i hi
        have := s2.n
        omega)
    have hlin : ∀ y i, i < k → (l.eval y).getD i 0 = dot (l.W.getD i []) y + l.b.getD i 0 := by
      intro y i hi
      rw [Lin.eval, getD_vadd _ _ _ (by simp [hW, lb]), getD_matVec]
    have e23 : Enc m m3 (fun _ => True) fun v => ∀ i, i < k → (pre.map v).getD i 0 =
        (l.eval (x.map v)).getD i 0 - e.getD i 0 + S.uEq.getD i 0 := by
      refine ((s2.trans s3).congr (l := k) (by simp) fun v => Iff.rfl).enc hw ?_ ?_
      · rintro v ⟨-, hv⟩ i hi
        have := hv i (by omega)
        rw [negEye_row _ _ hi, hB, getD_vsub _ _ _ (by simp [he, ln, h.ueq, lb]),
          getD_vadd _ _ _ (by simp [he, ln, h.ueq]), getD_vneg] at this
        simp only [Sense.Rel] at this
        rw [hlin _ _ hi]
        linarith
      · rintro v - -
        refine ⟨(List.range k).map fun i => (l.eval (x.map v)).getD i 0
          - e.getD i 0 + S.uEq.getD i 0, by simp, trivial, fun i hi => ?_⟩
        rw [lB] at hi
        rw [negEye_row _ _ hi, map_upd _ _ _ _ (by simp), map_upd_lt _ _ _ _ hx, hB,
          getD_vsub _ _ _ (by simp [he, ln, h.ueq, lb]), getD_vadd _ _ _ (by simp [he, ln, h.ueq]), getD_vneg]
        have : ∀ f : ℕ → K, ((List.range k).map f).getD i 0 = f i := fun f => by simp [List.getD, hi]
        rw [this, hlin _ _ hi]
        simp only [Sense.Rel]
        ring
    obtain ⟨o, ho⟩ : ∃ o, propagateLin l S.xLo S.xUp = some o := by
      unfold propagateLin rangeIA
      rw [if_pos ⟨by rw [hW, hb, lb], by rw [hin, h.lo], by rw [hin, h.up]⟩]
      exact ⟨_, rfl⟩
    have e23' : Enc m m3 (fun v => InBox S.xLo S.xUp (x.map v) ∧ finVec (S.computeU (x.map v)) = some (u.map v)) _ :=
      e23.weaken (fun _ _ _ => trivial) (fun _ _ h => h)
    obtain ⟨m', lo, up, t, l1, l2, hb', E⟩ := ctrl_tail h lx lu hx hu e23' lpre
      (fun i hi => by
        have := List.mem_range'_1.1 (hpre ▸ hi)
        have := s2.n
        have : m3.n = m2.n := by simpa using s3.n
        omega)
      (by
        rintro v hv -
        refine vec_ext (by rw [length_preSat h]; simp [lpre]) fun i hi => ?_
        have hi : i < k := by simpa [lpre] using hi
        rw [hv i hi, getD_preSat h, hev])
      (vadd (vsub o.1 e) S.uEq) (vadd (vsub o.2 e) S.uEq)
      (by
        intro y hy
        have q : InBox o.1 o.2 (l.eval y) := rangeIA_sound (show rangeIA _ _ _ _ _ = some (o.1, o.2) from ho) hy
        have := InBox_affine q (ln _) (ln S.xEq) h.ueq
        rwa [Feedback.preSat, hev])
    refine ⟨m', [], [], lo, up, ?_, l1, l2, hb', E.weaken (fun _ _ h => h) ?_⟩
    · unfold Feedback.addCtrl
      rw [hc]
      simp only
      unfold Feedback.addLinCtrl
      rw [h.udim, hm2]
      simp only [Option.bind_eq_bind, Option.bind_some, ← he, hb]
      rw [lpre, lx, ← hin] at hm3
      rw [hm3]
      simp only [Option.bind_some]
      rw [ho]
      simp only [Option.bind_some]
      rw [t]
      rfl
    · rintro v - ⟨-, hv⟩
      refine ⟨?_, hv⟩
      rintro ⟨N, method, hN⟩
      rw [hc] at hN
      cases hN

/-- `add_dynamics_mip_constraint` of the feedback system: on the box of states, the forward dynamics with the
saturated control. -/
theorem feedback_enc_at {S : Feedback K} {n k : ℕ} (h : S.Ok n k) {fwd : CtrlConstr K}
    {P : Option (Vec K) → Option (Vec K) → Prop}
    {Rel : Option (Vec K) → Option (Vec K) → Vec K → Vec K → Vec K → Prop} (hF : CtrlEnc fwd n k P Rel)
    {Rel0 : Vec K → Vec K → Vec K → Prop} {Box : Vec K → Prop}
    (hP : ∀ m x u m' s g lo up, S.addCtrl m x u = some (m', s, g, lo, up) → lo.length = k → up.length = k →
      (∀ y w, InBox S.xLo S.xUp y → finVec (S.computeU y) = some w → InBox lo up w) → P (some lo) (some up))
    (hRel : ∀ lo up : Vec K, lo.length = k → up.length = k → ∀ x u y, u.length = k →
      (InBox lo up u → Rel0 x u y → Rel (some lo) (some up) x u y) ∧
        (Rel (some lo) (some up) x u y → Rel0 x u y ∧ Box x)) :
    SysEnc (S.addDynamics fwd) n
      (fun x y => InBox S.xLo S.xUp x ∧ ∃ u, finVec (S.computeU x) = some u ∧ Rel0 x u y) fun x y =>
        (S.isNet → InBox S.xLo S.xUp x) ∧ Box x ∧
          (InBox S.xLo S.xUp x → ∃ u, finVec (S.computeU x) = some u ∧ Rel0 x u y) := by
  intro m x xn hw lx lxn _ hx hxn
  obtain ⟨m1, hm1, s1⟩ := free_addVars m hw k
  set u := List.range' m.n k with hu
  have lu : u.length = k := by simp [hu]
  have hu' : ∀ i ∈ u, i < m1.n := fun i hi => by
    have := (List.mem_range'_1.1 (hu ▸ hi)).2
    have := s1.n
    omega
  have hx1 : ∀ i ∈ x, i < m1.n := fun i hi => by
    have := hx i hi
    have := s1.n
    omega
  have hxn1 : ∀ i ∈ xn, i < m1.n := fun i hi => by
    have := hxn i hi
    have := s1.n
    omega
  obtain ⟨m2, s, g, lo, up, hm2, llo, lup, hb, e2⟩ := addCtrl_fb h m1 s1.wf x u lx lu hx1 hu'
  obtain ⟨m3, s', g', hm3, e3⟩ := hF m2 x xn u (some lo) (some up) e2.wf lx lxn lu
    (fun i hi => (hx1 i hi).trans_le e2.n) (fun i hi => (hxn1 i hi).trans_le e2.n)
    (fun i hi => (hu' i hi).trans_le e2.n) (hP _ _ _ _ _ _ lo up hm2 llo lup hb)
  refine ⟨m3, u ++ s' ++ s, g' ++ g, ?_, ?_⟩
  · unfold Feedback.addDynamics
    simp only [Option.bind_eq_bind, Option.bind_some, h.udim, hm1, hm2, hm3]
  · have D23 : DepsBelow m1.n fun v => InBox S.xLo S.xUp (x.map v) ∧
        finVec (S.computeU (x.map v)) = some (u.map v) ∧ Rel0 (x.map v) (u.map v) (xn.map v) := by
      intro v w hvw hv
      have q1 : x.map w = x.map v := List.map_congr_left fun i hi => (hvw i (hx1 i hi)).symm
      have q2 : u.map w = u.map v := List.map_congr_left fun i hi => (hvw i (hu' i hi)).symm
      have q3 : xn.map w = xn.map v := List.map_congr_left fun i hi => (hvw i (hxn1 i hi)).symm
      rwa [q1, q2, q3]
    have e2' : Enc m1 m2 (fun v => InBox S.xLo S.xUp (x.map v) ∧
        finVec (S.computeU (x.map v)) = some (u.map v) ∧ Rel0 (x.map v) (u.map v) (xn.map v)) _ :=
      e2.weaken (fun v _ hv => ⟨hv.1, hv.2.1⟩) (fun _ _ h => h)
    have e23 := e2'.seq e3 D23 (fun v hv _ => (hRel lo up llo lup _ _ _ (by simpa using lu)).1
      (hb _ _ hv.1 hv.2.1) hv.2.2)
    have e1 : Enc m m1 (fun v => InBox S.xLo S.xUp (x.map v) ∧
          ∃ w, finVec (S.computeU (x.map v)) = some w ∧ Rel0 (x.map v) w (xn.map v)) fun _ => True := by
      refine s1.enc hw (fun _ _ => trivial) fun v _ _ => ⟨zeros k, by simp, trivial⟩
    -- fill in the control
    refine ⟨e23.wf, e1.n.trans e23.n, by rw [e23.obj, e1.obj], fun v hv => ?_, fun v hv hd => ?_⟩
    · obtain ⟨a, b⟩ := e23.sound v hv
      obtain ⟨q1, q2⟩ := (hRel lo up llo lup _ _ _ (by simpa using lu)).2 b.2
      exact ⟨(e1.sound v a).1, b.1.1, q2, fun hbx => ⟨_, b.1.2 hbx, q1⟩⟩
    · obtain ⟨hbx, w, hw1, hw2⟩ := hd
      have lw : w.length = k := ((computeU_iff h _ _).1 hw1).1
      have q1 := map_upd_lt v m.n w x hx
      have q2 := map_upd_lt v m.n w xn hxn
      have q3 : u.map (upd v m.n w) = w := map_upd v m.n w k lw
      obtain ⟨v', f1, f2⟩ := e23.complete (upd v m.n w)
        ((s1.feas _).2 ⟨(hw.feas_congr fun i hi => upd_lt _ _ _ _ hi).2 hv, trivial⟩)
        (by rw [q1, q2, q3]; exact ⟨hbx, hw1, hw2⟩)
      exact ⟨v', fun i hi => by rw [f1 i (hi.trans_le e1.n), upd_lt _ _ _ _ hi], f2⟩

/-- `feedback_enc_at` when the forward system takes all bounds that contain the controls. -/
theorem feedback_enc {S : Feedback K} {n k : ℕ} (h : S.Ok n k) {fwd : CtrlConstr K}
    {P : Option (Vec K) → Option (Vec K) → Prop}
    {Rel : Option (Vec K) → Option (Vec K) → Vec K → Vec K → Vec K → Prop} (hF : CtrlEnc fwd n k P Rel)
    {Rel0 : Vec K → Vec K → Vec K → Prop} {Box : Vec K → Prop}
    (hP : ∀ lo up : Vec K, lo.length = k → up.length = k →
      (∀ y w, InBox S.xLo S.xUp y → finVec (S.computeU y) = some w → InBox lo up w) → P (some lo) (some up))
    (hRel : ∀ lo up : Vec K, lo.length = k → up.length = k → ∀ x u y, u.length = k →
      (InBox lo up u → Rel0 x u y → Rel (some lo) (some up) x u y) ∧
        (Rel (some lo) (some up) x u y → Rel0 x u y ∧ Box x)) :
    SysEnc (S.addDynamics fwd) n
      (fun x y => InBox S.xLo S.xUp x ∧ ∃ u, finVec (S.computeU x) = some u ∧ Rel0 x u y) fun x y =>
        (S.isNet → InBox S.xLo S.xUp x) ∧ Box x ∧
          (InBox S.xLo S.xUp x → ∃ u, finVec (S.computeU x) = some u ∧ Rel0 x u y) :=
  feedback_enc_at h hF (fun _ _ _ _ _ _ lo up _ => hP lo up) hRel

end NNL.Model
