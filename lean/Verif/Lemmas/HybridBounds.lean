import Verif.Lemmas.Hybrid

/-! Lemmas on the bounds recorded by the hybrid systems. -/

set_option linter.unusedSectionVars false

namespace NNL.Model

open NNL NNL.Spec

variable {K : Type*} [Field K] [LinearOrder K] [IsStrictOrderedRing K]

@[simp] theorem fin_le_fin (a b : K) : Ext.fin a ≤ Ext.fin b ↔ a ≤ b := by simp [Ext.fin]
@[simp] theorem fin_lt_fin (a b : K) : Ext.fin a < Ext.fin b ↔ a < b := by simp [Ext.fin]
@[simp] theorem fin_inj (a b : K) : Ext.fin a = Ext.fin b ↔ a = b := by simp [Ext.fin]

theorem ext_cases (a : Ext K) : a = ⊥ ∨ a = ⊤ ∨ ∃ v, a = Ext.fin v := by
  rcases a with _ | _ | v
  · exact Or.inl rfl
  · exact Or.inr (Or.inl rfl)
  · exact Or.inr (Or.inr ⟨v, rfl⟩)

@[simp] theorem fin_ne_bot (a : K) : (Ext.fin a : Ext K) ≠ ⊥ := WithBot.coe_ne_bot
@[simp] theorem fin_ne_top (a : K) : (Ext.fin a : Ext K) ≠ ⊤ := by
  intro h
  exact WithTop.coe_ne_top (WithBot.coe_injective h)

/-! ### Infima and suprema -/

theorem exactInf_empty : ExactInf (∅ : Set K) ⊤ :=
  ⟨by simp, fun v h => absurd h.symm (fin_ne_top v)⟩

theorem exactSup_empty : ExactSup (∅ : Set K) ⊥ :=
  ⟨by simp, fun v h => absurd h.symm (fin_ne_bot v)⟩

theorem _root_.NNL.Spec.ExactInf.union {S T : Set K} {a b : Ext K} (ha : ExactInf S a) (hb : ExactInf T b) :
    ExactInf (S ∪ T) (min a b) := by
  refine ⟨?_, fun v h => ?_⟩
  · rw [Set.image_union]
    exact ha.1.union hb.1
  · rcases min_choice a b with e | e
    · exact Or.inl (ha.2 v (e ▸ h))
    · exact Or.inr (hb.2 v (e ▸ h))

theorem _root_.NNL.Spec.ExactSup.union {S T : Set K} {a b : Ext K} (ha : ExactSup S a) (hb : ExactSup T b) :
    ExactSup (S ∪ T) (max a b) := by
  refine ⟨?_, fun v h => ?_⟩
  · rw [Set.image_union]
    exact ha.1.union hb.1
  · rcases max_choice a b with e | e
    · exact Or.inl (ha.2 v (e ▸ h))
    · exact Or.inr (hb.2 v (e ▸ h))

theorem _root_.NNL.Spec.ExactInf.least {S : Set K} {v : K} (h : IsLeast S v) : ExactInf S (Ext.fin v) := by
  refine ⟨IsLeast.isGLB ⟨⟨v, h.1, rfl⟩, ?_⟩, fun w e => ?_⟩
  · rintro _ ⟨w, hw, rfl⟩
    simpa using h.2 hw
  · rw [← (fin_inj _ _).1 e]; exact h.1

theorem _root_.NNL.Spec.ExactSup.greatest {S : Set K} {v : K} (h : IsGreatest S v) : ExactSup S (Ext.fin v) := by
  refine ⟨IsGreatest.isLUB ⟨⟨v, h.1, rfl⟩, ?_⟩, fun w e => ?_⟩
  · rintro _ ⟨w, hw, rfl⟩
    simpa using h.2 hw
  · rw [← (fin_inj _ _).1 e]; exact h.1

theorem _root_.NNL.Spec.ExactInf.unbounded {S : Set K} (h : ¬ BddBelow S) : ExactInf S ⊥ := by
  refine ⟨⟨fun _ _ => bot_le, fun b hb => ?_⟩, fun v e => absurd e.symm (fin_ne_bot v)⟩
  rcases ext_cases b with rfl | rfl | ⟨v, rfl⟩
  · exact le_rfl
  · exfalso
    refine h ⟨0, fun s hs => ?_⟩
    have := hb ⟨s, hs, rfl⟩
    exact absurd (top_le_iff.1 this) (fin_ne_top s)
  · exfalso
    exact h ⟨v, fun s hs => by simpa using hb ⟨s, hs, rfl⟩⟩

theorem _root_.NNL.Spec.ExactSup.unbounded {S : Set K} (h : ¬ BddAbove S) : ExactSup S ⊤ := by
  refine ⟨⟨fun _ _ => le_top, fun b hb => ?_⟩, fun v e => absurd e.symm (fin_ne_top v)⟩
  rcases ext_cases b with rfl | rfl | ⟨v, rfl⟩
  · exfalso
    refine h ⟨0, fun s hs => ?_⟩
    have := hb ⟨s, hs, rfl⟩
    exact absurd (le_bot_iff.1 this) (fin_ne_bot s)
  · exact le_rfl
  · exfalso
    exact h ⟨v, fun s hs => by simpa using hb ⟨s, hs, rfl⟩⟩

theorem _root_.NNL.Spec.ExactInf.finite {S : Set K} {v : K} (h : ExactInf S (Ext.fin v)) : IsLeast S v :=
  ⟨h.2 v rfl, fun s hs => by simpa using h.1.1 ⟨s, hs, rfl⟩⟩

theorem _root_.NNL.Spec.ExactSup.finite {S : Set K} {v : K} (h : ExactSup S (Ext.fin v)) : IsGreatest S v :=
  ⟨h.2 v rfl, fun s hs => by simpa using h.1.1 ⟨s, hs, rfl⟩⟩

theorem _root_.NNL.Spec.ExactInf.bot {S : Set K} (h : ExactInf S ⊥) : ¬ BddBelow S := by
  rintro ⟨b, hb⟩
  have := h.1.2 (show Ext.fin b ∈ lowerBounds (Ext.fin '' S) by
    rintro _ ⟨s, hs, rfl⟩
    simpa using hb hs)
  exact fin_ne_bot b (le_bot_iff.1 this)

theorem _root_.NNL.Spec.ExactSup.top {S : Set K} (h : ExactSup S ⊤) : ¬ BddAbove S := by
  rintro ⟨b, hb⟩
  have := h.1.2 (show Ext.fin b ∈ upperBounds (Ext.fin '' S) by
    rintro _ ⟨s, hs, rfl⟩
    simpa using hb hs)
  exact fin_ne_top b (top_le_iff.1 this)

theorem _root_.NNL.Spec.ExactInf.top {S : Set K} (h : ExactInf S ⊤) : S = ∅ := by
  by_contra hne
  obtain ⟨s, hs⟩ := Set.nonempty_iff_ne_empty.2 hne
  exact fin_ne_top s (top_le_iff.1 (h.1.1 ⟨s, hs, rfl⟩))

theorem _root_.NNL.Spec.ExactSup.bot {S : Set K} (h : ExactSup S ⊥) : S = ∅ := by
  by_contra hne
  obtain ⟨s, hs⟩ := Set.nonempty_iff_ne_empty.2 hne
  exact fin_ne_bot s (le_bot_iff.1 (h.1.1 ⟨s, hs, rfl⟩))

@[simp] theorem addFin_bot (g : K) : (⊥ : Ext K).addFin g = ⊥ := rfl
@[simp] theorem addFin_top (g : K) : (⊤ : Ext K).addFin g = ⊤ := rfl
@[simp] theorem addFin_fin (v g : K) : (Ext.fin v).addFin g = Ext.fin (v + g) := rfl

theorem _root_.NNL.Spec.ExactInf.add {S : Set K} {a : Ext K} (h : ExactInf S a) (g : K) :
    ExactInf ((· + g) '' S) (a.addFin g) := by
  rcases ext_cases a with rfl | rfl | ⟨v, rfl⟩
  · rw [addFin_bot]
    refine ExactInf.unbounded fun ⟨b, hb⟩ => h.bot ⟨b - g, fun s hs => ?_⟩
    have := hb ⟨s, hs, rfl⟩
    simp only at this
    linarith
  · rw [addFin_top, h.top, Set.image_empty]
    exact exactInf_empty
  · rw [addFin_fin]
    refine ExactInf.least ⟨⟨v, h.finite.1, rfl⟩, ?_⟩
    rintro _ ⟨s, hs, rfl⟩
    have := h.finite.2 hs
    simp only
    linarith

theorem _root_.NNL.Spec.ExactSup.add {S : Set K} {a : Ext K} (h : ExactSup S a) (g : K) :
    ExactSup ((· + g) '' S) (a.addFin g) := by
  rcases ext_cases a with rfl | rfl | ⟨v, rfl⟩
  · rw [addFin_bot, h.bot, Set.image_empty]
    exact exactSup_empty
  · rw [addFin_top]
    refine ExactSup.unbounded fun ⟨b, hb⟩ => h.top ⟨b - g, fun s hs => ?_⟩
    have := hb ⟨s, hs, rfl⟩
    simp only at this
    linarith
  · rw [addFin_fin]
    refine ExactSup.greatest ⟨⟨v, h.finite.1, rfl⟩, ?_⟩
    rintro _ ⟨s, hs, rfl⟩
    have := h.finite.2 hs
    simp only
    linarith

/-! ### The solver -/

/-- What the answer of a correct solver means. -/
def LpAnswer.True (S : Set K) (maximize : Bool) (a : LpAnswer K) : Prop :=
  match a with
  | .optimal v => if maximize then IsGreatest S v else IsLeast S v
  | .unbounded => if maximize then ¬ BddAbove S else ¬ BddBelow S
  | .infeasible => S = ∅
  | .other => _root_.True

/-- The solver gives correct answers. -/
def LpSolver.Truthful (lp : LpSolver K) : Prop :=
  ∀ n P q c b, (lp n P q c b).True (polyValues n P q c) b

theorem lpUpper_exact {S : Set K} {a : LpAnswer K} (h : a.True S true) {e : Ext K} (he : lpUpper a = some e) :
    ExactSup S e := by
  cases a with
  | optimal v =>
    cases he
    exact ExactSup.greatest (by simpa [LpAnswer.True] using h)
  | unbounded =>
    cases he
    exact ExactSup.unbounded (by simpa [LpAnswer.True] using h)
  | infeasible =>
    cases he
    have : S = ∅ := h
    rw [this]
    exact exactSup_empty
  | other => cases he

theorem lpLower_exact {S : Set K} {a : LpAnswer K} (h : a.True S false) {e : Ext K} (he : lpLower a = some e) :
    ExactInf S e := by
  cases a with
  | optimal v =>
    cases he
    exact ExactInf.least (by simpa [LpAnswer.True] using h)
  | unbounded =>
    cases he
    exact ExactInf.unbounded (by simpa [LpAnswer.True] using h)
  | infeasible =>
    cases he
    have : S = ∅ := h
    rw [this]
    exact exactInf_empty
  | other => cases he

theorem lpBounds_exact {lp : LpSolver K} (ht : lp.Truthful) {n : ℕ} {P : Mat K} {q c : Vec K}
    {b : Ext K × Ext K} (h : lpBounds lp n P q c = some b) :
    ExactInf (polyValues n P q c) b.1 ∧ ExactSup (polyValues n P q c) b.2 := by
  unfold lpBounds at h
  cases h1 : lpUpper (lp n P q c true) with
  | none => rw [h1] at h; cases h
  | some up =>
    cases h2 : lpLower (lp n P q c false) with
    | none => rw [h1, h2] at h; cases h
    | some lo =>
      rw [h1, h2] at h
      replace h : some (lo, up) = some b := h
      cases h
      exact ⟨lpLower_exact (ht n P q c false) h2, lpUpper_exact (ht n P q c true) h1⟩

theorem boundsOf_exact {lp : LpSolver K} (ht : lp.Truthful) {n : ℕ} {P : Mat K} {q : Vec K} :
    ∀ (cs : List (Vec K)) {b : List (Ext K) × List (Ext K)}, boundsOf lp n P q cs = some b →
      b.1.length = cs.length ∧ b.2.length = cs.length ∧ ∀ i, i < cs.length →
        ExactInf (polyValues n P q (cs.getD i [])) (b.1.getD i ⊤) ∧
        ExactSup (polyValues n P q (cs.getD i [])) (b.2.getD i ⊥)
  | [], b, h => by
    cases h
    simp
  | c :: cs, b, h => by
    unfold boundsOf at h
    cases h1 : lpBounds lp n P q c with
    | none => rw [h1] at h; cases h
    | some b1 =>
      cases h2 : boundsOf lp n P q cs with
      | none => rw [h1, h2] at h; cases h
      | some r =>
        rw [h1, h2] at h
        replace h : some (b1.1 :: r.1, b1.2 :: r.2) = some b := h
        cases h
        obtain ⟨l1, l2, e⟩ := boundsOf_exact ht cs h2
        refine ⟨by simp [l1], by simp [l2], fun i hi => ?_⟩
        cases i with
        | zero => exact lpBounds_exact ht h1
        | succ i => simpa using e i (by simpa using hi)

theorem getD_zipWith_ext (f : Ext K → Ext K → Ext K) (l m : List (Ext K)) (i : ℕ) (d : Ext K)
    (h1 : i < l.length) (h2 : i < m.length) :
    (List.zipWith f l m).getD i d = f (l.getD i d) (m.getD i d) := by
  simp [List.getD, h1, h2]

theorem polyValues_eye (n : ℕ) (P : Mat K) (q : Vec K) (j : ℕ) (hj : j < n) :
    polyValues n P q ((eye n : Mat K).getD j []) = {v | ∃ w : Vec K, w.length = n ∧ InPoly P q w ∧ w.getD j 0 = v} := by
  have : (eye n : Mat K).getD j [] = eyeRow n j := by simp [eye, List.getD, hj]
  rw [this]
  ext v
  simp only [polyValues, dot_eyeRow _ _ _ hj, Set.mem_ofPred_eq]

/-! ### Finite vectors -/

theorem toFin_some {a : Ext K} {v : K} (h : a.toFin = some v) : a = Ext.fin v := by
  rcases a with _ | _ | w
  · cases h
  · cases h
  · cases h; rfl

@[simp] theorem toFin_fin (v : K) : (Ext.fin v).toFin = some v := rfl

theorem finVec_some : ∀ {l : List (Ext K)} {v : Vec K}, finVec l = some v → l = v.map Ext.fin
  | [], v, h => by cases h; rfl
  | a :: l, v, h => by
    unfold finVec at h
    cases h1 : a.toFin with
    | none => rw [h1] at h; cases h
    | some b =>
      cases h2 : finVec l with
      | none => rw [h1, h2] at h; cases h
      | some w =>
        rw [h1, h2] at h
        replace h : some (b :: w) = some v := h
        cases h
        rw [toFin_some h1, finVec_some h2]
        rfl

theorem finVec_map : ∀ (v : Vec K), finVec (v.map Ext.fin) = some v
  | [] => rfl
  | a :: v => by
    rw [List.map_cons, finVec, finVec_map v]
    rfl

theorem finVec_isSome : ∀ (l : List (Ext K)), (∀ i, i < l.length → ∃ v, l.getD i ⊤ = Ext.fin v) →
    ∃ v, finVec l = some v
  | [], _ => ⟨[], rfl⟩
  | a :: l, h => by
    obtain ⟨v, hv⟩ := finVec_isSome l fun i hi => by simpa using h (i + 1) (by simpa using hi)
    obtain ⟨b, hb⟩ := h 0 (by simp)
    simp only [List.getD_cons_zero] at hb
    subst hb
    exact ⟨b :: v, by rw [finVec, hv]; rfl⟩

end NNL.Model
