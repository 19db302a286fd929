import Verif.Model.RangeLp
import Verif.Lemmas.HybridBounds
import Verif.Lemmas.NetBounds

/-!
# C82: the range of an affine map by linear programming
-/

set_option linter.unusedSectionVars false

namespace NNL.Props

open NNL NNL.Spec NNL.Model

variable {K : Type*} [Field K] [LinearOrder K] [IsStrictOrderedRing K]

/-- The answers of the solver are correct. -/
def BoxTruthful (lp : BoxLp K) : Prop :=
  ∀ lo up C d a b mx, (lp lo up C d a b mx).True (cutBoxValues lo up C d a b) mx

/-- The solver always answers. -/
def BoxDecides (lp : BoxLp K) : Prop := ∀ lo up C d a b mx, lp lo up C d a b mx ≠ .other

theorem rangeLoop_exact {lp : BoxLp K} (ht : BoxTruthful lp) {lo up : List (Ext K)} {C : Mat K} {d : Vec K} :
    ∀ (A : Mat K) (b : Vec K) {r : List (Ext K) × List (Ext K)}, rangeLoop lp lo up C d A b = some r →
      A.length ≤ b.length ∧ r.1.length = A.length ∧ r.2.length = A.length ∧ ∀ i, i < A.length →
        ExactInf (cutBoxValues lo up C d (A.getD i []) (b.getD i 0)) (r.1.getD i ⊥) ∧
        ExactSup (cutBoxValues lo up C d (A.getD i []) (b.getD i 0)) (r.2.getD i ⊤)
  | [], b, r, h => by
    simp only [rangeLoop] at h
    cases h
    simp
  | a :: A, [], r, h => by simp [rangeLoop] at h
  | a :: A, b :: bs, r, h => by
    simp only [rangeLoop, Option.bind_eq_bind, Option.bind_eq_some_iff] at h
    obtain ⟨u, hu, l, hl, q, hq, e⟩ := h
    cases e
    obtain ⟨i1, i2, i3, i4⟩ := rangeLoop_exact ht A bs hq
    refine ⟨by simpa using i1, by simp [i2], by simp [i3], fun i hi => ?_⟩
    cases i with
    | zero =>
      refine ⟨lpLower_exact (ht lo up C d a b false) ?_, lpUpper_exact (ht lo up C d a b true) ?_⟩
      · show _ = some l
        rw [← hl]
        cases lp lo up C d a b false <;> rfl
      · show _ = some u
        rw [← hu]
        cases lp lo up C d a b true <;> rfl
    | succ i => simpa using i4 i (by simpa using hi)

theorem rangeLoop_accepts {lp : BoxLp K} (hd : BoxDecides lp) {lo up : List (Ext K)} {C : Mat K} {d : Vec K} :
    ∀ (A : Mat K) (b : Vec K), A.length ≤ b.length → (rangeLoop lp lo up C d A b).isSome
  | [], b, _ => by simp [rangeLoop]
  | a :: A, [], h => by simp at h
  | a :: A, b :: bs, h => by
    obtain ⟨r, hr⟩ := Option.isSome_iff_exists.1 (rangeLoop_accepts hd (lo := lo) (up := up) (C := C) (d := d) A bs
      (by simpa using h))
    have h1 : ∃ u, rangeUpOf (lp lo up C d a b true) = some u := by
      have := hd lo up C d a b true
      cases e : lp lo up C d a b true with
      | other => exact absurd e this
      | _ => exact ⟨_, rfl⟩
    have h2 : ∃ u, rangeLoOf (lp lo up C d a b false) = some u := by
      have := hd lo up C d a b false
      cases e : lp lo up C d a b false with
      | other => exact absurd e this
      | _ => exact ⟨_, rfl⟩
    obtain ⟨u, hu⟩ := h1
    obtain ⟨l, hl⟩ := h2
    simp [rangeLoop, hu, hl, hr]

/-- The constraints `C x <= d` that are in force. -/
def cutsOf (C : Option (Mat K)) (d : Option (Vec K)) : Mat K × Vec K :=
  match C, d with
  | some C, some d => (C, d)
  | _, _ => ([], [])

/-- The missing bounds are infinite. -/
def boundsOr (n : ℕ) (e : Ext K) (l : Option (List (Ext K))) : List (Ext K) := l.getD (List.replicate n e)

theorem computeRangeLp_loop {lp : BoxLp K} {n : ℕ} {A : Mat K} {b : Vec K} {xlb xub : Option (List (Ext K))}
    {C : Option (Mat K)} {d : Option (Vec K)} {r : List (Ext K) × List (Ext K)}
    (h : computeRangeLp lp n A b xlb xub C d = some r) :
    (boundsOr n ⊥ xlb).length = n ∧ (boundsOr n ⊤ xub).length = n ∧
      rangeLoop lp (boundsOr n ⊥ xlb) (boundsOr n ⊤ xub) (cutsOf C d).1 (cutsOf C d).2 A b = some r := by
  unfold computeRangeLp at h
  simp only at h
  split at h
  · rename_i hl
    refine ⟨hl.1, hl.2, ?_⟩
    cases C with
    | none => exact h
    | some C => cases d with
      | none => cases h
      | some d =>
        simp only at h
        split at h
        · exact h
        · cases h
  · cases h

/-- C82. Entry `i` of the result is the infimum and the supremum of `A[i] x + b[i]` over all `x` between the
bounds (a missing bound is infinite) that satisfy `C x ≤ d` (if given). A finite entry is attained. For an
empty set the entries are `inf` and `-inf`. -/
theorem C82_exact {lp : BoxLp K} (ht : BoxTruthful lp) {n : ℕ} {A : Mat K} {b : Vec K}
    {xlb xub : Option (List (Ext K))} {C : Option (Mat K)} {d : Option (Vec K)} {ylb yub : List (Ext K)}
    (h : computeRangeLp lp n A b xlb xub C d = some (ylb, yub)) :
    ylb.length = A.length ∧ yub.length = A.length ∧ ∀ i, i < A.length →
      ExactInf (cutBoxValues (boundsOr n ⊥ xlb) (boundsOr n ⊤ xub) (cutsOf C d).1 (cutsOf C d).2
        (A.getD i []) (b.getD i 0)) (ylb.getD i ⊥) ∧
      ExactSup (cutBoxValues (boundsOr n ⊥ xlb) (boundsOr n ⊤ xub) (cutsOf C d).1 (cutsOf C d).2
        (A.getD i []) (b.getD i 0)) (yub.getD i ⊤) := by
  obtain ⟨-, -, hr⟩ := computeRangeLp_loop h
  obtain ⟨-, h2, h3, h4⟩ := rangeLoop_exact ht A b hr
  exact ⟨h2, h3, h4⟩

/-- C82. Every `x` of the set has its value in the computed range. -/
theorem C82_contains {lp : BoxLp K} (ht : BoxTruthful lp) {n : ℕ} {A : Mat K} {b : Vec K}
    {xlb xub : Option (List (Ext K))} {C : Option (Mat K)} {d : Option (Vec K)} {ylb yub : List (Ext K)}
    (h : computeRangeLp lp n A b xlb xub C d = some (ylb, yub)) {x : Vec K}
    (hx : InCutBox (boundsOr n ⊥ xlb) (boundsOr n ⊤ xub) (cutsOf C d).1 (cutsOf C d).2 x) (i : ℕ)
    (hi : i < A.length) :
    ylb.getD i ⊥ ≤ Ext.fin (dot (A.getD i []) x + b.getD i 0) ∧
      Ext.fin (dot (A.getD i []) x + b.getD i 0) ≤ yub.getD i ⊤ := by
  obtain ⟨-, -, h⟩ := C82_exact ht h
  obtain ⟨h1, h2⟩ := h i hi
  exact ⟨h1.1.1 ⟨_, ⟨x, hx, rfl⟩, rfl⟩, h2.1.1 ⟨_, ⟨x, hx, rfl⟩, rfl⟩⟩

/-- C82. The call raises exactly for wrong shapes, if the solver always answers. -/
theorem C82_accepts {lp : BoxLp K} (hd : BoxDecides lp) {n : ℕ} {A : Mat K} {b : Vec K}
    {xlb xub : Option (List (Ext K))} {C : Option (Mat K)} {d : Option (Vec K)} (hb : A.length = b.length)
    (h1 : ∀ l, xlb = some l → l.length = n) (h2 : ∀ l, xub = some l → l.length = n)
    (h3 : ∀ P, C = some P → (∀ r ∈ P, r.length = n) ∧ ∃ q, d = some q ∧ q.length = P.length) :
    (computeRangeLp lp n A b xlb xub C d).isSome := by
  unfold computeRangeLp
  have l1 : (xlb.getD (List.replicate n ⊥)).length = n := by
    cases xlb with
    | none => simp
    | some l => exact h1 l rfl
  have l2 : (xub.getD (List.replicate n ⊤)).length = n := by
    cases xub with
    | none => simp
    | some l => exact h2 l rfl
  simp only
  rw [if_pos ⟨l1, l2⟩]
  cases C with
  | none => exact rangeLoop_accepts hd A b hb.le
  | some P =>
    obtain ⟨p, q, rfl, hq⟩ := h3 P rfl
    simp only
    rw [if_pos ⟨p, hq⟩]
    exact rangeLoop_accepts hd A b hb.le

/-- C82. Wrong shapes raise. -/
theorem C82_rejects {lp : BoxLp K} {n : ℕ} {A : Mat K} {b : Vec K} {xlb xub : Option (List (Ext K))}
    {C : Option (Mat K)} {d : Option (Vec K)}
    (h : (∃ l, xlb = some l ∧ l.length ≠ n) ∨ (∃ l, xub = some l ∧ l.length ≠ n) ∨
      (∃ P, C = some P ∧ ∀ q, d = some q → q.length ≠ P.length) ∨ b.length < A.length) :
    computeRangeLp lp n A b xlb xub C d = none := by
  have hs : ∀ lo up P q, ∀ (A : Mat K) (b : Vec K), b.length < A.length → rangeLoop lp lo up P q A b = none := by
    intro lo up P q A
    induction A with
    | nil => intro b hb; simp at hb
    | cons a A ih =>
      intro b hb
      cases b with
      | nil => rfl
      | cons b bs => simp [rangeLoop, ih bs (by simpa using hb)]
  cases e : computeRangeLp lp n A b xlb xub C d with
  | none => rfl
  | some r =>
    exfalso
    obtain ⟨l1, l2, hr⟩ := computeRangeLp_loop e
    rcases h with ⟨l, rfl, hl⟩ | ⟨l, rfl, hl⟩ | ⟨P, rfl, hP⟩ | hb
    · exact hl l1
    · exact hl l2
    · unfold computeRangeLp at e
      simp only at e
      split at e
      · cases d with
        | none => cases e
        | some q =>
          simp only at e
          split at e
          · rename_i hc
            exact hP q rfl hc.2
          · cases e
      · cases e
    · rw [hs _ _ _ _ _ _ hb] at hr
      cases hr

theorem getD_map_fin (l : Vec K) (i : ℕ) (e : Ext K) (h : i < l.length) :
    (l.map Ext.fin).getD i e = Ext.fin (l.getD i 0) := by
  simp [List.getD, h]

theorem inCutBox_box {lo up x : Vec K} (h : lo.length = up.length) :
    InCutBox (lo.map Ext.fin) (up.map Ext.fin) [] [] x ↔ InBox lo up x := by
  unfold InCutBox InBox
  constructor
  · rintro ⟨h1, h2, h3, -⟩
    have l : x.length = lo.length := by simpa using h1
    refine ⟨l, l.trans h, fun i hi => ⟨?_, ?_⟩⟩
    · have := h2 i hi
      rw [getD_map_fin _ _ _ (by omega)] at this
      simpa using this
    · have := h3 i hi
      rw [getD_map_fin _ _ _ (by omega)] at this
      simpa using this
  · rintro ⟨h1, h2, h3⟩
    refine ⟨by simpa using h1, fun i hi => ?_, fun i hi => ?_, fun i hi => by simp at hi⟩
    · rw [getD_map_fin _ _ _ (by omega)]
      simpa using (h3 i hi).1
    · rw [getD_map_fin _ _ _ (by omega)]
      simpa using (h3 i hi).2

/-- C82. Without `C x ≤ d`, on a non-empty bounded box, the result is the one of interval arithmetic
(`compute_range_by_IA`). -/
theorem C82_interval {lp : BoxLp K} (ht : BoxTruthful lp) {n : ℕ} {A : Mat K} {b lo up : Vec K}
    {d : Option (Vec K)} {ylb yub : List (Ext K)}
    (h : computeRangeLp lp n A b (some (lo.map Ext.fin)) (some (up.map Ext.fin)) none d = some (ylb, yub))
    (hb : b.length = A.length) (hbox : ∀ i, i < n → lo.getD i 0 ≤ up.getD i 0) :
    ∃ l u, rangeIA n A b lo up = some (l, u) ∧ ylb = l.map Ext.fin ∧ yub = u.map Ext.fin := by
  obtain ⟨l1, l2, -⟩ := computeRangeLp_loop h
  simp only [boundsOr, Option.getD_some, List.length_map] at l1 l2
  have hc : b.length = A.length ∧ lo.length = n ∧ up.length = n := ⟨hb, l1, l2⟩
  refine ⟨_, _, by unfold rangeIA; rw [if_pos hc], ?_⟩
  obtain ⟨e1, e2, e3⟩ := C82_exact ht h
  have hv : ∀ i, cutBoxValues (lo.map Ext.fin) (up.map Ext.fin) [] [] (A.getD i []) (b.getD i 0) =
      {v | ∃ x, InBox lo up x ∧ dot (A.getD i []) x + b.getD i 0 = v} := by
    intro i
    unfold cutBoxValues
    simp only [inCutBox_box (l1.trans l2.symm)]
  have ho : BoxOrd lo up := ⟨l1.trans l2.symm, fun i hi => hbox i (l1 ▸ hi)⟩
  have key : ∀ i, i < A.length → ylb.getD i ⊥ = Ext.fin (rowLo (A.getD i []) (b.getD i 0) lo up) ∧
      yub.getD i ⊤ = Ext.fin (rowUp (A.getD i []) (b.getD i 0) lo up) := by
    intro i hi
    obtain ⟨f1, f2⟩ := e3 i hi
    simp only [boundsOr, Option.getD_some, cutsOf, hv] at f1 f2
    obtain ⟨t1, t2⟩ := row_tight (A.getD i []) lo up (b.getD i 0) ho
    refine ⟨f1.1.unique (ExactInf.least (S := {v | ∃ x, InBox lo up x ∧ dot (A.getD i []) x + b.getD i 0 = v})
        ⟨t1, ?_⟩).1, f2.1.unique
          (ExactSup.greatest (S := {v | ∃ x, InBox lo up x ∧ dot (A.getD i []) x + b.getD i 0 = v}) ⟨t2, ?_⟩).1⟩
    · rintro _ ⟨x, hx, rfl⟩
      exact (row_sound _ _ _ _ _ hx).1
    · rintro _ ⟨x, hx, rfl⟩
      exact (row_sound _ _ _ _ _ hx).2
  constructor
  · refine List.ext_getElem (by simp [e1]) fun i h1 h2 => ?_
    have := (key i (by omega)).1
    simpa [List.getD, h1] using this
  · refine List.ext_getElem (by simp [e2]) fun i h1 h2 => ?_
    have := (key i (by omega)).2
    simpa [List.getD, h1] using this

/-- C82. The rows `C x ≤ d` can only tighten the range of interval arithmetic. -/
theorem C82_tightens {lp : BoxLp K} (ht : BoxTruthful lp) {n : ℕ} {A : Mat K} {b lo up : Vec K}
    {C : Option (Mat K)} {d : Option (Vec K)} {ylb yub : List (Ext K)} {l u : Vec K}
    (h : computeRangeLp lp n A b (some (lo.map Ext.fin)) (some (up.map Ext.fin)) C d = some (ylb, yub))
    (hIA : rangeIA n A b lo up = some (l, u)) (i : ℕ) (hi : i < A.length) :
    Ext.fin (l.getD i 0) ≤ ylb.getD i ⊥ ∧ yub.getD i ⊤ ≤ Ext.fin (u.getD i 0) := by
  obtain ⟨e1, e2, e3⟩ := C82_exact ht h
  obtain ⟨f1, f2⟩ := e3 i hi
  have hx : ∀ x, InCutBox (lo.map Ext.fin) (up.map Ext.fin) (cutsOf C d).1 (cutsOf C d).2 x →
      l.getD i 0 ≤ dot (A.getD i []) x + b.getD i 0 ∧ dot (A.getD i []) x + b.getD i 0 ≤ u.getD i 0 := by
    intro x hx
    unfold rangeIA at hIA
    split at hIA
    · rename_i hc
      cases hIA
      rw [getD_range_map _ _ _ hi, getD_range_map _ _ _ hi]
      refine row_sound _ _ _ _ _ ((inCutBox_box (hc.2.1.trans hc.2.2.symm)).1 ⟨hx.1, hx.2.1, hx.2.2.1, ?_⟩)
      intro j hj
      simp at hj
    · cases hIA
  constructor
  · refine f1.1.2 ?_
    rintro _ ⟨v, ⟨x, h1, rfl⟩, rfl⟩
    simpa using (hx x h1).1
  · refine f2.1.2 ?_
    rintro _ ⟨v, ⟨x, h1, rfl⟩, rfl⟩
    simpa using (hx x h1).2

/-! ### Examples -/

open Classical in
/-- A correct solver that always answers when the optimum is attained, the set empty or the values unbounded. -/
noncomputable def exBoxLp : BoxLp K := fun lo up C d a b mx =>
  let S := cutBoxValues lo up C d a b
  if S = ∅ then .infeasible
  else if mx then
    if h : ∃ v, IsGreatest S v then .optimal h.choose else if ¬ BddAbove S then .unbounded else .other
  else
    if h : ∃ v, IsLeast S v then .optimal h.choose else if ¬ BddBelow S then .unbounded else .other

theorem exBoxLp_truthful : BoxTruthful (exBoxLp : BoxLp K) := by
  intro lo up C d a b mx
  unfold exBoxLp
  simp only
  by_cases h0 : cutBoxValues lo up C d a b = ∅
  · simp [h0, LpAnswer.True]
  · rw [if_neg h0]
    cases mx
    · simp only [Bool.false_eq_true, if_false]
      by_cases h : ∃ v, IsLeast (cutBoxValues lo up C d a b) v
      · simpa [h, LpAnswer.True] using h.choose_spec
      · rw [dif_neg h]
        split <;> simp_all [LpAnswer.True]
    · simp only [if_true]
      by_cases h : ∃ v, IsGreatest (cutBoxValues lo up C d a b) v
      · simpa [h, LpAnswer.True] using h.choose_spec
      · rw [dif_neg h]
        split <;> simp_all [LpAnswer.True]

/-- On a bounded box with rows `C x ≤ d` that cut nothing the solver answers, and the results agree: the
hypotheses of `C82_interval` and `C82_tightens` are met. -/
theorem exRange : ∃ r, computeRangeLp (exBoxLp : BoxLp ℚ) 1 [[2]] [1] (some [Ext.fin 0]) (some [Ext.fin 3]) none none
    = some r := by
  have hv : cutBoxValues ([0].map Ext.fin) ([3].map Ext.fin) [] [] [2] (1 : ℚ) =
      {v | ∃ x, InBox [0] [3] x ∧ dot [2] x + 1 = v} := by
    unfold cutBoxValues
    simp only [inCutBox_box (lo := [(0 : ℚ)]) (up := [3]) rfl]
  obtain ⟨t1, t2⟩ := row_tight [2] [0] [3] (1 : ℚ) ⟨rfl, fun i hi => by
    match i, hi with
    | 0, _ => norm_num⟩
  have hg : ∃ v, IsGreatest (cutBoxValues [Ext.fin 0] [Ext.fin 3] [] [] [2] (1 : ℚ)) v := by
    refine ⟨rowUp [2] 1 [0] [3], ?_⟩
    · show IsGreatest (cutBoxValues ([0].map Ext.fin) ([3].map Ext.fin) [] [] [2] (1 : ℚ)) _
      rw [hv]
      refine ⟨t2, ?_⟩
      rintro _ ⟨x, hx, rfl⟩
      exact (row_sound _ _ _ _ _ hx).2
  have hl : ∃ v, IsLeast (cutBoxValues [Ext.fin 0] [Ext.fin 3] [] [] [2] (1 : ℚ)) v := by
    refine ⟨rowLo [2] 1 [0] [3], ?_⟩
    · show IsLeast (cutBoxValues ([0].map Ext.fin) ([3].map Ext.fin) [] [] [2] (1 : ℚ)) _
      rw [hv]
      refine ⟨t1, ?_⟩
      rintro _ ⟨x, hx, rfl⟩
      exact (row_sound _ _ _ _ _ hx).1
  have hne : cutBoxValues [Ext.fin 0] [Ext.fin 3] [] [] [2] (1 : ℚ) ≠ ∅ := by
    obtain ⟨v, hv⟩ := hg
    exact Set.nonempty_iff_ne_empty.1 ⟨v, hv.1⟩
  simp [computeRangeLp, rangeLoop, exBoxLp, hne, hg, hl, rangeUpOf, rangeLoOf]

example : ∃ ylb yub l u, computeRangeLp (exBoxLp : BoxLp ℚ) 1 [[2]] [1] (some [Ext.fin 0]) (some [Ext.fin 3]) none
    none = some (ylb, yub) ∧ rangeIA 1 [[2]] [1] [0] [3] = some (l, u) ∧ ylb = l.map Ext.fin ∧ yub = u.map Ext.fin ∧
    Ext.fin (l.getD 0 0) ≤ ylb.getD 0 ⊥ := by
  obtain ⟨⟨a, b⟩, hr⟩ := exRange
  obtain ⟨l, u, h, h1, h2⟩ := C82_interval (exBoxLp_truthful (K := ℚ)) (lo := [0]) (up := [3]) hr rfl (fun i hi => by
    match i, hi with
    | 0, _ => norm_num)
  exact ⟨a, b, l, u, hr, h, h1, h2, (C82_tightens (exBoxLp_truthful (K := ℚ)) (lo := [0]) (up := [3]) hr h 0
    (by simp)).1⟩

/-- An empty set: `x ≤ -1` on `[0, 3]` gives `(inf, -inf)`. -/
example : computeRangeLp (exBoxLp : BoxLp ℚ) 1 [[2]] [1] (some [Ext.fin 0]) (some [Ext.fin 3]) (some [[1]])
    (some [-1]) = some ([⊤], [⊥]) := by
  have : cutBoxValues [Ext.fin 0] [Ext.fin 3] [[1]] [-1] [2] (1 : ℚ) = ∅ := by
    refine Set.eq_empty_iff_forall_notMem.2 ?_
    rintro _ ⟨x, ⟨h1, h2, h3, h4⟩, rfl⟩
    obtain ⟨a, rfl⟩ := List.length_eq_one_iff.1 h1
    have p := h2 0 (by simp)
    have q := h4 0 (by simp)
    simp [dot] at p q
    linarith
  simp [computeRangeLp, rangeLoop, exBoxLp, this, rangeUpOf, rangeLoOf]

/-- A solver that always answers (not a correct one), for the acceptance theorem. -/
example := C82_accepts (lp := fun _ _ _ _ _ _ _ => .infeasible) (K := ℚ) (fun _ _ _ _ _ _ _ => by simp) (n := 1)
  (A := [[2]]) (b := [1]) (xlb := none) (xub := some [Ext.fin 3]) (C := some [[1]]) (d := some [4]) rfl
  (fun l hl => (nomatch hl)) (by simp) (by simp)

end NNL.Props
