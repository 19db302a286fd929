import Verif.Lemmas.Pattern

/-! Helper lemmas about the gradients of the affine pieces. -/

set_option linter.unusedSectionVars false

namespace NNL.Model

open NNL NNL.Spec

variable {K : Type*} [Field K] [LinearOrder K] [IsStrictOrderedRing K]

/-- A matrix is determined by the products with all vectors. -/
theorem mat_ext {n : ℕ} {A B : Mat K} (hA : HasCols A n) (hB : HasCols B n)
    (h : ∀ v : Vec K, v.length = n → matVec A v = matVec B v) : A = B := by
  have hl : A.length = B.length := by
    have := congrArg List.length (h (zeros n) (by simp))
    simpa using this
  apply List.ext_getElem hl
  intro i h1 h2
  apply vec_ext (by rw [hA _ (List.getElem_mem h1), hB _ (List.getElem_mem h2)])
  intro j hj
  rw [hA _ (List.getElem_mem h1)] at hj
  have := congrArg (fun v => v.getD i 0) (h (eyeRow n j) (by simp))
  simp only [getD_matVec] at this
  rw [dot_comm, dot_eyeRow _ _ _ hj, dot_comm, dot_eyeRow _ _ _ hj] at this
  simpa [List.getD, h1, h2] using this

theorem tolOk_zero (b : Bool) (y : K) : TolOk 0 b y ↔ SignOk b y := by
  cases b <;> simp [TolOk, SignOk]

/-- The matrix obtained from `D` by scaling the rows from `i` on by the gains of the flags. -/
def scaleRows (c : K) : List Bool → Mat K → Mat K
  | b :: bs, r :: D => (if b then r else vsmul c r) :: scaleRows c bs D
  | _, D => D

theorem matVec_scaleRows (a : Act K) : ∀ (p : List Bool) (D : Mat K) (v : Vec K), p.length = D.length →
    matVec (scaleRows a.slope p D) v = List.zipWith (fun b y => a.gain b * y) p (matVec D v) := by
  intro p
  induction p with
  | nil =>
    intro D v h
    have : D = [] := List.eq_nil_of_length_eq_zero h.symm
    subst this; rfl
  | cons b p ih =>
    intro D v h
    cases D with
    | nil => simp at h
    | cons r D =>
      have := ih D v (by simpa using h)
      simp only [matVec] at this
      simp only [scaleRows, matVec, List.map_cons, List.zipWith_cons_cons, this]
      cases b <;> simp [Act.gain, dot_vsmul_left]

theorem hasCols_scaleRows (c : K) {n : ℕ} : ∀ (p : List Bool) (D : Mat K), HasCols D n →
    HasCols (scaleRows c p D) n ∧ (scaleRows c p D).length = D.length := by
  intro p
  induction p with
  | nil => intro D h; exact ⟨h, rfl⟩
  | cons b p ih =>
    intro D h
    cases D with
    | nil => exact ⟨h, rfl⟩
    | cons r D =>
      obtain ⟨i1, i2⟩ := ih D fun q hq => h q (by simp [hq])
      refine ⟨?_, by simp [scaleRows, i2]⟩
      intro q hq
      rcases List.mem_cons.1 hq with rfl | hq
      · split <;> simp [h r (by simp)]
      · exact i1 q hq

theorem gradUnit_mem (tol c : K) (i : ℕ) (y : K) (htol : 0 ≤ tol) (Ds : List (Mat K)) (D : Mat K) :
    D ∈ gradUnit tol c i y Ds ↔ ∃ E ∈ Ds, ∃ b, TolOk tol b y ∧
      D = (if b then E else E.set i (vsmul c (E.getD i []))) := by
  unfold gradUnit
  simp only
  split
  · rename_i h
    have hn : ¬ y < -tol := by intro h'; linarith
    constructor
    · intro hD; exact ⟨D, hD, true, ⟨fun _ => rfl, fun h' => absurd h' hn⟩, rfl⟩
    · rintro ⟨E, hE, b, hb, rfl⟩
      rw [hb.1 h]; exact hE
  · rename_i h
    split
    · rename_i h2
      constructor
      · intro hD
        obtain ⟨E, hE, rfl⟩ := List.mem_map.1 hD
        exact ⟨E, hE, false, ⟨fun h' => absurd h' h, fun _ => rfl⟩, rfl⟩
      · rintro ⟨E, hE, b, hb, rfl⟩
        rw [hb.2 h2]; exact List.mem_map.2 ⟨E, hE, rfl⟩
    · rename_i h2
      simp only [List.mem_append, List.mem_map]
      constructor
      · rintro (hD | ⟨E, hE, rfl⟩)
        · exact ⟨D, hD, true, ⟨fun h' => absurd h' h, fun h' => absurd h' h2⟩, rfl⟩
        · exact ⟨E, hE, false, ⟨fun h' => absurd h' h, fun h' => absurd h' h2⟩, rfl⟩
      · rintro ⟨E, hE, b, hb, rfl⟩
        cases b
        · right; exact ⟨E, hE, rfl⟩
        · left; exact hE

theorem set_drop_scale (c : K) (E : Mat K) (i : ℕ) (h : i < E.length) (bs : List Bool) (b : Bool) :
    let E' := if b then E else E.set i (vsmul c (E.getD i []))
    E'.take (i + 1) ++ scaleRows c bs (E'.drop (i + 1))
      = E.take i ++ scaleRows c (b :: bs) (E.drop i) := by
  have e1 : E.drop i = E[i] :: E.drop (i + 1) := List.drop_eq_getElem_cons h
  have e2 : E.getD i [] = E[i] := by simp [List.getD, h]
  cases b with
  | true =>
    simp only [if_true]
    rw [e1, scaleRows]
    rw [List.take_succ_eq_append_getElem h, List.append_assoc]
    rfl
  | false =>
    simp only [Bool.false_eq_true, if_false]
    rw [e1, scaleRows, e2]
    have e3 : (E.set i (vsmul c E[i])).drop (i + 1) = E.drop (i + 1) := by
      rw [List.drop_set_of_lt (by omega)]
    have e4 : (E.set i (vsmul c E[i])).take (i + 1) = E.take i ++ [vsmul c E[i]] := by
      rw [List.take_succ_eq_append_getElem (by simpa using h)]
      simp [List.take_set_of_le]
    rw [e3, e4]
    simp

theorem gradUnits_mem (tol c : K) (htol : 0 ≤ tol) : ∀ (ys : Vec K) (i : ℕ) (Ds : List (Mat K))
    (D : Mat K), (∀ E ∈ Ds, i + ys.length ≤ E.length) →
    (D ∈ gradUnits tol c i ys Ds ↔ ∃ E ∈ Ds, ∃ p, List.Forall₂ (TolOk tol) p ys ∧
      D = E.take i ++ scaleRows c p (E.drop i)) := by
  intro ys
  induction ys with
  | nil =>
    intro i Ds D h
    simp [gradUnits, scaleRows]
  | cons y ys ih =>
    intro i Ds D h
    simp only [List.length_cons] at h
    rw [gradUnits, ih (i + 1) _ _ (by
      intro E hE
      obtain ⟨F, hF, b, _, rfl⟩ := (gradUnit_mem _ _ _ _ htol _ _).1 hE
      have := h F hF
      cases b <;> simp <;> omega)]
    constructor
    · rintro ⟨E, hE, p, hp, rfl⟩
      obtain ⟨F, hF, b, hb, rfl⟩ := (gradUnit_mem _ _ _ _ htol _ _).1 hE
      refine ⟨F, hF, b :: p, List.Forall₂.cons hb hp, ?_⟩
      exact set_drop_scale c F i (by have := h F hF; omega) p b
    · rintro ⟨F, hF, q, hq, rfl⟩
      obtain ⟨b, p, hb, hp, rfl⟩ := List.forall₂_cons_right_iff.1 hq
      refine ⟨_, (gradUnit_mem _ _ _ _ htol _ _).2 ⟨F, hF, b, hb, rfl⟩, p, hp, ?_⟩
      exact (set_drop_scale c F i (by have := h F hF; omega) p b).symm

theorem slope_match (a : Act K) : actC a = a.slope := by cases a <;> rfl

theorem gradLayers_mem (tol : K) (htol : 0 ≤ tol) (n : ℕ) {m : ℕ} : ∀ (hs : List (Lin K × Act K))
    (k : ℕ) (x : Vec K) (Ds : List (Mat K)) (D : Mat K), HidOk k hs m →
    (∀ E ∈ Ds, E.length = k ∧ HasCols E n) →
    (D ∈ gradLayers tol n hs x Ds ↔ ∃ E ∈ Ds, ∃ pat,
      List.Forall₂ (List.Forall₂ (TolOk tol)) pat (preacts hs x) ∧ HasCols D n ∧ D.length = m ∧
      ∀ v, v.length = n → matVec D v = dirHid hs pat (matVec E v)) := by
  intro hs
  induction hs with
  | nil =>
    intro k x Ds D hok hD
    have hk : k = m := hok
    simp only [gradLayers, preacts, List.forall₂_nil_right_iff, exists_eq_left, dirHid]
    constructor
    · intro h; exact ⟨D, h, (hD D h).2, by rw [(hD D h).1, hk], fun v _ => rfl⟩
    · rintro ⟨E, hE, h1, h2, h3⟩
      rw [mat_ext h1 (hD E hE).2 h3]; exact hE
  | cons lp hs ih =>
    obtain ⟨l, a⟩ := lp
    intro k x Ds D hok hD
    obtain ⟨hin, hl, hrest⟩ := hok
    have hy := Lin.length_eval hl x
    have hmem : ∀ E, E ∈ gradUnits tol a.slope 0 (l.eval x) (Ds.map (matMul n l.W)) ↔
        ∃ F ∈ Ds, ∃ p, List.Forall₂ (TolOk tol) p (l.eval x) ∧
          E = scaleRows a.slope p (matMul n l.W F) := by
      intro E
      rw [gradUnits_mem tol _ htol _ _ _ _ (by
        intro E hE
        obtain ⟨F, _, rfl⟩ := List.mem_map.1 hE
        rw [length_matMul]; omega)]
      simp
    have hsh : ∀ E, E ∈ gradUnits tol a.slope 0 (l.eval x) (Ds.map (matMul n l.W)) →
        E.length = l.W.length ∧ HasCols E n := by
      intro E hE
      obtain ⟨F, hF, p, hp, rfl⟩ := (hmem E).1 hE
      have := hasCols_scaleRows a.slope p _ (hasCols_matMul l.W F (hD F hF).2)
      exact ⟨by rw [this.2, length_matMul], this.1⟩
    simp only [gradLayers, slope_match]
    rw [ih l.W.length _ _ D hrest hsh]
    simp only [preacts]
    have hdir : ∀ F ∈ Ds, ∀ p, List.Forall₂ (TolOk tol) p (l.eval x) → ∀ ps (v : Vec K),
        dirHid hs ps (matVec (scaleRows a.slope p (matMul n l.W F)) v)
          = dirHid ((l, a) :: hs) (p :: ps) (matVec F v) := by
      intro F hF p hp ps v
      rw [matVec_scaleRows a _ _ _ (by rw [hp.length_eq, length_matMul, hy]),
        matVec_matMul n _ _ _ (hD F hF).2]
      rfl
    constructor
    · rintro ⟨E, hE, ps, h1, h2, h3, h4⟩
      obtain ⟨F, hF, p, hp, rfl⟩ := (hmem E).1 hE
      refine ⟨F, hF, p :: ps, List.Forall₂.cons hp h1, h2, h3, fun v hv => ?_⟩
      rw [h4 v hv, hdir F hF p hp]
    · rintro ⟨F, hF, q, hq, h2, h3, h4⟩
      obtain ⟨p, ps, hp, hps, rfl⟩ := List.forall₂_cons_right_iff.1 hq
      refine ⟨_, (hmem _).2 ⟨F, hF, p, hp, rfl⟩, ps, hps, h2, h3, fun v hv => ?_⟩
      rw [h4 v hv, hdir F hF p hp]

end NNL.Model
