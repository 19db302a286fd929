import Verif.Lemmas.ContGrad
import Verif.Model.HybridRate
import Verif.Props.ContinuousRate
import Verif.Props.Hybrid

/-!
# The blocks of the derivative programs of hybrid systems as encodings
-/

set_option linter.unusedSectionVars false

namespace NNL.Model

open NNL NNL.Spec NNL.Props

variable {K : Type*} [Field K] [LinearOrder K] [IsStrictOrderedRing K]

theorem gradParts {net : Net K} {xs : ℕ} {wz : List (Vec K × Vec K)} {c : MIC K}
    (h : gradTimesVecBounds net xs wz = some c) (hok : net.Ok xs) :
    ∃ rows : List (LRow K), c.Ain_input = some ⟨xs, rows.map LRow.x⟩ ∧
      c.Ain_slack = some ⟨numUnits net.hidden, rows.map LRow.s⟩ ∧
      c.Ain_binary = some ⟨numUnits net.hidden, rows.map LRow.z⟩ ∧ c.rhs_in = some (rows.map LRow.rhs) ∧
      (∀ r ∈ rows, r.x.length = xs ∧ r.s.length = numUnits net.hidden ∧ r.z.length = numUnits net.hidden) ∧
      ∀ x s z, c.Holds x s z ↔ ∀ r ∈ rows, r.val x s z ≤ r.rhs := by
  unfold gradTimesVecBounds at h
  simp only at h
  split at h
  · cases h
  · cases h
  · rename_i p ps rows hne hrows
    obtain rfl := Option.some.inj h
    refine ⟨rows, rfl, rfl, rfl, rfl, ?_, fun x s z => ?_⟩
    · intro r hr
      exact gradHid_shape _ _ _ _ _ _ _ hrows hok.1 (by omega) (fun _ => rfl) (by simp) r hr
    · unfold MIC.Holds MIC.ineqRows MIC.eqRows blockRows rowsTensor
      simp only [Option.getD_some, Option.getD_none, List.length_nil, List.range_zero, List.map_nil,
        List.not_mem_nil, false_implies, implies_true, and_true, List.mem_map, List.mem_range,
        forall_exists_index, and_imp, forall_apply_eq_imp_iff₂, List.length_map]
      constructor
      · intro hh r hr
        obtain ⟨i, hi, rfl⟩ := List.getElem_of_mem hr
        have := hh i hi
        simpa [LRow.val, mrow, List.getD, hi] using this
      · intro hh i hi
        have := hh _ (List.getElem_mem hi)
        simpa [LRow.val, mrow, List.getD, hi] using this

/-- The gradient rows for the given binaries, with the vector `y` which is a linear function of the variables
`x`. -/
theorem gradRows_enc (L : Lyap K) (hL : L.NetOk) {wz : List (Vec K × Vec K)} {c : MIC K}
    (hc : gradTimesVecBounds L.net L.dim wz = some c) (hwz : wz.length = L.net.hidden.length)
    {A : Tensor2 K} (hA : c.Ain_input = some A) (x : List ℕ) (B : Mat K) (y : Vec K → Vec K)
    (hBl : B.length = A.rows.length) (hBc : HasCols B x.length)
    (hB : ∀ w : Vec K, w.length = x.length → ∀ i, i < B.length →
      dot (B.getD i []) w = dot (A.rows.getD i []) (y w))
    (m : Mip K) (hw : m.WF) (beta : List ℕ) (hx : ∀ i ∈ x, i < m.n)
    (hbl : beta.length = numUnits L.net.hidden) (hbn : ∀ i ∈ beta, i < m.n) :
    ∃ m' ga, m.addGradRows c ⟨x.length, B⟩ x beta =
        some (m', List.range' m.n (numUnits L.net.hidden), ga) ∧
      ga.length = numUnits L.net.hidden ∧ m'.n = m.n + numUnits L.net.hidden ∧
      Enc m m' (fun v => ∃ p, PatFits L.net.hidden p ∧ beta.map v = patVec p ∧
          WzOk L.net.hidden wz (dirPre L.net.hidden p (y (x.map v)))) fun v =>
        ∀ p, PatFits L.net.hidden p → beta.map v = patVec p →
          dot ga ((List.range' m.n (numUnits L.net.hidden)).map v) = (L.net.dir p (y (x.map v))).getD 0 0 := by
  obtain ⟨hr, n1, n2, n3, hAo, hC, hAi, hAb, q1, q2, q3, q4, q5, q6⟩ := gradTimesVecBounds_ready hc hL.net
  obtain ⟨rows, p1, p2, p3, p4, p5, p6⟩ := gradParts hc hL.net
  obtain rfl : A = ⟨L.dim, rows.map LRow.x⟩ := Option.some.inj (hA.symm.trans p1)
  have hu := hL.units
  obtain ⟨w, hW⟩ : ∃ w, L.net.last.W = [w] := by
    match h : L.net.last.W, hL.out with
    | [w], _ => exact ⟨w, rfl⟩
  rw [hW] at hAo
  simp only [List.map_cons, List.map_nil] at hAo
  set N := numUnits L.net.hidden with hN
  obtain ⟨m1, h1, s1⟩ := free_addVars m hw N
  have e1 := s1.n
  have hBl' : B.length = rows.length := by simpa using hBl
  obtain ⟨m2, h2⟩ := addMConstr_isSome m1 (A := [⟨x.length, B⟩, ⟨N, rows.map LRow.s⟩, ⟨N, rows.map LRow.z⟩])
    (x := [x, List.range' m.n N, beta]) (sense := .le) (b := rows.map LRow.rhs) rfl (by simp)
    (by simp [hBl']) (by simp [hbl]) (by
      simp only [List.flatten_cons, List.flatten_nil, List.append_nil, List.mem_append]
      rintro i (hi | hi | hi)
      · have := hx i hi; omega
      · have := mem_range'_lt le_rfl i hi; omega
      · have := hbn i hi; omega)
  have s2 := step_addMConstr h2 s1.wf
  have e2 := s2.n
  have hfe : ∀ v, m2.Feas v ↔ m.Feas v ∧ c.Holds (y (x.map v)) ((List.range' m.n N).map v) (beta.map v) := by
    intro v
    rw [s2.feas, s1.feas, p6]
    simp only [and_true]
    refine and_congr Iff.rfl ?_
    have key : ∀ i (hi : i < rows.length), (Sense.le.Rel (dot (catRow [⟨x.length, B⟩, ⟨N, rows.map LRow.s⟩,
          ⟨N, rows.map LRow.z⟩] i) ([x, List.range' m.n N, beta].flatten.map v)) ((rows.map LRow.rhs).getD i 0) ↔
        rows[i].val (y (x.map v)) ((List.range' m.n N).map v) (beta.map v) ≤ rows[i].rhs) := by
      intro i hi
      rw [dot_catRow_cons ⟨x.length, B⟩ _ _ _ _ _ hBc rfl (by simpa [hBl'] using hi),
        dot_catRow_cons _ _ _ _ _ _ (by
          intro q hq
          obtain ⟨r, hr, rfl⟩ := List.mem_map.1 hq
          exact (p5 r hr).2.1) (by simp) (by simpa using hi),
        dot_catRow_cons _ _ _ _ _ _ (by
          intro q hq
          obtain ⟨r, hr, rfl⟩ := List.mem_map.1 hq
          exact (p5 r hr).2.2) hbl.symm (by simpa using hi), hB _ (by simp) i (by omega)]
      simp [Sense.Rel, LRow.val, List.getD, hi, add_assoc]
    constructor
    · intro h r hr
      obtain ⟨i, hi, rfl⟩ := List.getElem_of_mem hr
      exact (key i hi).1 (h i (by simpa using hi))
    · intro h i hi
      have hi' : i < rows.length := by simpa using hi
      exact (key i hi').2 (h _ (List.getElem_mem hi'))
  have hFeas : ∀ (u s : Vec K) (p : List (List Bool)), PatFits L.net.hidden p → s.length = N →
      (c.Holds u s (patVec p) ↔ c.Feas u s (patVec p)) := by
    intro u s p hp hs
    have hbin : IsBin (patVec p : Vec K) := by
      intro b hb
      obtain ⟨u, _, rfl⟩ := List.mem_map.1 hb
      cases u <;> simp
    have hpl : (patVec p : Vec K).length = N := by
      have f : c.Feas (zeros L.dim) (dirPost L.net.hidden p (zeros L.dim)).flatten (patVec p) ∨ True := .inr trivial
      clear f
      have : ∀ (hs : List (Lin K × Act K)) (pat : List (List Bool)), PatFits hs pat →
          (patVec pat : Vec K).length = numUnits hs := by
        intro hs pat h
        induction h with
        | nil => rfl
        | cons h1 h2 ih =>
          simp only [patVec, List.length_map, List.length_flatten] at ih ⊢
          simp [numUnits, h1, ih]
      exact this _ _ hp
    constructor
    · intro h
      refine ⟨by rw [n1, hs], by rw [n2, hpl], hbin, h, ?_⟩
      simp [MIC.BoundsHold, LoOk, UpOk, q1, q2, q3, q4, q5, q6]
    · exact fun h => h.rows
  refine ⟨m2, setSlice (zeros N) (lastOff L.net.hidden) w, by simp [Mip.addGradRows, hAo, outRow, p2, p3, p4, h1, h2], ?_, by omega, s2.wf, by omega,
    by rw [s2.obj, s1.obj], fun v hv => ?_, ?_⟩
  · have := hL.net.2.1 w (by rw [hW]; simp)
    have hne' : L.net.hidden ≠ [] := by
      intro h0
      rw [hN, h0] at hu
      simp [numUnits] at hu
    have e := lastOff_add hL.net.1 hne'
    rw [length_setSlice _ _ _ (by rw [length_zeros, this]; omega)]
    simp
  · obtain ⟨a1, a2⟩ := (hfe v).1 hv
    refine ⟨a1, fun p hp hbp => ?_⟩
    rw [hbp] at a2
    have hf := (hFeas _ _ p hp (by rw [List.length_map, List.length_range'])).1 a2
    obtain ⟨e1, -⟩ := (gradTimesVecBounds_feas hc hL.net hwz hp).1 hf
    have := gradTimesVecBounds_out (v := y (x.map v)) (z := patVec p) hc hL.net hp
    rw [← this, ← e1, MIC.out, n3, hW, hAo, hC, hAi, hAb]
    simp [mrow]
  · rintro v hv ⟨p, hp, hbp, hok⟩
    set s := (dirPost L.net.hidden p (y (x.map v))).flatten with hs
    have hfeas : c.Feas (y (x.map v)) s (patVec p) := (gradTimesVecBounds_feas hc hL.net hwz hp).2 ⟨rfl, hok⟩
    have hsl : s.length = N := by rw [hfeas.len_s, n1]
    have ea : ∀ i, i < m.n → upd v m.n s i = v i := fun i hi => upd_lt _ _ _ _ hi
    refine ⟨upd v m.n s, ea, (hfe _).2 ⟨(hw.feas_congr ea).2 hv, ?_⟩⟩
    have ex : x.map (upd v m.n s) = x.map v := map_upd_lt _ _ _ _ hx
    have eb : beta.map (upd v m.n s) = beta.map v := map_upd_lt _ _ _ _ hbn
    have es : (List.range' m.n N).map (upd v m.n s) = s := map_upd _ _ _ _ hsl
    rw [ex, eb, es, hbp]
    exact hfeas.rows

/-- Interval bounds are accepted by `output_gradient_times_vector`. -/
theorem gradTimesVec_ia (L : Lyap K) (hL : L.NetOk) {lo up : Vec K} (hlo : lo.length = L.dim)
    (hup : up.length = L.dim) (hle : ∀ i, i < L.dim → lo.getD i 0 ≤ up.getD i 0)
    (hs : ∀ q ∈ L.net.hidden, ∀ c, q.2 = .leaky c → 0 ≤ c) :
    ∃ c wz, gradTimesVec L.net L.dim lo up = some c ∧ gradTimesVecBounds L.net L.dim wz = some c ∧
      wz.length = L.net.hidden.length ∧ ∀ p v, PatFits L.net.hidden p → InBox lo up v →
        WzOk L.net.hidden wz (dirPre L.net.hidden p v) := by
  obtain ⟨bs, b1, b2, b3⟩ := wz_ia L.net.hidden L.dim lo up hL.net.1 hlo hup hle hs
  have hne : L.net.hidden ≠ [] := by
    intro e
    have := hL.units
    rw [e] at this
    simp [numUnits] at this
  have : ∃ c, gradTimesVecBounds L.net L.dim bs = some c := by
    obtain ⟨c, hc⟩ := b3 L.dim (numUnits L.net.hidden) true 0 0
    unfold gradTimesVecBounds
    simp only
    rw [hc]
    cases hh : L.net.hidden with
    | nil => exact absurd hh hne
    | cons q qs => exact ⟨_, rfl⟩
  obtain ⟨c, hc⟩ := this
  refine ⟨c, bs, by simp [gradTimesVec, hlo, hup, b1, hc], hc, b2, fun p v hp hv => ?_⟩
  exact (wzBoundsIA_sound L.net.hidden p L.dim lo up v bs hL.net.1 hp b1 hv (hv.1.trans hlo)).2

/-! ### Products with the signs -/

theorem signXdotLoop_step : ∀ (x : List ℕ) (lb ub : Vec K) (sl al : List ℕ) (m : Mip K), m.WF →
    lb.length = x.length → ub.length = x.length → sl.length = x.length →
    al.length = x.length → (∀ i, i < x.length → lb.getD i 0 ≤ ub.getD i 0) → (∀ i ∈ x, i < m.n) →
    (∀ i ∈ sl, i < m.n) → (∀ i ∈ al, i < m.n) →
    ∃ m' P, signXdotLoop x lb ub sl al m = some m' ∧ Step m m' 0 P ∧
      ∀ (v : ℕ → K) (τ : List Bool), al.map v = τ.map bit →
        (P v ↔ (∀ i, i < x.length → lb.getD i 0 ≤ (x.map v).getD i 0 ∧ (x.map v).getD i 0 ≤ ub.getD i 0) ∧
          sl.map v = List.zipWith (fun b t => bit b * t) τ (x.map v)) := by
  intro x
  induction x with
  | nil =>
    intro lb ub sl al m hw h1 h2 h3 h4 _ _ _ _
    obtain rfl : lb = [] := List.length_eq_zero_iff.1 h1
    obtain rfl : ub = [] := List.length_eq_zero_iff.1 h2
    obtain rfl : sl = [] := List.length_eq_zero_iff.1 h3
    obtain rfl : al = [] := List.length_eq_zero_iff.1 h4
    exact ⟨m, fun _ => True, rfl, ⟨hw, rfl, rfl, by simp⟩, fun v τ _ => by simp⟩
  | cons d x ih =>
    intro lb ub sl al m hw h1 h2 h3 h4 hlu hx hs ha
    obtain ⟨l, lb, rfl⟩ := List.exists_cons_of_length_eq_add_one h1
    obtain ⟨u, ub, rfl⟩ := List.exists_cons_of_length_eq_add_one h2
    obtain ⟨s, sl, rfl⟩ := List.exists_cons_of_length_eq_add_one h3
    obtain ⟨a, al, rfl⟩ := List.exists_cons_of_length_eq_add_one h4
    obtain ⟨p, hp⟩ := Option.isSome_iff_exists.1 ((C01_product_accepts l u).2
      (by simpa using hlu 0 (by simp)))
    obtain ⟨m1, e1, s1⟩ := dl1Row_step m hw hp [1] [d] s a rfl (by simpa using hx d (by simp))
      (hs s (by simp)) (ha a (by simp))
    have e1' : m.addMConstr [colT p.Ax, colT p.As, colT p.Aa] [[d], [s], [a]] .le p.rhs = some m1 := by
      rw [← e1]
      congr 2
      simp [colT, vsmul]
    have hn : m1.n = m.n := s1.n
    obtain ⟨m2, P, e2, s2, hP⟩ := ih lb ub sl al m1 s1.wf
      (by simpa using h1) (by simpa using h2) (by simpa using h3) (by simpa using h4)
      (fun i hi => by simpa using hlu (i + 1) (by simpa using hi))
      (fun i hi => by rw [hn]; exact hx i (by simp [hi]))
      (fun i hi => by rw [hn]; exact hs i (by simp [hi])) (fun i hi => by rw [hn]; exact ha i (by simp [hi]))
    refine ⟨m2, fun v => p.Holds (dot [1] ([d].map v)) (v s) (v a) ∧ P v, by simp [signXdotLoop, hp, e1', e2],
      ⟨s2.wf, by rw [s2.n, s1.n], by rw [s2.obj, s1.obj], fun v => by
        rw [s2.feas, s1.feas, and_assoc]⟩, fun v τ hτ => ?_⟩
    cases τ with
    | nil => simp at hτ
    | cons b τ =>
      simp only [List.map_cons, List.cons.injEq] at hτ
      simp only
      rw [hP v τ hτ.2, C01_product_exact l u _ _ _ p hp (by rw [hτ.1]; cases b <;> simp [bit]), hτ.1]
      have e : dot [1] ([d].map v) = v d := by simp
      rw [e]
      simp only [List.map_cons, List.zipWith_cons_cons, List.cons.injEq, List.length_cons]
      constructor
      · rintro ⟨⟨a1, a2⟩, b1, b2⟩
        refine ⟨fun i hi => ?_, a2, b2⟩
        cases i with
        | zero => simpa using a1
        | succ i => simpa using b1 i (by omega)
      · rintro ⟨a1, a2, b2⟩
        exact ⟨⟨by simpa using a1 0 (by omega), a2⟩, fun i hi => by simpa using a1 (i + 1) (by omega), b2⟩

theorem signGammaLoop_step (y : ℕ) : ∀ (g : Vec K) (lb ub : Vec K) (sl al : List ℕ) (m : Mip K), m.WF →
    lb.length = g.length → ub.length = g.length → sl.length = g.length →
    al.length = g.length → (∀ i, i < g.length → lb.getD i 0 ≤ ub.getD i 0) → y < m.n →
    (∀ i ∈ sl, i < m.n) → (∀ i ∈ al, i < m.n) →
    ∃ m' P, signGammaLoop y g lb ub sl al m = some m' ∧ Step m m' 0 P ∧
      ∀ (v : ℕ → K) (τ : List Bool), al.map v = τ.map bit →
        (P v ↔ (∀ i, i < g.length → lb.getD i 0 ≤ (vsmul (v y) g).getD i 0 ∧
            (vsmul (v y) g).getD i 0 ≤ ub.getD i 0) ∧
          sl.map v = List.zipWith (fun b t => bit b * t) τ (vsmul (v y) g)) := by
  intro g
  induction g with
  | nil =>
    intro lb ub sl al m hw h1 h2 h3 h4 _ _ _ _
    obtain rfl : lb = [] := List.length_eq_zero_iff.1 h1
    obtain rfl : ub = [] := List.length_eq_zero_iff.1 h2
    obtain rfl : sl = [] := List.length_eq_zero_iff.1 h3
    obtain rfl : al = [] := List.length_eq_zero_iff.1 h4
    exact ⟨m, fun _ => True, rfl, ⟨hw, rfl, rfl, by simp⟩, fun v τ _ => by simp [vsmul]⟩
  | cons d g ih =>
    intro lb ub sl al m hw h1 h2 h3 h4 hlu hx hs ha
    obtain ⟨l, lb, rfl⟩ := List.exists_cons_of_length_eq_add_one h1
    obtain ⟨u, ub, rfl⟩ := List.exists_cons_of_length_eq_add_one h2
    obtain ⟨s, sl, rfl⟩ := List.exists_cons_of_length_eq_add_one h3
    obtain ⟨a, al, rfl⟩ := List.exists_cons_of_length_eq_add_one h4
    obtain ⟨p, hp⟩ := Option.isSome_iff_exists.1 ((C01_product_accepts l u).2
      (by simpa using hlu 0 (by simp)))
    obtain ⟨m1, e1, s1⟩ := dl1Row_step m hw hp [d] [y] s a rfl (by simpa using hx)
      (hs s (by simp)) (ha a (by simp))
    have e1' : m.addMConstr [colT (p.Ax.map fun c => c * d), colT p.As, colT p.Aa] [[y], [s], [a]] .le p.rhs
        = some m1 := by
      rw [← e1]
      congr 2
      simp [colT, vsmul]
    have hn : m1.n = m.n := s1.n
    obtain ⟨m2, P, e2, s2, hP⟩ := ih lb ub sl al m1 s1.wf
      (by simpa using h1) (by simpa using h2) (by simpa using h3) (by simpa using h4)
      (fun i hi => by simpa using hlu (i + 1) (by simpa using hi)) (by omega)
      (fun i hi => by rw [hn]; exact hs i (by simp [hi])) (fun i hi => by rw [hn]; exact ha i (by simp [hi]))
    refine ⟨m2, fun v => p.Holds (dot [d] ([y].map v)) (v s) (v a) ∧ P v, by simp [signGammaLoop, hp, e1', e2],
      ⟨s2.wf, by rw [s2.n, s1.n], by rw [s2.obj, s1.obj], fun v => by
        rw [s2.feas, s1.feas, and_assoc]⟩, fun v τ hτ => ?_⟩
    cases τ with
    | nil => simp at hτ
    | cons b τ =>
      simp only [List.map_cons, List.cons.injEq] at hτ
      simp only
      rw [hP v τ hτ.2, C01_product_exact l u _ _ _ p hp (by rw [hτ.1]; cases b <;> simp [bit]), hτ.1]
      have e : dot [d] ([y].map v) = v y * d := by simp [mul_comm]
      have e' : vsmul (v y) (d :: g) = v y * d :: vsmul (v y) g := rfl
      rw [e, e']
      simp only [List.map_cons, List.zipWith_cons_cons, List.cons.injEq, List.length_cons]
      constructor
      · rintro ⟨⟨a1, a2⟩, b1, b2⟩
        refine ⟨fun i hi => ?_, a2, b2⟩
        cases i with
        | zero => simpa using a1
        | succ i => simpa using b1 i (by omega)
      · rintro ⟨a1, a2, b2⟩
        exact ⟨⟨by simpa using a1 0 (by omega), a2⟩, fun i hi => by simpa using a1 (i + 1) (by omega), b2⟩

/-- A loop of products, with the new variables in front of it: `Y v` is the vector the signs are multiplied
with. -/
theorem signBlock_enc (m : Mip K) (hw : m.WF) {n : ℕ} {al : List ℕ} {lb ub : Vec K} (Y : (ℕ → K) → Vec K)
    (hY : ∀ v, (Y v).length = n) (hYd : ∀ v w, (∀ i, i < m.n → v i = w i) → Y v = Y w)
    (hal : al.length = n) (ha : ∀ i ∈ al, i < m.n)
    (f : List ℕ → Mip K → Option (Mip K))
    (hf : ∀ m1 : Mip K, m1.WF → m1.n = m.n + n → ∃ m' P, f (List.range' m.n n) m1 = some m' ∧ Step m1 m' 0 P ∧
      ∀ (v : ℕ → K) (τ : List Bool), al.map v = τ.map bit →
        (P v ↔ (∀ i, i < n → lb.getD i 0 ≤ (Y v).getD i 0 ∧ (Y v).getD i 0 ≤ ub.getD i 0) ∧
          (List.range' m.n n).map v = List.zipWith (fun b t => bit b * t) τ (Y v))) :
    ∃ m1 m', m.addVars n (noBound n) (noBound n) .continuous = some (m1, List.range' m.n n) ∧
      f (List.range' m.n n) m1 = some m' ∧ m'.n = m.n + n ∧
      Enc m m' (fun v => (∃ τ : List Bool, τ.length = n ∧ al.map v = τ.map bit) ∧
          ∀ i, i < n → lb.getD i 0 ≤ (Y v).getD i 0 ∧ (Y v).getD i 0 ≤ ub.getD i 0) fun v =>
        ∀ τ : List Bool, al.map v = τ.map bit →
          (List.range' m.n n).map v = List.zipWith (fun b t => bit b * t) τ (Y v) := by
  obtain ⟨m1, h1, s1⟩ := free_addVars m hw n
  obtain ⟨m2, P, e2, s2, hP⟩ := hf m1 s1.wf s1.n
  have n1 := s1.n
  have n2 := s2.n
  refine ⟨m1, m2, h1, e2, by omega, s2.wf, by omega, by rw [s2.obj, s1.obj], fun v hv => ?_, ?_⟩
  · obtain ⟨a1, a2⟩ := (s2.feas v).1 hv
    exact ⟨((s1.feas v).1 a1).1, fun τ hτ => ((hP v τ hτ).1 a2).2⟩
  · rintro v hv ⟨⟨τ, hτl, hτ⟩, hbd⟩
    set s := List.zipWith (fun b t => bit b * t) τ (Y v) with hs
    have hsl : s.length = n := by simp [hs, hY, hτl]
    have ea : ∀ i, i < m.n → upd v m.n s i = v i := fun i hi => upd_lt _ _ _ _ hi
    have eb : al.map (upd v m.n s) = al.map v := map_upd_lt _ _ _ _ ha
    have es : (List.range' m.n n).map (upd v m.n s) = s := map_upd _ _ _ _ hsl
    have eY : Y (upd v m.n s) = Y v := hYd _ _ ea
    refine ⟨upd v m.n s, ea, (s2.feas _).2 ⟨(s1.feas _).2 ⟨(hw.feas_congr ea).2 hv, trivial⟩, ?_⟩⟩
    rw [hP _ τ (by rw [eb, hτ]), eY, es]
    exact ⟨hbd, rfl⟩

/-! ### Loops over the modes -/

theorem modeLoop_enc (f : ℕ → AMode K → Mip K → Option (Mip K × List ℕ × Vec K)) (n0 : ℕ)
    (D : (ℕ → K) → Prop) (hD : DepsBelow n0 D) (H : ℕ → Vec K → List ℕ → Prop)
    (G : ℕ → Vec K → Vec K → (ℕ → K) → Prop) : ∀ (mds : List (AMode K)) (k : ℕ) (m : Mip K), m.WF → n0 ≤ m.n →
    (∀ i (hi : i < mds.length) (m : Mip K), m.WF → n0 ≤ m.n →
      ∃ m' ids co, f (k + i) mds[i] m = some (m', ids, co) ∧ H (k + i) co ids ∧
        (∀ j ∈ ids, m.n ≤ j ∧ j < m'.n) ∧ ids.Nodup ∧ Enc m m' D fun v => G (k + i) co (ids.map v) v) →
    ∃ m' idss cos, modeLoop f k mds m = some (m', idss, cos) ∧ idss.length = mds.length ∧
      cos.length = mds.length ∧ (∀ i, i < mds.length → H (k + i) (cos.getD i []) (idss.getD i [])) ∧
      (∀ j ∈ idss.flatten, m.n ≤ j ∧ j < m'.n) ∧ idss.flatten.Nodup ∧
      Enc m m' D fun v => ∀ i, i < mds.length → G (k + i) (cos.getD i []) ((idss.getD i []).map v) v := by
  intro mds
  induction mds with
  | nil =>
    intro k m hw _ _
    exact ⟨m, [], [], rfl, rfl, rfl, by simp, by simp, by simp, hw, le_rfl, rfl, fun v hv => ⟨hv, by simp⟩,
      fun v hv _ => ⟨v, fun _ _ => rfl, hv⟩⟩
  | cons md mds ih =>
    intro k m hw h0 hf
    obtain ⟨m1, ids, co, e1, h1, b1, nd1, E1⟩ := hf 0 (by simp) m hw h0
    simp only [List.getElem_cons_zero, Nat.add_zero] at e1 h1 E1
    obtain ⟨m2, idss, cos, e2, l1, l2, h2, b2, nd2, E2⟩ := ih (k + 1) m1 E1.wf (h0.trans E1.n) (by
      intro i hi m' hw' h0'
      have := hf (i + 1) (by simpa using hi) m' hw' h0'
      simpa [add_assoc, add_comm 1 i] using this)
    refine ⟨m2, ids :: idss, co :: cos, by simp [modeLoop, e1, e2], by simp [l1], by simp [l2], ?_, ?_, ?_, ?_⟩
    · intro i hi
      cases i with
      | zero => simpa using h1
      | succ i =>
        have := h2 i (by simpa using hi)
        simpa [add_assoc, add_comm 1 i] using this
    · intro j hj
      rw [List.flatten_cons, List.mem_append] at hj
      have := E1.n
      have := E2.n
      rcases hj with hj | hj
      · have := b1 j hj; omega
      · have := b2 j hj; omega
    · rw [List.flatten_cons]
      refine List.Nodup.append nd1 nd2 fun j hj hj' => ?_
      have := b1 j hj
      have := b2 j hj'
      omega
    · refine (E1.trans E2 (fun v v' hv hd _ _ => hD v v' (fun i hi => (hv i (by omega)).symm) hd)).weaken
        (fun _ _ h => h) fun v _ hv i hi => ?_
      cases i with
      | zero => simpa using hv.1
      | succ i =>
        have := hv.2 i (by simpa using hi)
        simpa [add_assoc, add_comm 1 i] using this

end NNL.Model
