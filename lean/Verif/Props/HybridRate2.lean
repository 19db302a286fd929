import Verif.Props.HybridRate

/-!
# C74: the program without velocity variables
-/

set_option linter.unusedSectionVars false

namespace NNL.Props

open NNL NNL.Spec NNL.Model

variable {K : Type*} [Field K] [LinearOrder K] [IsStrictOrderedRing K]

/-! ### The program without velocity variables -/

theorem chunk_take : ∀ (l : List (Vec K)) (n : ℕ) (r : Vec K) (i : ℕ), (∀ a ∈ l, a.length = n) → i < l.length →
    ((l.flatten ++ r).drop (i * n)).take n = l.getD i []
  | [], _, _, i, _, h => by simp at h
  | a :: l, n, r, 0, ha, _ => by
    have : a.length = n := ha a (by simp)
    simp [← this]
  | a :: l, n, r, i + 1, ha, hi => by
    have e : a.length = n := ha a (by simp)
    have := chunk_take l n r i (fun b hb => ha b (by simp [hb])) (by simpa using hi)
    rw [List.flatten_cons, List.append_assoc, show (i + 1) * n = a.length + i * n by rw [e]; ring,
      ← List.drop_drop, List.drop_left, this]
    simp

theorem dot_flatten : ∀ (cs : List (Vec K)) (n : ℕ) (w : Vec K), (∀ a ∈ cs, a.length = n) →
    w.length = cs.length * n →
    dot cs.flatten w = ∑ i ∈ Finset.range cs.length, dot (cs.getD i []) ((w.drop (i * n)).take n)
  | [], _, _, _, _ => by simp
  | c :: cs, n, w, hc, hw => by
    have e : c.length = n := hc c (by simp)
    have hw' : w.length = cs.length * n + n := by rw [hw, List.length_cons]; ring
    have ih := dot_flatten cs n (w.drop n) (fun b hb => hc b (by simp [hb])) (by simp [hw'])
    rw [List.flatten_cons, List.length_cons, Finset.sum_range_succ']
    conv_lhs => rw [← List.take_append_drop n w]
    rw [dot_append _ _ _ _ (by simp [e]; omega), ih]
    simp only [List.getD_cons_succ, List.getD_cons_zero, Nat.zero_mul, List.drop_zero, List.drop_drop]
    rw [add_comm]
    congr 1
    refine Finset.sum_congr rfl fun i _ => ?_
    rw [show n + i * n = (i + 1) * n by ring]

theorem sum_zipWith_dot (v : ℕ → K) : ∀ (cs : List (Vec K)) (xs : List (List ℕ)), cs.length = xs.length →
    (List.zipWith (fun c x => dot c (x.map v)) cs xs).sum
      = ∑ i ∈ Finset.range cs.length, dot (cs.getD i []) ((xs.getD i []).map v)
  | [], [], _ => by simp
  | c :: cs, x :: xs, h => by
    have ih := sum_zipWith_dot v cs xs (by simpa using h)
    rw [List.zipWith_cons_cons, List.sum_cons, ih, List.length_cons, Finset.sum_range_succ']
    simp [add_comm]
  | [], _ :: _, h => by simp at h
  | _ :: _, [], h => by simp at h

theorem dir_linear {net : Net K} {n : ℕ} (hok : net.Ok n) {p : List (List Bool)} (hp : PatFits net.hidden p) :
    (∀ u w : Vec K, u.length = n → w.length = n →
      (net.dir p (vadd u w)).getD 0 0 = (net.dir p u).getD 0 0 + (net.dir p w).getD 0 0) ∧
    ∀ a (u : Vec K), u.length = n → (net.dir p (vsmul a u)).getD 0 0 = a * (net.dir p u).getD 0 0 := by
  have hl : p.length = net.hidden.length := hp.length_eq
  obtain ⟨q, hq⟩ := Option.isSome_iff_exists.1 ((C17_accepts net n p).2 (by rw [← hl, List.take_length]; exact hp))
  obtain ⟨c1, c2, c3⟩ := C17_jacobian hq hok
  refine ⟨fun u w hu hw => ?_, fun a u hu => ?_⟩
  · rw [← c3 _ (by simp [hu, hw]), ← c3 _ hu, ← c3 _ hw, getD_matVec, getD_matVec, getD_matVec,
      dot_vadd_right _ _ _ (by rw [hu, hw])]
  · rw [← c3 _ (by simp [hu]), ← c3 _ hu, getD_matVec, getD_matVec, dot_vsmul_right]

theorem ax_lens {lp : LpSolver K} (ht : lp.Truthful) {n : ℕ} {S : AutoHybrid K} (h : ABuilt lp n S) :
    (∀ l ∈ S.axLo, l.length = n) ∧ ∀ l ∈ S.axUp, l.length = n := by
  induction h with
  | new => simp
  | @add S S' md hb ha ih =>
    have e1 := (C44_auto_recorded ht hb).xdim
    unfold AutoHybrid.addMode at ha
    rw [e1] at ha
    split at ha
    · rename_i hok
      cases hb : boundsOf lp n md.P md.q (eye n) with
      | none => rw [hb] at ha; cases ha
      | some b =>
        cases hd : boundsOf lp n md.P md.q md.A with
        | none => rw [hb, hd] at ha; cases ha
        | some d =>
          rw [hb, hd] at ha
          obtain ⟨d1, d2, -⟩ := boundsOf_exact ht _ hd
          have hA : md.A.length = n := hok.rowsA
          simp only [Option.bind_eq_bind, Option.bind_some, Option.some.injEq] at ha
          subst ha
          simp only [List.mem_append, List.mem_singleton]
          refine ⟨?_, ?_⟩
          · rintro l (hl | rfl)
            · exact ih.1 l hl
            · omega
          · rintro l (hl | rfl)
            · exact ih.2 l hl
            · omega
    · cases ha

/-- The bounds of `A_i s_i` are finite and contain the values of the mode and zero. -/
theorem HybOk.ax {lp : LpSolver K} {L : Lyap K} {S : AutoHybrid K} (h : HybOk lp L S) {i : ℕ}
    (hi : i < S.modes.length) (hne : ∃ w : Vec K, w.length = L.dim ∧ InPoly S.modes[i].P S.modes[i].q w) :
    ∃ b, aisiBounds S i = some b ∧ b.1.length = L.dim ∧ b.2.length = L.dim ∧
      (∀ j, j < L.dim → b.1.getD j 0 ≤ b.2.getD j 0) ∧
      ∀ a (y : Vec K), y.length = L.dim → a = 0 ∨ (a = 1 ∧ InPoly S.modes[i].P S.modes[i].q y) →
        InBox b.1 b.2 (matVec S.modes[i].A (vsmul a y)) := by
  have R := C44_auto_recorded h.truthful h.built
  have hmem : S.modes[i] ∈ S.modes := List.getElem_mem hi
  have lA : S.modes[i].A.length = L.dim := (R.ok _ hmem).rowsA
  obtain ⟨w0, hw0, hP0⟩ := hne
  have l1 : (S.axLo.getD i []).length = L.dim ∧ (S.axUp.getD i []).length = L.dim := by
    obtain ⟨a1, a2⟩ := ax_lens h.truthful h.built
    have q1 : i < S.axLo.length := by rw [R.numLo]; exact hi
    have q2 : i < S.axUp.length := by rw [R.numUp]; exact hi
    constructor
    · rw [show S.axLo.getD i [] = S.axLo[i] by simp [List.getD, q1]]
      exact a1 _ (List.getElem_mem q1)
    · rw [show S.axUp.getD i [] = S.axUp[i] by simp [List.getD, q2]]
      exact a2 _ (List.getElem_mem q2)
  have nn : ∀ j, (polyValues L.dim S.modes[i].P S.modes[i].q (S.modes[i].A.getD j [])).Nonempty :=
    fun j => ⟨_, w0, hw0, hP0, rfl⟩
  obtain ⟨lo, h1⟩ := finVec_of_all ⊤ (l := S.axLo.getD i []) fun j hj =>
    exactInf_fin (R.infs i hi j (by rw [← l1.1]; exact hj)) (nn j) (h.bdd hmem _).1
  obtain ⟨up, h2⟩ := finVec_of_all ⊥ (l := S.axUp.getD i []) fun j hj =>
    exactSup_fin (R.sups i hi j (by rw [← l1.2]; exact hj)) (nn j) (h.bdd hmem _).2
  have e1 := congrArg List.length (finVec_some h1)
  have e2 := congrArg List.length (finVec_some h2)
  rw [List.length_map, l1.1] at e1
  rw [List.length_map, l1.2] at e2
  have g1 : S.axLo[i]? = some (S.axLo.getD i []) := by
    have : i < S.axLo.length := by rw [R.numLo]; exact hi
    simp [List.getD, this]
  have g2 : S.axUp[i]? = some (S.axUp.getD i []) := by
    have : i < S.axUp.length := by rw [R.numUp]; exact hi
    simp [List.getD, this]
  refine ⟨(lo.map fun a => min a 0, up.map fun a => max a 0), by
    rw [aisiBounds, g1, g2]
    simp only [Option.bind_eq_bind, Option.bind_some, h1, h2], by simp [e1],
    by simp [e2], fun j hj => ?_, fun a y hy ha => ⟨by simp [lA, e1], by simp [lA, e2], fun j hj => ?_⟩⟩
  · have q1 : j < lo.length := by omega
    have q2 : j < up.length := by omega
    simp only [List.getD, List.getElem?_map, List.getElem?_eq_getElem q1, List.getElem?_eq_getElem q2,
      Option.map_some, Option.getD_some]
    exact (min_le_right _ _).trans (le_max_right _ _)
  · have hj' : j < L.dim := by simpa [lA] using hj
    have q1 : j < lo.length := by omega
    have q2 : j < up.length := by omega
    have i1 := fin_getD h1 j (by omega) ⊤
    have i2 := fin_getD h2 j (by omega) ⊥
    have s1 : (lo.map fun a => min a 0).getD j 0 = min (lo.getD j 0) 0 := by simp [List.getD, q1]
    have s2 : (up.map fun a => max a 0).getD j 0 = max (up.getD j 0) 0 := by simp [List.getD, q2]
    rw [getD_matVec, dot_vsmul_right]
    simp only [s1, s2]
    rcases ha with rfl | ⟨rfl, hP⟩
    · rw [zero_mul]
      exact ⟨min_le_right _ _, le_max_right _ _⟩
    · rw [one_mul]
      have a1 := (R.infs i hi j hj').1.1 ⟨_, ⟨y, hy, hP, rfl⟩, rfl⟩
      have a2 := (R.sups i hi j hj').1.1 ⟨_, ⟨y, hy, hP, rfl⟩, rfl⟩
      rw [i1, fin_le_fin] at a1
      rw [i2, fin_le_fin] at a2
      exact ⟨(min_le_left _ _).trans a1, a2.trans (le_max_left _ _)⟩

/-- The variables shared by the blocks of the modes. -/
structure ModeVars (L : Lyap K) (S : AutoHybrid K) (n0 : ℕ) (s beta gamma al : List ℕ) : Prop where
  ls : s.length = S.modes.length * L.dim
  lb : beta.length = numUnits L.net.hidden
  lg : gamma.length = S.modes.length
  la : al.length = L.dim
  bs : ∀ i ∈ s, i < n0
  bb : ∀ i ∈ beta, i < n0
  bg : ∀ i ∈ gamma, i < n0
  ba : ∀ i ∈ al, i < n0

/-- Their values when the state `y` is in mode `k`. -/
structure ModeAt (L : Lyap K) (S : AutoHybrid K) (s beta gamma al : List ℕ) (v : ℕ → K) (k : ℕ) (y : Vec K)
    (pat : List (List Bool)) (σ : List Bool) : Prop where
  lt : k < S.modes.length
  ly : y.length = L.dim
  has : InPoly S.modes[k].P S.modes[k].q y
  s : s.map v = slackOf y [] (eyeRow S.modes.length k)
  gamma : gamma.map v = eyeRow S.modes.length k
  fits : PatFits L.net.hidden pat
  beta : beta.map v = patVec pat
  lσ : σ.length = L.dim
  al : al.map v = σ.map bit

theorem modeSlack_map {n M k i : ℕ} {s : List ℕ} {v : ℕ → K} {y : Vec K} (hy : y.length = n) (hi : i < M)
    (hs : s.map v = slackOf y [] (eyeRow M k)) :
    (modeSlack n s i).map v = vsmul ((eyeRow M k : Vec K).getD i 0) y := by
  have e : (modeSlack n s i).map v = ((s.map v).drop (i * n)).take n := by
    rw [modeSlack, List.map_take, List.map_drop]
  rw [e, hs, slackOf, chunk_take _ n _ i (by simp [hy]) (by simpa using hi)]
  have : i < (eyeRow M k : Vec K).length := by simpa using hi
  simp only [List.getD, List.getElem?_map, List.getElem?_eq_getElem this, Option.map_some, Option.getD_some]

theorem length_modeSlack {n M i : ℕ} {s : List ℕ} (hs : s.length = M * n) (hi : i < M) :
    (modeSlack n s i).length = n := by
  have : (i + 1) * n ≤ M * n := Nat.mul_le_mul_right n hi
  rw [modeSlack, List.length_take, List.length_drop, hs]
  have e : (i + 1) * n = i * n + n := by ring
  omega

theorem getD_eye01 {M k i : ℕ} (hk : k < M) : (eyeRow M k : Vec K).getD i 0 = if i = k then 1 else 0 :=
  getD_eyeRow M k i hk

theorem map_getD_id {l : List ℕ} (v : ℕ → K) {i : ℕ} (hi : i < l.length) : v (l.getD i 0) = (l.map v).getD i 0 := by
  simp [List.getD, hi]

section Blocks

variable {lp : LpSolver K} {L : Lyap K} {S : AutoHybrid K} {n0 : ℕ} {s beta gamma al : List ℕ}

theorem ModeAt.slack {v : ℕ → K} {k : ℕ} {y : Vec K} {pat : List (List Bool)} {σ : List Bool}
    (h : ModeAt L S s beta gamma al v k y pat σ) {i : ℕ} (hi : i < S.modes.length) :
    (modeSlack L.dim s i).map v = vsmul (if i = k then 1 else 0) y := by
  rw [modeSlack_map h.ly hi h.s, getD_eye01 h.lt]

theorem ModeAt.gam (hV : ModeVars L S n0 s beta gamma al) {v : ℕ → K} {k : ℕ} {y : Vec K} {pat : List (List Bool)}
    {σ : List Bool} (h : ModeAt L S s beta gamma al v k y pat σ) {i : ℕ} (hi : i < S.modes.length) :
    v (gamma.getD i 0) = if i = k then 1 else 0 := by
  rw [map_getD_id v (by rw [hV.lg]; exact hi), h.gamma, getD_eye01 h.lt]

theorem modeAt_deps (hV : ModeVars L S n0 s beta gamma al) :
    DepsBelow n0 fun v : ℕ → K => ∃ k y pat σ, ModeAt L S s beta gamma al v k y pat σ := by
  rintro v w hvw ⟨k, y, pat, σ, h⟩
  have e : ∀ l : List ℕ, (∀ i ∈ l, i < n0) → l.map w = l.map v := fun l hl =>
    List.map_congr_left fun j hj => (hvw j (hl j hj)).symm
  exact ⟨k, y, pat, σ, h.lt, h.ly, h.has, by rw [e _ hV.bs, h.s], by rw [e _ hV.bg, h.gamma], h.fits,
    by rw [e _ hV.bb, h.beta], h.lσ, by rw [e _ hV.ba, h.al]⟩

theorem gradAisi_block (hL : L.NetOk) (hS : HybOk lp L S)
    (hslope : ∀ q ∈ L.net.hidden, ∀ c, q.2 = .leaky c → 0 ≤ c)
    (hne : ∀ md ∈ S.modes, ∃ w : Vec K, w.length = L.dim ∧ InPoly md.P md.q w)
    (hV : ModeVars L S n0 s beta gamma al) (i : ℕ) (hi : i < S.modes.length) (m : Mip K) (hw : m.WF) (hn : n0 ≤ m.n) :
    ∃ m' ids co, L.gradAisi S s beta i S.modes[i] m = some (m', ids, co) ∧ co.length = ids.length ∧
      (∀ j ∈ ids, m.n ≤ j ∧ j < m'.n) ∧ ids.Nodup ∧
      Enc m m' (fun v => ∃ k y pat σ, ModeAt L S s beta gamma al v k y pat σ) fun v =>
        ∀ p, PatFits L.net.hidden p → beta.map v = patVec p →
          dot co (ids.map v) = (L.net.dir p (matVec S.modes[i].A ((modeSlack L.dim s i).map v))).getD 0 0 := by
  have R := C44_auto_recorded hS.truthful hS.built
  have hmem : S.modes[i] ∈ S.modes := List.getElem_mem hi
  have lA : S.modes[i].A.length = L.dim := (R.ok _ hmem).rowsA
  have cA : HasCols S.modes[i].A L.dim := (R.ok _ hmem).colsA
  obtain ⟨b, hb, b1, b2, b3, b4⟩ := hS.ax hi (hne _ hmem)
  obtain ⟨c, wz, hcg, hc, hwzl, hwz⟩ := gradTimesVec_ia L hL b1 b2 b3 hslope
  obtain ⟨rows, p1, -, -, -, p5, -⟩ := gradParts hc hL.net
  have lm := length_modeSlack hV.ls hi
  obtain ⟨m', ga, h1, l1, n1, E1⟩ := gradRows_enc L hL hc hwzl p1 (modeSlack L.dim s i)
    ((rows.map LRow.x).map fun r => vecMat L.dim r S.modes[i].A) (matVec S.modes[i].A) (by simp)
    (by
      intro r hr
      obtain ⟨q, -, rfl⟩ := List.mem_map.1 hr
      rw [length_vecMat _ _ _ cA, lm])
    (by
      intro w _ j hj
      have hj' : j < rows.length := by simpa using hj
      simp only [List.getD, List.getElem?_map, List.getElem?_eq_getElem hj', Option.map_some, Option.getD_some]
      rw [dot_vecMat _ _ _ _ cA]) m hw beta
    (fun j hj => lt_of_lt_of_le (hV.bs j (List.mem_of_mem_drop (List.mem_of_mem_take hj))) hn) hV.lb
    (fun j hj => lt_of_lt_of_le (hV.bb j hj) hn)
  rw [lm] at h1
  refine ⟨m', List.range' m.n (numUnits L.net.hidden), ga, ?_, by simp [l1], ?_, List.nodup_range', E1.weaken ?_ fun _ _ h => h⟩
  · simp only [Lyap.gradAisi, hb, Option.bind_eq_bind, Option.bind_some, hcg, p1, mulRight]
    exact h1
  · intro j hj
    rw [List.mem_range'_1] at hj
    omega
  · rintro v - ⟨k, y, pat, σ, h⟩
    refine ⟨pat, h.fits, h.beta, hwz _ _ h.fits ?_⟩
    rw [h.slack hi]
    refine b4 _ y h.ly ?_
    split_ifs with hk
    · subst hk
      exact .inr ⟨rfl, h.has⟩
    · exact .inl rfl

theorem gigamma_bounds (md : AMode K) (a : K) (ha : a = 0 ∨ a = 1) :
    InBox (gigammaiBounds md).1 (gigammaiBounds md).2 (vsmul a md.g) := by
  refine ⟨by simp [gigammaiBounds], by simp [gigammaiBounds], fun j hj => ?_⟩
  have hj' : j < md.g.length := by simpa using hj
  simp only [gigammaiBounds, vsmul, List.getD, List.getElem?_map, List.getElem?_eq_getElem hj', Option.map_some,
    Option.getD_some]
  rcases ha with rfl | rfl
  · rw [zero_mul]
    exact ⟨min_le_left _ _, le_max_left _ _⟩
  · rw [one_mul]
    exact ⟨min_le_right _ _, le_max_right _ _⟩

theorem gigamma_le (md : AMode K) (j : ℕ) : (gigammaiBounds md).1.getD j 0 ≤ (gigammaiBounds md).2.getD j 0 := by
  rcases Nat.lt_or_ge j md.g.length with hj | hj
  · have := (gigamma_bounds md 0 (.inl rfl)).2.2 j (by simpa using hj)
    exact this.1.trans this.2
  · simp [gigammaiBounds, List.getD, List.getElem?_eq_none hj]

theorem gradGigammai_block (hL : L.NetOk) (hS : HybOk lp L S)
    (hslope : ∀ q ∈ L.net.hidden, ∀ c, q.2 = .leaky c → 0 ≤ c)
    (hV : ModeVars L S n0 s beta gamma al) (i : ℕ) (hi : i < S.modes.length) (m : Mip K) (hw : m.WF) (hn : n0 ≤ m.n) :
    ∃ m' ids co, L.gradGigammai gamma beta i S.modes[i] m = some (m', ids, co) ∧ co.length = ids.length ∧
      (∀ j ∈ ids, m.n ≤ j ∧ j < m'.n) ∧ ids.Nodup ∧
      Enc m m' (fun v => ∃ k y pat σ, ModeAt L S s beta gamma al v k y pat σ) fun v =>
        ∀ p, PatFits L.net.hidden p → beta.map v = patVec p →
          dot co (ids.map v) = (L.net.dir p (vsmul (v (gamma.getD i 0)) S.modes[i].g)).getD 0 0 := by
  have R := C44_auto_recorded hS.truthful hS.built
  have hmem : S.modes[i] ∈ S.modes := List.getElem_mem hi
  have lg : S.modes[i].g.length = L.dim := (R.ok _ hmem).c
  obtain ⟨c, wz, hcg, hc, hwzl, hwz⟩ := gradTimesVec_ia L hL (lo := (gigammaiBounds S.modes[i]).1)
    (up := (gigammaiBounds S.modes[i]).2) (by simp [gigammaiBounds, lg]) (by simp [gigammaiBounds, lg])
    (fun j _ => gigamma_le _ j) hslope
  obtain ⟨rows, p1, -, -, -, p5, -⟩ := gradParts hc hL.net
  have hgi : gamma.getD i 0 < m.n := by
    have : i < gamma.length := by rw [hV.lg]; exact hi
    have e : gamma.getD i 0 = gamma[i] := by simp [List.getD, this]
    rw [e]
    exact lt_of_lt_of_le (hV.bg _ (List.getElem_mem this)) hn
  obtain ⟨m', ga, h1, l1, n1, E1⟩ := gradRows_enc L hL hc hwzl p1 [gamma.getD i 0]
    (colT (matVec (rows.map LRow.x) S.modes[i].g)).rows (fun w => vsmul (w.getD 0 0) S.modes[i].g) (by simp [colT])
    (by
      intro r hr
      simp only [colT, List.mem_map] at hr
      obtain ⟨q, -, rfl⟩ := hr
      rfl)
    (by
      intro w hw j hj
      have hj' : j < rows.length := by simpa [colT] using hj
      obtain ⟨a, rfl⟩ : ∃ a, w = [a] := List.length_eq_one_iff.1 hw
      simp only [colT, matVec, List.getD, List.getElem?_map, List.getElem?_eq_getElem hj', Option.map_some,
        Option.getD_some]
      simp [dot_vsmul_right, mul_comm]) m hw beta (by simpa using hgi) hV.lb
    (fun j hj => lt_of_lt_of_le (hV.bb j hj) hn)
  refine ⟨m', List.range' m.n (numUnits L.net.hidden), ga, ?_, by simp [l1], ?_, List.nodup_range', E1.weaken ?_ fun v _ h => by simpa using h⟩
  · simp only [Lyap.gradGigammai, Option.bind_eq_bind, Option.bind_some, hcg, p1]
    exact h1
  · intro j hj
    rw [List.mem_range'_1] at hj
    omega
  · rintro v - ⟨k, y, pat, σ, h⟩
    refine ⟨pat, h.fits, h.beta, hwz _ _ h.fits ?_⟩
    simp only [List.map_cons, List.map_nil, List.getD_cons_zero]
    rw [h.gam hV hi]
    refine gigamma_bounds _ _ ?_
    split_ifs <;> simp

theorem signAisi_block (hS : HybOk lp L S)
    (hne : ∀ md ∈ S.modes, ∃ w : Vec K, w.length = L.dim ∧ InPoly md.P md.q w)
    (hV : ModeVars L S n0 s beta gamma al) (i : ℕ) (hi : i < S.modes.length) (m : Mip K) (hw : m.WF) (hn : n0 ≤ m.n) :
    ∃ m' ids co, L.signAisi S s al i S.modes[i] m = some (m', ids, co) ∧
      (ids.length = L.dim ∧ co = vneg (colSums L.dim S.modes[i].A)) ∧
      (∀ j ∈ ids, m.n ≤ j ∧ j < m'.n) ∧ ids.Nodup ∧
      Enc m m' (fun v => ∃ k y pat σ, ModeAt L S s beta gamma al v k y pat σ) fun v =>
        ∀ τ : List Bool, al.map v = τ.map bit →
          ids.map v = List.zipWith (fun b t => bit b * t) τ (matVec S.modes[i].A ((modeSlack L.dim s i).map v)) := by
  have R := C44_auto_recorded hS.truthful hS.built
  have hmem : S.modes[i] ∈ S.modes := List.getElem_mem hi
  have lA : S.modes[i].A.length = L.dim := (R.ok _ hmem).rowsA
  have cA : HasCols S.modes[i].A L.dim := (R.ok _ hmem).colsA
  obtain ⟨b, hb, b1, b2, b3, b4⟩ := hS.ax hi (hne _ hmem)
  have lm := length_modeSlack hV.ls hi
  have bm : ∀ j ∈ modeSlack L.dim s i, j < m.n := fun j hj =>
    lt_of_lt_of_le (hV.bs j (List.mem_of_mem_drop (List.mem_of_mem_take hj))) hn
  obtain ⟨m1, m', h1, h2, n1, E1⟩ := signBlock_enc m hw (n := L.dim) (al := al) (lb := b.1) (ub := b.2)
    (fun v => matVec S.modes[i].A ((modeSlack L.dim s i).map v)) (by simp [lA])
    (fun v w hvw => by rw [List.map_congr_left fun j hj => hvw j (bm j hj)]) hV.la
    (fun j hj => lt_of_lt_of_le (hV.ba j hj) hn)
    (fun sl m => dl1Loop L.dim (modeSlack L.dim s i) S.modes[i].A b.1 b.2 sl al m)
    (fun m1 hw1 hn1 => by
      have := dl1Loop_step (modeSlack L.dim s i) S.modes[i].A b.1 b.2 (List.range' m.n L.dim) al m1 hw1
        (by rw [lm]; exact cA) (by omega) (by omega) (by simp [lA]) (by rw [hV.la, lA]) (by rw [lA]; exact b3)
        (fun j hj => by have := bm j hj; omega) (fun j hj => by have := mem_range'_lt le_rfl j hj; omega)
        (fun j hj => by have := hV.ba j hj; omega)
      rw [lm, lA] at this
      exact this)
  refine ⟨m', _, _, ?_, ⟨?_, rfl⟩, ?_, ?_, E1.weaken ?_ fun _ _ h => h⟩
  · simp only [Lyap.signAisi, hb, Option.bind_eq_bind, Option.bind_some, h1, h2]
  · simp
  · intro j hj
    rw [List.mem_range'_1] at hj
    omega
  · exact List.nodup_range'
  · rintro v - ⟨k, y, pat, σ, h⟩
    refine ⟨⟨σ, h.lσ, h.al⟩, fun j hj => ?_⟩
    rw [h.slack hi]
    refine (b4 _ y h.ly ?_).2.2 j (by simp [lA, hj])
    split_ifs with hk
    · subst hk
      exact .inr ⟨rfl, h.has⟩
    · exact .inl rfl

theorem signGigammai_block (hS : HybOk lp L S)
    (hV : ModeVars L S n0 s beta gamma al) (i : ℕ) (hi : i < S.modes.length) (m : Mip K) (hw : m.WF) (hn : n0 ≤ m.n) :
    ∃ m' ids co, L.signGigammai gamma al i S.modes[i] m = some (m', ids, co) ∧
      (ids.length = L.dim ∧ co = [-S.modes[i].g.sum]) ∧
      (∀ j ∈ ids, m.n ≤ j ∧ j < m'.n) ∧ ids.Nodup ∧
      Enc m m' (fun v => ∃ k y pat σ, ModeAt L S s beta gamma al v k y pat σ) fun v =>
        ∀ τ : List Bool, al.map v = τ.map bit →
          ids.map v = List.zipWith (fun b t => bit b * t) τ (vsmul (v (gamma.getD i 0)) S.modes[i].g) := by
  have R := C44_auto_recorded hS.truthful hS.built
  have hmem : S.modes[i] ∈ S.modes := List.getElem_mem hi
  have lg : S.modes[i].g.length = L.dim := (R.ok _ hmem).c
  have hgi : gamma.getD i 0 < m.n := by
    have : i < gamma.length := by rw [hV.lg]; exact hi
    have e : gamma.getD i 0 = gamma[i] := by simp [List.getD, this]
    rw [e]
    exact lt_of_lt_of_le (hV.bg _ (List.getElem_mem this)) hn
  obtain ⟨m1, m', h1, h2, n1, E1⟩ := signBlock_enc m hw (n := L.dim) (al := al) (lb := (gigammaiBounds S.modes[i]).1)
    (ub := (gigammaiBounds S.modes[i]).2)
    (fun v => vsmul (v (gamma.getD i 0)) S.modes[i].g) (by simp [lg])
    (fun v w hvw => by rw [hvw _ hgi]) hV.la
    (fun j hj => lt_of_lt_of_le (hV.ba j hj) hn)
    (fun sl m => signGammaLoop (gamma.getD i 0) S.modes[i].g (gigammaiBounds S.modes[i]).1
      (gigammaiBounds S.modes[i]).2 sl al m)
    (fun m1 hw1 hn1 => by
      have := signGammaLoop_step (gamma.getD i 0) S.modes[i].g (gigammaiBounds S.modes[i]).1
        (gigammaiBounds S.modes[i]).2 (List.range' m.n L.dim) al m1 hw1
        (by simp [gigammaiBounds]) (by simp [gigammaiBounds]) (by simp [lg]) (by rw [hV.la, lg])
        (fun j _ => gigamma_le _ j) (by omega) (fun j hj => by have := mem_range'_lt le_rfl j hj; omega)
        (fun j hj => by have := hV.ba j hj; omega)
      rw [lg] at this
      exact this)
  refine ⟨m', _, _, ?_, ⟨?_, rfl⟩, ?_, ?_, E1.weaken ?_ fun _ _ h => h⟩
  · simp only [Lyap.signGigammai, Option.bind_eq_bind, Option.bind_some, h1, h2]
  · simp
  · intro j hj
    rw [List.mem_range'_1] at hj
    omega
  · exact List.nodup_range'
  · rintro v - ⟨k, y, pat, σ, h⟩
    refine ⟨⟨σ, h.lσ, h.al⟩, fun j hj => ?_⟩
    rw [h.gam hV hi]
    refine (gigamma_bounds _ _ ?_).2.2 j (by simp [lg, hj])
    split_ifs <;> simp

end Blocks

theorem objExpr_append (c1 c2 : List (Vec K)) (x1 x2 : List (List ℕ)) (h : c1.length = x1.length) (v : ℕ → K) :
    objExpr (c1 ++ c2) (x1 ++ x2) v = objExpr c1 x1 v + objExpr c2 x2 v := by
  rw [objExpr, objExpr, objExpr, List.zipWith_append h, List.sum_append]

theorem sum_pick (M k : ℕ) (hk : k < M) (f : ℕ → K) (c : K) (h : ∀ i, i < M → f i = (if i = k then 1 else 0) * c) :
    ∑ i ∈ Finset.range M, f i = c := by
  rw [Finset.sum_eq_single k, h k hk]
  · simp
  · intro i hi hik
    rw [h i (Finset.mem_range.1 hi), if_neg hik, zero_mul]
  · intro hn
    exact absurd (Finset.mem_range.2 hk) hn

theorem zipWith_bit_vsmul (a : K) : ∀ (τ : List Bool) (u : Vec K),
    (List.zipWith (fun b t => bit b * t) τ (vsmul a u)).sum = a * (List.zipWith (fun b t => bit b * t) τ u).sum
  | [], u => by simp
  | _ :: _, [] => by simp [vsmul]
  | b :: τ, c :: u => by
    have := zipWith_bit_vsmul a τ u
    simp only [vsmul, List.map_cons, List.zipWith_cons_cons, List.sum_cons] at this ⊢
    rw [this]
    ring

theorem matVec_smul (A : Mat K) (a : K) (y : Vec K) : matVec A (vsmul a y) = vsmul a (matVec A y) := by
  simp [matVec, vsmul, ← dot_vsmul_right]

theorem getD_fun_map {α β : Type*} (f : α → β) (l : List α) (i : ℕ) (hi : i < l.length) (d : α) (e : β) :
    (l.map f).getD i e = f (l.getD i d) := by
  simp [List.getD, hi]

theorem blocks_value {L : Lyap K} {S : AutoHybrid K} {lp : LpSolver K} {n0 : ℕ} {s beta gamma al : List ℕ}
    (hL : L.NetOk) (hS : HybOk lp L S) (hV : ModeVars L S n0 s beta gamma al) (lam : K) {v : ℕ → K}
    {i1 i2 i3 i4 : List (List ℕ)} {c1 c2 c3 c4 : List (Vec K)}
    (l1 : i1.length = S.modes.length) (l2 : i2.length = S.modes.length) (l3 : i3.length = S.modes.length)
    (l4 : i4.length = S.modes.length)
    (k1 : c1.length = S.modes.length) (k2 : c2.length = S.modes.length) (k3 : c3.length = S.modes.length)
    (k4 : c4.length = S.modes.length)
    (h3 : ∀ i, (hi : i < S.modes.length) → (i3.getD i []).length = L.dim ∧
      c3.getD i [] = vneg (colSums L.dim S.modes[i].A))
    (h4 : ∀ i, (hi : i < S.modes.length) → (i4.getD i []).length = L.dim ∧ c4.getD i [] = [-S.modes[i].g.sum])
    (g1 : ∀ i, (hi : i < S.modes.length) → ∀ p, PatFits L.net.hidden p → beta.map v = patVec p →
      dot (c1.getD i []) ((i1.getD i []).map v)
        = (L.net.dir p (matVec S.modes[i].A ((modeSlack L.dim s i).map v))).getD 0 0)
    (g2 : ∀ i, (hi : i < S.modes.length) → ∀ p, PatFits L.net.hidden p → beta.map v = patVec p →
      dot (c2.getD i []) ((i2.getD i []).map v) = (L.net.dir p (vsmul (v (gamma.getD i 0)) S.modes[i].g)).getD 0 0)
    (g3 : ∀ i, (hi : i < S.modes.length) → ∀ τ : List Bool, al.map v = τ.map bit →
      (i3.getD i []).map v
        = List.zipWith (fun b t => bit b * t) τ (matVec S.modes[i].A ((modeSlack L.dim s i).map v)))
    (g4 : ∀ i, (hi : i < S.modes.length) → ∀ τ : List Bool, al.map v = τ.map bit →
      (i4.getD i []).map v = List.zipWith (fun b t => bit b * t) τ (vsmul (v (gamma.getD i 0)) S.modes[i].g))
    {k : ℕ} {y : Vec K} {p : List (List Bool)} {τ : List Bool} (h : ModeAt L S s beta gamma al v k y p τ) :
    objExpr (c1 ++ c2 ++ i3.map (fun _ => vsmul lam (fullVec L.dim 2)) ++ i4.map (fun _ => vsmul lam (fullVec L.dim 2)) ++
        [(c3.map (vsmul lam)).flatten, (c4.map (vsmul lam)).flatten]) (i1 ++ i2 ++ i3 ++ i4 ++ [s, gamma]) v
      = pieceRate L.net (eye L.dim) lam p τ (vadd (matVec (S.modes[k]'h.lt).A y) (S.modes[k]'h.lt).g) := by
  have R := C44_auto_recorded hS.truthful hS.built
  have ok : ∀ i, (hi : i < S.modes.length) → S.modes[i].A.length = L.dim ∧ HasCols S.modes[i].A L.dim ∧
      S.modes[i].g.length = L.dim := fun i hi =>
    ⟨(R.ok _ (List.getElem_mem hi)).rowsA, (R.ok _ (List.getElem_mem hi)).colsA, (R.ok _ (List.getElem_mem hi)).c⟩
  obtain ⟨d1, d2⟩ := dir_linear hL.net h.fits
  obtain ⟨okA, okC, okg⟩ := ok k h.lt
  have hyl := h.ly
  rw [objExpr_append _ _ _ _ (by simp [*]), objExpr_append _ _ _ _ (by simp [*]), objExpr_append _ _ _ _ (by simp [*]),
    objExpr_append _ _ _ _ (by simp [*])]
  have e1 : objExpr c1 i1 v = (L.net.dir p (matVec (S.modes[k]'h.lt).A y)).getD 0 0 := by
    rw [objExpr, sum_zipWith_dot v _ _ (by omega), k1]
    refine sum_pick _ k h.lt _ _ fun i hi => ?_
    rw [g1 i hi p h.fits h.beta, h.slack hi, matVec_smul, d2 _ _ (by simp [(ok i hi).1])]
    split_ifs with hik
    · subst hik; rfl
    · simp
  have e2 : objExpr c2 i2 v = (L.net.dir p (S.modes[k]'h.lt).g).getD 0 0 := by
    rw [objExpr, sum_zipWith_dot v _ _ (by omega), k2]
    refine sum_pick _ k h.lt _ _ fun i hi => ?_
    rw [g2 i hi p h.fits h.beta, h.gam hV hi, d2 _ _ (ok i hi).2.2]
    split_ifs with hik
    · subst hik; rfl
    · simp
  have two : ∀ w : Vec K, w.length = L.dim → dot (vsmul lam (fullVec L.dim 2)) w = lam * (2 * w.sum) := by
    intro w hw
    rw [dot_vsmul_left, fullVec, ← hw, dot_replicate]
  have e3 : objExpr (i3.map fun _ => vsmul lam (fullVec L.dim 2)) i3 v
      = lam * (2 * (List.zipWith (fun b t => bit b * t) τ (matVec (S.modes[k]'h.lt).A y)).sum) := by
    rw [objExpr, sum_zipWith_dot v _ _ (by simp), List.length_map, l3]
    refine sum_pick _ k h.lt _ _ fun i hi => ?_
    rw [getD_fun_map (fun _ => vsmul lam (fullVec L.dim 2)) i3 i (by omega) [] [], two _ (by simpa using (h3 i hi).1), g3 i hi τ h.al,
      h.slack hi, matVec_smul, zipWith_bit_vsmul]
    split_ifs with hik
    · subst hik; ring
    · ring
  have e4 : objExpr (i4.map fun _ => vsmul lam (fullVec L.dim 2)) i4 v
      = lam * (2 * (List.zipWith (fun b t => bit b * t) τ (S.modes[k]'h.lt).g).sum) := by
    rw [objExpr, sum_zipWith_dot v _ _ (by simp), List.length_map, l4]
    refine sum_pick _ k h.lt _ _ fun i hi => ?_
    rw [getD_fun_map (fun _ => vsmul lam (fullVec L.dim 2)) i4 i (by omega) [] [], two _ (by simpa using (h4 i hi).1), g4 i hi τ h.al,
      h.gam hV hi, zipWith_bit_vsmul]
    split_ifs with hik
    · subst hik; ring
    · ring
  have len3 : ∀ a ∈ c3.map (vsmul lam), a.length = L.dim := by
    intro a ha
    obtain ⟨b, hb, rfl⟩ := List.mem_map.1 ha
    obtain ⟨i, hi, rfl⟩ := List.getElem_of_mem hb
    have := (h3 i (by omega)).2
    rw [show c3.getD i [] = c3[i] by simp [List.getD, hi]] at this
    rw [this]
    simp [colSums, vneg]
  have len4 : ∀ a ∈ c4.map (vsmul lam), a.length = 1 := by
    intro a ha
    obtain ⟨b, hb, rfl⟩ := List.mem_map.1 ha
    obtain ⟨i, hi, rfl⟩ := List.getElem_of_mem hb
    have := (h4 i (by omega)).2
    rw [show c4.getD i [] = c4[i] by simp [List.getD, hi]] at this
    rw [this]
    simp
  have e5 : dot (c3.map (vsmul lam)).flatten (s.map v) = -(lam * (matVec (S.modes[k]'h.lt).A y).sum) := by
    rw [dot_flatten _ L.dim _ len3 (by simp [hV.ls, k3]), List.length_map, k3]
    refine sum_pick _ k h.lt _ _ fun i hi => ?_
    rw [getD_fun_map (vsmul lam) c3 i (by omega) [] [], (h3 i hi).2, dot_vsmul_left, dot_vneg_left, ← List.map_drop, ← List.map_take,
      ← modeSlack, h.slack hi, dot_vsmul_right, ← sum_matVec _ _ (ok i hi).2.1 _ h.ly]
    split_ifs with hik
    · subst hik; ring
    · ring
  have e6 : dot (c4.map (vsmul lam)).flatten (gamma.map v) = -(lam * (S.modes[k]'h.lt).g.sum) := by
    rw [dot_flatten _ 1 _ len4 (by simp [hV.lg, k4]), List.length_map, k4]
    refine sum_pick _ k h.lt _ _ fun i hi => ?_
    have hi' : i < gamma.length := by rw [hV.lg]; exact hi
    have q : ((gamma.map v).drop (i * 1)).take 1 = [v (gamma.getD i 0)] := by
      have e : gamma.getD i 0 = gamma[i] := by simp [List.getD, hi']
      rw [Nat.mul_one, e, List.drop_eq_getElem_cons (by simpa using hi'), List.take_succ_cons, List.take_zero,
        List.getElem_map]
    rw [getD_fun_map (vsmul lam) c4 i (by omega) [] [], (h4 i hi).2, q, h.gam hV hi]
    split_ifs with hik
    · subst hik; simp [vsmul]
    · simp [vsmul]
  rw [e1, e2, e3, e4]
  have e56 : objExpr [(c3.map (vsmul lam)).flatten, (c4.map (vsmul lam)).flatten] [s, gamma] v
      = -(lam * (matVec (S.modes[k]'h.lt).A y).sum) + -(lam * (S.modes[k]'h.lt).g.sum) := by
    rw [objExpr, List.zipWith_cons_cons, List.zipWith_cons_cons, List.zipWith_nil_left, List.sum_cons, List.sum_cons,
      List.sum_nil, e5, e6, add_zero]
  have ls1 : (matVec (S.modes[k]'h.lt).A y).length = L.dim := by simp [okA]
  have one : ∀ u w : Vec K, u.length = w.length → signSum τ (vadd u w) = signSum τ u + signSum τ w := by
    intro u w huw
    have := signSum_ray τ u w 1 huw
    rwa [one_mul, show vsmul (1 : K) w = w from (List.map_congr_left fun a _ => one_mul a).trans (List.map_id' w)] at this
  rw [e56, pieceRate, matVec_eye _ _ (by simp [okA, okg]), d1 _ _ ls1 okg, one _ _ (by rw [ls1, okg]),
    ← signSum_bits τ _ (by rw [h.lσ, ls1]), ← signSum_bits τ _ (by rw [h.lσ, okg])]
  ring

/-- The four families of blocks together. -/
theorem blocks_enc {lp : LpSolver K} {L : Lyap K} {S : AutoHybrid K} {n0 : ℕ} {s beta gamma al : List ℕ}
    (hL : L.NetOk) (hS : HybOk lp L S)
    (hslope : ∀ q ∈ L.net.hidden, ∀ c, q.2 = .leaky c → 0 ≤ c)
    (hne : ∀ md ∈ S.modes, ∃ w : Vec K, w.length = L.dim ∧ InPoly md.P md.q w)
    (hV : ModeVars L S n0 s beta gamma al) (lam : K) (m : Mip K) (hw : m.WF) (hn : n0 ≤ m.n) :
    ∃ z1 z2 z3 z4, modeLoop (L.gradAisi S s beta) 0 S.modes m = some z1 ∧
      modeLoop (L.gradGigammai gamma beta) 0 S.modes z1.1 = some z2 ∧
      modeLoop (L.signAisi S s al) 0 S.modes z2.1 = some z3 ∧
      modeLoop (L.signGigammai gamma al) 0 S.modes z3.1 = some z4 ∧
      ((z1.2.2 ++ z2.2.2 ++ z3.2.1.map (fun _ => vsmul lam (fullVec L.dim 2)) ++
        z4.2.1.map (fun _ => vsmul lam (fullVec L.dim 2)) ++
        [(z3.2.2.map (vsmul lam)).flatten, (z4.2.2.map (vsmul lam)).flatten]).map List.length
        = (z1.2.1 ++ z2.2.1 ++ z3.2.1 ++ z4.2.1 ++ [s, gamma]).map List.length) ∧
      (z1.2.1 ++ z2.2.1 ++ z3.2.1 ++ z4.2.1).flatten.Nodup ∧
      (∀ j ∈ (z1.2.1 ++ z2.2.1 ++ z3.2.1 ++ z4.2.1).flatten, m.n ≤ j ∧ j < z4.1.n) ∧
      Enc m z4.1 (fun v => ∃ k y pat σ, ModeAt L S s beta gamma al v k y pat σ) fun v =>
        ∀ k y p τ, (h : ModeAt L S s beta gamma al v k y p τ) →
          objExpr (z1.2.2 ++ z2.2.2 ++ z3.2.1.map (fun _ => vsmul lam (fullVec L.dim 2)) ++
            z4.2.1.map (fun _ => vsmul lam (fullVec L.dim 2)) ++
            [(z3.2.2.map (vsmul lam)).flatten, (z4.2.2.map (vsmul lam)).flatten])
            (z1.2.1 ++ z2.2.1 ++ z3.2.1 ++ z4.2.1 ++ [s, gamma]) v
          = pieceRate L.net (eye L.dim) lam p τ (vadd (matVec (S.modes[k]'h.lt).A y) (S.modes[k]'h.lt).g) := by
  have hD := modeAt_deps (K := K) hV
  obtain ⟨m1, i1, c1, e1, l1, k1, H1, b1, d1, E1⟩ := modeLoop_enc (L.gradAisi S s beta) n0 _ hD
    (fun _ co ids => co.length = ids.length)
    (fun i co w v => ∀ hi : i < S.modes.length, ∀ p, PatFits L.net.hidden p → beta.map v = patVec p →
      dot co w = (L.net.dir p (matVec S.modes[i].A ((modeSlack L.dim s i).map v))).getD 0 0) S.modes 0 m hw hn
    (fun i hi m hw hn => by
      obtain ⟨m', ids, co, q1, q2, q3, q4, q5⟩ := gradAisi_block hL hS hslope hne hV i hi m hw hn
      rw [Nat.zero_add]
      exact ⟨m', ids, co, q1, q2, q3, q4, q5.weaken (fun _ _ h => h) fun _ _ h _ => h⟩)
  obtain ⟨m2, i2, c2, e2, l2, k2, H2, b2, d2, E2⟩ := modeLoop_enc (L.gradGigammai gamma beta) n0 _ hD
    (fun _ co ids => co.length = ids.length)
    (fun i co w v => ∀ hi : i < S.modes.length, ∀ p, PatFits L.net.hidden p → beta.map v = patVec p →
      dot co w = (L.net.dir p (vsmul (v (gamma.getD i 0)) S.modes[i].g)).getD 0 0) S.modes 0 m1 E1.wf (hn.trans E1.n)
    (fun i hi m hw hn => by
      obtain ⟨m', ids, co, q1, q2, q3, q4, q5⟩ := gradGigammai_block hL hS hslope hV i hi m hw hn
      rw [Nat.zero_add]
      exact ⟨m', ids, co, q1, q2, q3, q4, q5.weaken (fun _ _ h => h) fun _ _ h _ => h⟩)
  obtain ⟨m3, i3, c3, e3, l3, k3, H3, b3, d3, E3⟩ := modeLoop_enc (L.signAisi S s al) n0 _ hD
    (fun i co ids => ∀ hi : i < S.modes.length, ids.length = L.dim ∧ co = vneg (colSums L.dim S.modes[i].A))
    (fun i _ w v => ∀ hi : i < S.modes.length, ∀ τ : List Bool, al.map v = τ.map bit →
      w = List.zipWith (fun b t => bit b * t) τ (matVec S.modes[i].A ((modeSlack L.dim s i).map v)))
    S.modes 0 m2 E2.wf ((hn.trans E1.n).trans E2.n)
    (fun i hi m hw hn => by
      obtain ⟨m', ids, co, q1, q2, q3, q4, q5⟩ := signAisi_block hS hne hV i hi m hw hn
      rw [Nat.zero_add]
      exact ⟨m', ids, co, q1, fun _ => q2, q3, q4, q5.weaken (fun _ _ h => h) fun _ _ h _ => h⟩)
  obtain ⟨m4, i4, c4, e4, l4, k4, H4, b4, d4, E4⟩ := modeLoop_enc (L.signGigammai gamma al) n0 _ hD
    (fun i co ids => ∀ hi : i < S.modes.length, ids.length = L.dim ∧ co = [-S.modes[i].g.sum])
    (fun i _ w v => ∀ hi : i < S.modes.length, ∀ τ : List Bool, al.map v = τ.map bit →
      w = List.zipWith (fun b t => bit b * t) τ (vsmul (v (gamma.getD i 0)) S.modes[i].g))
    S.modes 0 m3 E3.wf (((hn.trans E1.n).trans E2.n).trans E3.n)
    (fun i hi m hw hn => by
      obtain ⟨m', ids, co, q1, q2, q3, q4, q5⟩ := signGigammai_block hS hV i hi m hw hn
      rw [Nat.zero_add]
      exact ⟨m', ids, co, q1, fun _ => q2, q3, q4, q5.weaken (fun _ _ h => h) fun _ _ h _ => h⟩)
  simp only [Nat.zero_add] at H1 H2 H3 H4 E1 E2 E3 E4
  have n1 := E1.n
  have n2 := E2.n
  have n3 := E3.n
  have n4 := E4.n
  have dn : ∀ N, n0 ≤ N → DepsBelow N fun v : ℕ → K => ∃ k y pat σ, ModeAt L S s beta gamma al v k y pat σ :=
    fun N hN v w hvw h => hD v w (fun i hi => hvw i (by omega)) h
  have C2 := E1.q.seq E2.q (dn _ hn) (fun _ _ _ h => h) (fun _ h _ _ => h)
  have C3 := C2.seq E3.q (dn _ hn) (fun _ _ _ h => h) (fun _ h _ _ => h)
  have C4 := C3.seq E4.q (dn _ hn) (fun _ _ _ h => h) (fun _ h _ _ => h)
  refine ⟨(m1, i1, c1), (m2, i2, c2), (m3, i3, c3), (m4, i4, c4), e1, e2, e3, e4, ?_, ?_, ?_,
    C4.wf, C4.n, C4.obj, fun v hv => ?_, fun v hv hd => ?_⟩
  · have z12 : ∀ (c : List (Vec K)) (x : List (List ℕ)), c.length = x.length →
        (∀ i, i < x.length → (c.getD i []).length = (x.getD i []).length) → c.map List.length = x.map List.length := by
      intro c x hcx h
      apply List.ext_getElem (by simp [hcx])
      intro i h1 h2
      have a1 : i < c.length := by simpa using h1
      have a2 : i < x.length := by simpa using h2
      have := h i a2
      simpa [List.getD, a1, a2] using this
    have f1 := z12 c1 i1 (by omega) fun i hi => H1 i (by omega)
    have f2 := z12 c2 i2 (by omega) fun i hi => H2 i (by omega)
    have ff : ∀ x : List (List ℕ), x.length = S.modes.length → (∀ i, i < S.modes.length → (x.getD i []).length = L.dim) →
        (x.map fun _ => vsmul lam (fullVec L.dim 2)).map List.length = x.map List.length := by
      intro x hx h
      refine z12 _ _ (by simp) fun i hi => ?_
      rw [getD_fun_map (fun _ => vsmul lam (fullVec L.dim 2)) x i hi [] [], h i (by omega)]
      simp [fullVec]
    have f3 := ff i3 l3 fun i hi => (H3 i hi hi).1
    have f4 := ff i4 l4 fun i hi => (H4 i hi hi).1
    have fl : ∀ (c : List (Vec K)) (q : ℕ), c.length = S.modes.length →
        (∀ i, i < S.modes.length → (c.getD i []).length = q) →
        (c.map (vsmul lam)).flatten.length = S.modes.length * q := by
      intro c q hc h
      have : ∀ a ∈ c, a.length = q := by
        intro a ha
        obtain ⟨i, hi, rfl⟩ := List.getElem_of_mem ha
        have := h i (by omega)
        simpa [List.getD, hi] using this
      rw [← hc]
      clear h hc
      induction c with
      | nil => simp
      | cons a c ih =>
        have := ih fun b hb => this b (by simp [hb])
        rw [List.map_cons, List.flatten_cons, List.length_append, this, length_vsmul, ‹∀ b ∈ a :: c, b.length = q› a (by simp),
          List.length_cons]
        ring
    have f5 := fl c3 L.dim k3 fun i hi => by rw [(H3 i hi hi).2]; simp [vneg, colSums]
    have f6 := fl c4 1 k4 fun i hi => by rw [(H4 i hi hi).2]; simp
    simp only [List.map_append, f1, f2, f3, f4, List.map_cons, List.map_nil, f5, f6, hV.ls, hV.lg, Nat.mul_one]
  · simp only [List.flatten_append]
    refine List.Nodup.append (List.Nodup.append (List.Nodup.append d1 d2 ?_) d3 ?_) d4 ?_
    · intro i hi hi'
      have := b1 i hi
      have := b2 i hi'
      omega
    · intro i hi hi'
      have := b3 i hi'
      rcases List.mem_append.1 hi with hi | hi
      · have := b1 i hi; omega
      · have := b2 i hi; omega
    · intro i hi hi'
      have := b4 i hi'
      rcases List.mem_append.1 hi with hi | hi
      rcases List.mem_append.1 hi with hi | hi
      · have := b1 i hi; omega
      · have := b2 i hi; omega
      · have := b3 i hi; omega
  · simp only [List.flatten_append, List.mem_append]
    rintro j (((hj | hj) | hj) | hj)
    · have := b1 j hj; omega
    · have := b2 j hj; omega
    · have := b3 j hj; omega
    · have := b4 j hj; omega
  · obtain ⟨h0, ⟨⟨r1, r2⟩, r3⟩, r4⟩ := C4.sound v hv
    exact ⟨h0, fun k y p τ h => blocks_value hL hS hV lam l1 l2 l3 l4 k1 k2 k3 k4 (fun i hi => H3 i hi hi)
      (fun i hi => H4 i hi hi) (fun i hi => r1 i hi hi) (fun i hi => r2 i hi hi) (fun i hi => r3 i hi hi)
      (fun i hi => r4 i hi hi) h⟩
  · obtain ⟨w, h1, h2, -⟩ := C4.complete v hv hd
    exact ⟨w, h1, h2⟩

/-- The constraint of an autonomous system in mode `k`. -/
theorem HybOk.micFeas {lp : LpSolver K} {L : Lyap K} {S : AutoHybrid K} (h : HybOk lp L S) :
    ∃ c, S.mic none none = some c ∧ c.Ready L.dim ∧ c.numSlack = S.modes.length * L.dim ∧
      c.numBinary = S.modes.length ∧
      ∀ x s z : Vec K, x.length = L.dim → (c.Feas x s z ↔ ∃ k, ∃ hk : k < S.modes.length,
        InPoly S.modes[k].P S.modes[k].q x ∧ z = eyeRow S.modes.length k ∧
        s = slackOf x [] (eyeRow S.modes.length k)) := by
  have R := C44_auto_recorded h.truthful h.built
  obtain ⟨c, hc⟩ := Option.isSome_iff_exists.1 h.mic
  obtain ⟨a, b, lo, up, ha, hb, hlo, hup, hM⟩ := auto_parts hc
  rw [R.xdim] at hM
  have hr := hybrid_ready hM (by simpa using R.ok)
  obtain ⟨n1, n2, n3, -⟩ := hybrid_num hM
  have ea : a = S.loAll := by simpa [tighten] using ha.symm
  have eb : b = S.upAll := by simpa [tighten] using hb.symm
  subst ea eb
  obtain rfl : lo = L.xLo := Option.some.inj (hlo.symm.trans h.lo)
  obtain rfl : up = L.xUp := Option.some.inj (hup.symm.trans h.up)
  have l1 := congrArg List.length (finVec_some hlo)
  have l2 := congrArg List.length (finVec_some hup)
  rw [List.length_map, R.lenLo] at l1
  rw [List.length_map, R.lenUp] at l2
  refine ⟨c, hc, by simpa using hr, by rw [n1, List.length_map]; ring, by simpa using n2, fun x s z hx => ?_⟩
  have := hybrid_feas (x := x) (u := []) (s := s) (z := z) hM (by simpa using R.ok) hx rfl (by omega) (by omega)
  rw [List.append_nil] at this
  rw [this]
  constructor
  · rintro ⟨-, i, hi, hH, hz, hs⟩
    have hi' : i < S.modes.length := by simpa using hi
    refine ⟨i, hi', ?_, by simpa using hz, by rw [hs, hz, List.length_map]⟩
    simpa [HMode.Has, AMode.toH] using hH
  · rintro ⟨i, hi, hH, hz, hs⟩
    refine ⟨h.inBox (List.getElem_mem hi) hx hH, i, by simpa using hi, ?_, by simpa using hz, by rw [hs, hz]⟩
    simpa [HMode.Has, AMode.toH] using hH

set_option maxHeartbeats 1000000 in
/-- C74: the program without velocity variables. Every feasible point is a state of the mode marked by `γ`, and the
objective is the derivative of an affine piece of `V` at the state in the direction of the velocity of the mode,
plus `ε V`. Conversely every state of every mode, with every piece which respects the flags fixed by the bounds, is
represented. -/
theorem C74_program2 {lp : LpSolver K} (L : Lyap K) (hL : L.NetOk) {S : AutoHybrid K} (hS : HybOk lp L S)
    (hslope : ∀ q ∈ L.net.hidden, ∀ c, q.2 = .leaky c → 0 ≤ c)
    (hne : ∀ md ∈ S.modes, ∃ w : Vec K, w.length = L.dim ∧ InPoly md.P md.q w)
    {R : Option (Tensor2 K)} (hR : isIdR L.dim R)
    {xe : Vec K} (hxe : InBox L.xLo L.xUp xe) (lam eps : K) (lower upper : Option K) :
    ∃ D rr er, L.hybridRate2 S xe lam eps .expLower R lower upper = some D ∧
      outputConstraint L.net L.dim L.xLo L.xUp L.method = some rr ∧ L.errRange (eye L.dim) xe = some er ∧
      D.x.length = L.dim ∧ D.gamma.length = S.modes.length ∧ D.m.obj.map MilpObj.maximize = some true ∧
      (∀ v, D.m.Feas v → InBox L.xLo L.xUp (D.x.map v) ∧
        Between lower upper (lyapV L.net (eye L.dim) lam xe (D.x.map v)) ∧
        ∃ k, ∃ hk : k < S.modes.length, D.gamma.map v = eyeRow S.modes.length k ∧
          InPoly S.modes[k].P S.modes[k].q (D.x.map v) ∧
          ∃ pat σ, PieceAt L.net (eye L.dim) xe (D.x.map v) pat σ ∧
            D.m.objVal v = pieceRate L.net (eye L.dim) lam pat σ
                (vadd (matVec S.modes[k].A (D.x.map v)) S.modes[k].g)
              + eps * lyapV L.net (eye L.dim) lam xe (D.x.map v)) ∧
      (∀ k, (hk : k < S.modes.length) → ∀ y pat σ, y.length = L.dim → InPoly S.modes[k].P S.modes[k].q y →
        Between lower upper (lyapV L.net (eye L.dim) lam xe y) → PieceAt L.net (eye L.dim) xe y pat σ →
        FixedOk rr.reluInputLo rr.reluInputUp pat → FixedOk er.1 er.2 [σ] →
        ∃ v, D.m.Feas v ∧ D.x.map v = y ∧ D.gamma.map v = eyeRow S.modes.length k ∧
          D.m.objVal v = pieceRate L.net (eye L.dim) lam pat σ (vadd (matVec S.modes[k].A y) S.modes[k].g)
            + eps * lyapV L.net (eye L.dim) lam xe y) := by
  have h' : L.EqOk none (eye L.dim) xe := ⟨hL.up, rfl, hasCols_eye _, by simp, hxe⟩
  obtain ⟨c, hc, hr, cs, cb, hfeas⟩ := hS.micFeas
  set R' : Mat K := eye L.dim with hR'
  have lR : R'.length = L.dim := by simp [hR']
  obtain ⟨m1, h1, w1, n1, f1⟩ := start_free (Mip.empty : Mip K) Mip.WF.empty feas_empty L.dim
  have e0 : (Mip.empty : Mip K).n = 0 := rfl
  rw [e0] at h1 n1
  rw [zero_add] at n1
  set x := List.range' 0 L.dim with hx
  have lx : x.length = L.dim := by simp [hx]
  have b2 : ∀ i ∈ x, i < m1.n := fun i hi => by
    rw [hx, List.mem_range'_1] at hi
    omega
  obtain ⟨m3, h3, n3, E3⟩ := mic_encQ m1 w1 c x (by rw [lx]; exact hr) b2
  set sl := List.range' m1.n c.numSlack with hsl
  set dg := List.range' (m1.n + c.numSlack) c.numBinary with hdg
  have lsl : sl.length = S.modes.length * L.dim := by simp [hsl, cs]
  have ldg : dg.length = S.modes.length := by simp [hdg, cb]
  have bsl : ∀ i ∈ sl, m1.n ≤ i ∧ i < m1.n + c.numSlack := fun i hi => by
    rw [hsl, List.mem_range'_1] at hi
    omega
  have bdg : ∀ i ∈ dg, m1.n + c.numSlack ≤ i ∧ i < m3.n := fun i hi => by
    rw [hdg, List.mem_range'_1] at hi
    omega
  have q3 := (E3 []).n
  have w3 := (E3 []).wf
  obtain ⟨t, h4, tz, tb, tn, ta, tbb, hret, hbin, E4⟩ := relu_pat_enc L hL m3 w3 x lx
    (fun i hi => lt_of_lt_of_le (b2 i hi) q3)
  have w4 := (E4 []).wf
  have q4 : m3.n ≤ t.m.n := by omega
  obtain ⟨er, m5, s, al, her, h5, ls, la, nds, hs, ha, k5, ler1, ler2, E5⟩ := l1_encQ L h' t.m w4 x lx
    (fun i hi => by have := b2 i hi; omega)
  have w5 := (E5 (List.replicate R'.length true) (by simp)).wf
  have q5 : t.m.n ≤ m5.n := (E5 (List.replicate R'.length true) (by simp)).n
  have htz : ∀ i ∈ t.z, m3.n ≤ i ∧ i < t.m.n := fun i hi => by
    rw [tz, List.mem_range'_1] at hi
    omega
  have htb : ∀ i ∈ t.beta, m3.n ≤ i ∧ i < t.m.n := fun i hi => by
    rw [tb, List.mem_range'_1] at hi
    omega
  have ndz : (t.z ++ s).Nodup := by
    refine List.Nodup.append (by rw [tz]; exact List.nodup_range') nds ?_
    intro i hi hi'
    have := (htz i hi).2
    have := (hs i hi').1
    omega
  obtain ⟨m7, h7, E7⟩ := vbounds_enc m5 w5 lower upper t.a t.b lam (L.phi xe) t.z s
    (by rw [ta, tz, length_aOut L hL]; simp) ndz
    (fun i hi => lt_of_lt_of_le (htz i hi).2 q5) (fun i hi => (hs i hi).2)
  have q7 := E7.n
  have hV : ModeVars L S m5.n sl t.beta dg al := ⟨lsl, by rw [tb]; simp, ldg, by omega,
    fun i hi => by have := bsl i hi; omega, fun i hi => by have := htb i hi; omega,
    fun i hi => by have := bdg i hi; omega, fun i hi => by have := ha i hi; omega⟩
  obtain ⟨z1, z2, z3, z4, u1, u2, u3, u4, ul, und, ub, E8⟩ := blocks_enc hL hS hslope hne hV lam m7 E7.wf q7
  have q8 := E8.n
  -- the objective
  obtain ⟨mf, hf, ff, of, vf⟩ := obj_set z4.1 E8.wf
    (z1.2.2 ++ z2.2.2 ++ z3.2.1.map (fun _ => vsmul lam (fullVec L.dim 2)) ++
        z4.2.1.map (fun _ => vsmul lam (fullVec L.dim 2)) ++
        [(z3.2.2.map (vsmul lam)).flatten, (z4.2.2.map (vsmul lam)).flatten, vsmul eps t.a, fullVec L.dim (eps * lam)])
    (z1.2.1 ++ z2.2.1 ++ z3.2.1 ++ z4.2.1 ++ [sl, dg, t.z, s]) (eps * t.b - eps * L.phi xe) true
    (by
      have e1 : ∀ (p q r w : List ℕ) (l : List (List ℕ)), l ++ [p, q, r, w] = (l ++ [p, q]) ++ [r, w] := by simp
      have e2 : ∀ (p q r w : Vec K) (l : List (Vec K)), l ++ [p, q, r, w] = (l ++ [p, q]) ++ [r, w] := by simp
      rw [e1, e2, List.map_append, ul, List.map_append]
      simp [ta, tz, length_aOut L hL, ls, lR, fullVec])
    (by
      rw [List.flatten_append]
      refine List.Nodup.append und ?_ ?_
      · simp only [List.flatten_cons, List.flatten_nil, List.append_nil]
        refine List.Nodup.append List.nodup_range' (List.Nodup.append List.nodup_range' ndz ?_) ?_
        · intro i hi hi'
          have := bdg i hi
          rcases List.mem_append.1 hi' with hi' | hi'
          · have := htz i hi'; omega
          · have := hs i hi'; omega
        · intro i hi hi'
          have := bsl i hi
          rcases List.mem_append.1 hi' with hi' | hi'
          · have := bdg i hi'; omega
          rcases List.mem_append.1 hi' with hi' | hi'
          · have := htz i hi'; omega
          · have := hs i hi'; omega
      · intro i hi hi'
        have := ub i hi
        simp only [List.flatten_cons, List.flatten_nil, List.append_nil, List.mem_append] at hi'
        rcases hi' with hi' | hi' | hi' | hi'
        · have := bsl i hi'; omega
        · have := bdg i hi'; omega
        · have := htz i hi'; omega
        · have := hs i hi'; omega)
    (by
      intro i hi
      rw [List.flatten_append, List.mem_append] at hi
      rcases hi with hi | hi
      · exact (ub i hi).2
      · simp only [List.flatten_cons, List.flatten_nil, List.append_nil, List.mem_append] at hi
        rcases hi with hi | hi | hi | hi
        · have := bsl i hi; omega
        · have := bdg i hi; omega
        · have := htz i hi; omega
        · have := hs i hi; omega)
  have hsum : ∀ v : ℕ → K, s.map v = (matVec R' (vsub (x.map v) xe)).map (fun a => |a|) → ∀ c,
      dot (fullVec R'.length c) (s.map v) = c * err R' xe (x.map v) := by
    intro v hv c
    have := l1_sum hv c
    rwa [List.length_map, ls] at this
  have hval : ∀ v : ℕ → K, dot t.a (t.z.map v) + t.b = L.phi (x.map v) →
      s.map v = (matVec R' (vsub (x.map v) xe)).map (fun a => |a|) →
      dot t.a (t.z.map v) + t.b - L.phi xe + dot (fullVec R'.length lam) (s.map v)
        = lyapV L.net R' lam xe (x.map v) := by
    intro v hp hv
    rw [hsum v hv, hp]
    rfl
  have hobj : ∀ (v : ℕ → K) (k : ℕ) (y : Vec K) (p : List (List Bool)) (τ : List Bool), z4.1.Feas v →
      dot t.a (t.z.map v) + t.b = L.phi (x.map v) →
      s.map v = (matVec R' (vsub (x.map v) xe)).map (fun a => |a|) →
      (h : ModeAt L S sl t.beta dg al v k y p τ) →
      mf.objVal v = pieceRate L.net R' lam p τ (vadd (matVec (S.modes[k]'h.lt).A y) (S.modes[k]'h.lt).g)
        + eps * lyapV L.net R' lam xe (x.map v) := by
    intro v k y p τ hv hp hsv hm
    obtain ⟨-, r8⟩ := E8.sound v hv
    have g1 := r8 k y p τ hm
    have q4 := hsum v hsv (eps * lam)
    rw [lR] at q4
    have e1 : ∀ (p q r w : List ℕ) (l : List (List ℕ)), l ++ [p, q, r, w] = (l ++ [p, q]) ++ [r, w] := by simp
    have e2 : ∀ (p q r w : Vec K) (l : List (Vec K)), l ++ [p, q, r, w] = (l ++ [p, q]) ++ [r, w] := by simp
    rw [vf, e1, e2, objExpr_append _ _ _ _ (by simpa using congrArg List.length ul), g1, ← hval v hp hsv, hsum v hsv lam]
    simp only [objExpr, List.zipWith_cons_cons, List.zipWith_nil_right, List.sum_cons, List.sum_nil]
    rw [dot_vsmul_left, q4]
    ring
  -- the chain
  refine ⟨⟨mf, x, t.beta, dg, []⟩, t.ret, er, ?_, hret, her, lx, ldg, of, ?_, ?_⟩
  · unfold Lyap.hybridRate2
    have hxl : xe.length = L.dim := h'.xe.1
    have e5 : (al.map fun i => [i]).map (fun a => a.getD 0 0) = al := by
      rw [List.map_map]
      exact List.map_id'' (fun i => by simp) al
    have e6 : sl.length = L.dim * S.modes.length := by rw [lsl]; ring
    have e7 : al.length = L.dim := by omega
    simp only [hxl, hR, and_self, if_true, Option.bind_eq_bind, Option.bind_some, h1, hc, h3, h4, h5, h7, u1, u2, u3,
      u4, e5, e6, e7, hf]
  · intro v hv
    have v8 := (ff v).1 hv
    obtain ⟨v7, -⟩ := E8.sound v v8
    obtain ⟨v5, r7⟩ := E7.sound v v7
    obtain ⟨v4, r5, τ, hτ, hτs⟩ := (E5 (List.replicate R'.length true) (by simp)).sound v v5
    obtain ⟨v3, hbox, hphi, p0, p1, hfit, hbp, hreal, hdir⟩ := (E4 []).sound v v4
    obtain ⟨-, hmf⟩ := (E3 []).sound v v3
    obtain ⟨k, hk, hP, hz, hsk⟩ := (hfeas _ _ _ (by simp [lx])).1 hmf
    have hτl : τ.length = L.dim := by
      have := congrArg List.length hτ
      simp only [List.length_map] at this
      omega
    refine ⟨hbox, by rw [← hval v hphi r5]; rwa [ls] at r7, k, hk, hz, hP, p1, τ, ⟨hreal, hτs⟩, ?_⟩
    rw [hobj v k (x.map v) p0 τ v8 hphi r5 ⟨hk, by simp [lx], hP, hsk, hz, hfit, hbp, hτl, hτ⟩, pieceRate, pieceRate, hdir]
  · rintro k hk y pat σ hyl hP hbet ⟨hreal, hσ⟩ hfix hfix2
    have hy : InBox L.xLo L.xUp y := hS.inBox (List.getElem_mem hk) hyl hP
    have hσl : σ.length = R'.length := by simpa [matVec] using hσ.length_eq
    have hfit : PatFits L.net.hidden pat := patFits_of_realises (hidOk_all _ _ hL.net.1) hreal
    set v0 : ℕ → K := fun i => y.getD i 0 with hv0
    have ex : x.map v0 = y := by
      apply vec_ext (by simp [hx, hyl])
      intro i hi
      have hi' : i < L.dim := by simpa [hx] using hi
      simp [hx, hv0, List.getD, hi']
    have hd1 : DepsBelow m1.n fun v : ℕ → K => x.map v = y := by
      intro v w hvw hv
      rw [← hv]
      exact List.map_congr_left fun j hj => (hvw j (b2 j hj)).symm
    have hdg' : ∀ N, m3.n ≤ N → DepsBelow N fun v : ℕ → K => dg.map v = eyeRow S.modes.length k := by
      intro N hN v w hvw hv
      rw [← hv]
      exact List.map_congr_left fun j hj => (hvw j (by have := (bdg j hj).2; omega)).symm
    have C1 := ((E3 (eyeRow S.modes.length k)).weaken (D2 := fun v => x.map v = y)
      (fun v _ hv => by
        rw [hv]
        exact ⟨_, (hfeas _ _ _ hyl).2 ⟨k, hk, hP, rfl, rfl⟩⟩) (fun _ _ h => h) (fun _ _ _ h => h)).seq (E4 pat)
      hd1 (hdg' _ le_rfl) (fun v hv _ _ => by
        rw [hv]
        exact ⟨hy, hreal, hfix⟩)
    have C2 := C1.seq (E5 σ hσl) hd1 (by
        intro v w hvw hq
        refine ⟨hdg' _ q4 v w hvw hq.1, ?_⟩
        have : t.beta.map w = t.beta.map v := List.map_congr_left fun j hj => (hvw j (htb j hj).2).symm
        rw [this]
        exact hq.2) (fun v hv _ _ => by
        rw [hv]
        exact ⟨hy, hσ, hfix2⟩)
    have hdq : DepsBelow m5.n fun v : ℕ → K =>
        ((dg.map v = eyeRow S.modes.length k ∧ t.beta.map v = patVec pat) ∧ al.map v = σ.map bit) := by
      intro v w hvw hq
      have e1 : t.beta.map w = t.beta.map v :=
        List.map_congr_left fun j hj => (hvw j (by have := (htb j hj).2; omega)).symm
      have e2 : al.map w = al.map v :=
        List.map_congr_left fun j hj => (hvw j (by have := (ha j hj).2; omega)).symm
      exact ⟨⟨hdg' _ (by omega) v w hvw hq.1.1, by rw [e1]; exact hq.1.2⟩, by rw [e2]; exact hq.2⟩
    have C3 := C2.seq E7.q hd1 hdq (fun v hv hR _ => by
      rw [ls, hval v hR.1.2.2.1 hR.2.1, hv]
      exact hbet)
    have mk : ∀ v : ℕ → K, x.map v = y → c.Feas (x.map v) (sl.map v) (dg.map v) →
        dg.map v = eyeRow S.modes.length k → t.beta.map v = patVec pat → al.map v = σ.map bit →
        ModeAt L S sl t.beta dg al v k y pat σ := by
      intro v hxv hmf hz hbp hal
      obtain ⟨k', hk', -, hz', hs'⟩ := (hfeas _ _ _ (by simp [lx])).1 hmf
      have : k' = k := by
        have e := congrArg (fun l : Vec K => l.getD k' 0) (hz.symm.trans hz')
        simp only [getD_eye01 hk, getD_eye01 hk', if_true] at e
        by_contra hne'
        simp [hne'] at e
      subst this
      exact ⟨hk, hyl, hP, by rw [hs', hxv], hz, hfit, hbp, by omega, hal⟩
    have C4 := C3.seq E8.q hd1 (fun v w hvw hq => ⟨hdq v w (fun i hi => hvw i (by omega)) hq.1, trivial⟩)
      (fun v hv hR hq => ⟨k, y, pat, σ, mk v hv hR.1.1.1 hq.1.1.1 hq.1.1.2 hq.1.2⟩)
    obtain ⟨v, hvv, hfv, hqv⟩ := C4.complete v0 (f1 v0) ex
    have hxv : x.map v = y := by rw [← ex]; exact List.map_congr_left fun j hj => hvv j (b2 j hj)
    obtain ⟨-, hRv⟩ := C4.sound v hfv
    refine ⟨v, (ff v).2 hfv, hxv, hqv.1.1.1.1, ?_⟩
    have := hobj v k y pat σ hfv hRv.1.1.1.2.2.1 hRv.1.1.2.1
      (mk v hxv hRv.1.1.1.1 hqv.1.1.1.1 hqv.1.1.1.2 hqv.1.1.2)
    exact this.trans (congrArg (fun t => pieceRate L.net R' lam pat σ (vadd (matVec S.modes[k].A y) S.modes[k].g) +
      eps * t) (congrArg (lyapV L.net R' lam xe) hxv))

/-- C74: the verdict of the program without velocity variables. -/
theorem C74_verdict2 {lp : LpSolver K} (L : Lyap K) (hL : L.NetOk) {S : AutoHybrid K} (hS : HybOk lp L S)
    (hslope : ∀ q ∈ L.net.hidden, ∀ c, q.2 = .leaky c → 0 ≤ c)
    (hne : ∀ md ∈ S.modes, ∃ w : Vec K, w.length = L.dim ∧ InPoly md.P md.q w) {R : Option (Tensor2 K)}
    {xe : Vec K} (hxe : InBox L.xLo L.xUp xe) {lam eps : K} {lower upper : Option K} {D : HRateRet K}
    (hD : L.hybridRate2 S xe lam eps .expLower R lower upper = some D)
    (hle : ∀ v, D.m.Feas v → D.m.objVal v ≤ 0) {x xd : Vec K} (hx : x.length = L.dim) (hdom : AStep S.modes x xd)
    (hbet : Between lower upper (lyapV L.net (eye L.dim) lam xe x)) {T : K} (hT : 0 < T)
    (hray : InBox L.xLo L.xUp (vadd x (vsmul T xd))) :
    ∃ d, HasSlope (lyapV L.net (eye L.dim) lam xe) x xd d ∧ d ≤ -eps * lyapV L.net (eye L.dim) lam xe x := by
  have hR : isIdR L.dim R := by
    unfold Lyap.hybridRate2 at hD
    split at hD
    · rename_i h
      exact h.2.2
    · cases hD
  obtain ⟨D', rr, er, h1, h2, h3, -, -, -, -, hcomp⟩ := C74_program2 L hL hS hslope hne hR hxe lam eps lower upper
  obtain rfl : D' = D := Option.some.inj (h1.symm.trans hD)
  have hxd : xd.length = L.dim := by
    obtain ⟨dlo, dup, -, -, l1, -, -, h⟩ := hS.dx
    exact (h x xd hx hdom).1.trans l1
  obtain ⟨md, hmd, hP, hxn⟩ := hdom
  have hbox : InBox L.xLo L.xUp x := hS.inBox hmd hx hP
  obtain ⟨k, hk, rfl⟩ := List.getElem_of_mem hmd
  have h' : L.EqOk none (eye L.dim) xe := ⟨hL.up, rfl, hasCols_eye _, by simp, hxe⟩
  refine slope_of_pieces L hL h' lam eps h2 h3 hbox hxd hT hray fun pat σ hpc k1 k2 => ?_
  obtain ⟨v, hv, -, -, e3⟩ := hcomp k hk x pat σ hx hP hbet hpc k1 k2
  rw [hxn, ← e3]
  exact hle v hv

/-- C74: neither program is built for another kind of derivative condition, or when `R` is not the identity. -/
theorem C74_raises (L : Lyap K) (S : AutoHybrid K) (xe : Vec K) (lam eps : K) (et : EpsType) (R : Option (Tensor2 K))
    (lower upper : Option K) (h : et ≠ .expLower ∨ ¬ isIdR L.dim R ∨ xe.length ≠ L.dim) :
    L.hybridRate S xe lam eps et R lower upper = none ∧ L.hybridRate2 S xe lam eps et R lower upper = none := by
  have : ¬ (xe.length = L.dim ∧ et = .expLower ∧ isIdR L.dim R) := by tauto
  exact ⟨if_neg this, if_neg this⟩

end NNL.Props
