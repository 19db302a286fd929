import Verif.Lemmas.ContL1

/-!
# The gradient block and the block of the L1 derivative
-/

set_option linter.unusedSectionVars false

namespace NNL.Model

open NNL NNL.Spec NNL.Props

variable {K : Type*} [Field K] [LinearOrder K] [IsStrictOrderedRing K]

/-! ### Bounds on `V` -/

theorem vboundsC_enc (m : Mip K) (hw : m.WF) (lower upper : Option K) (a : Vec K) (lam vc : K)
    (z s : List ℕ) (k : ℕ) (hk : s.length = k) (ha : a.length = z.length) (hn : (z ++ s).Nodup)
    (hz : ∀ i ∈ z, i < m.n) (hs : ∀ i ∈ s, i < m.n) :
    ∃ m1 m2, m.addVLowerC lower a lam vc z s k = some m1 ∧ m1.addVUpperC upper a lam vc z s k = some m2 ∧
      KeepBin m m2 ∧
      Enc m m2 (fun v => Between lower upper (dot a (z.map v) + vc + dot (fullVec k lam) (s.map v))) fun v =>
        Between lower upper (dot a (z.map v) + vc + dot (fullVec k lam) (s.map v)) := by
  subst hk
  have key : ∀ (m : Mip K), m.WF → (∀ i ∈ z, i < m.n) → (∀ i ∈ s, i < m.n) →
      ∃ m', m.addVLowerC lower a lam vc z s s.length = some m' ∧
        Enc m m' (fun v => ∀ l, lower = some l →
            l ≤ dot a (z.map v) + vc + dot (fullVec s.length lam) (s.map v)) fun v =>
          ∀ l, lower = some l → l ≤ dot a (z.map v) + vc + dot (fullVec s.length lam) (s.map v) := by
    intro m hw hz hs
    cases lower with
    | none => exact ⟨m, rfl, ⟨hw, le_rfl, rfl, fun v hv => ⟨hv, by simp⟩,
        fun v hv _ => ⟨v, fun _ _ => rfl, hv⟩⟩⟩
    | some l =>
      obtain ⟨m', h, e⟩ := lconstr2_enc m hw a (fullVec s.length lam) z s .ge (l - vc) ha
        (by simp [fullVec]) hn hz hs
      refine ⟨m', h, e.weaken (fun v _ hv => ?_) (fun v _ hv => ?_)⟩
      · have := hv l rfl
        simp only [Sense.Rel]
        linarith
      · rintro _ ⟨⟩
        simp only [Sense.Rel] at hv
        linarith
  have key2 : ∀ (m : Mip K), m.WF → (∀ i ∈ z, i < m.n) → (∀ i ∈ s, i < m.n) →
      ∃ m', m.addVUpperC upper a lam vc z s s.length = some m' ∧
        Enc m m' (fun v => ∀ l, upper = some l →
            dot a (z.map v) + vc + dot (fullVec s.length lam) (s.map v) ≤ l) fun v =>
          ∀ l, upper = some l → dot a (z.map v) + vc + dot (fullVec s.length lam) (s.map v) ≤ l := by
    intro m hw hz hs
    cases upper with
    | none => exact ⟨m, rfl, ⟨hw, le_rfl, rfl, fun v hv => ⟨hv, by simp⟩,
        fun v hv _ => ⟨v, fun _ _ => rfl, hv⟩⟩⟩
    | some l =>
      obtain ⟨m', h, e⟩ := lconstr2_enc m hw a (fullVec s.length lam) z s .le (l - vc) ha
        (by simp [fullVec]) hn hz hs
      refine ⟨m', h, e.weaken (fun v _ hv => ?_) (fun v _ hv => ?_)⟩
      · have := hv l rfl
        simp only [Sense.Rel]
        linarith
      · rintro _ ⟨⟩
        simp only [Sense.Rel] at hv
        linarith
  obtain ⟨m1, h1, e1⟩ := key m hw hz hs
  obtain ⟨m2, h2, e2⟩ := key2 m1 e1.wf (fun i hi => lt_of_lt_of_le (hz i hi) e1.n)
    (fun i hi => lt_of_lt_of_le (hs i hi) e1.n)
  refine ⟨m1, m2, h1, h2, (keep_addVLowerC hw h1).trans (keep_addVUpperC e1.wf h2), ?_⟩
  have hdep : DepsBelow m.n fun v => Between lower upper
      (dot a (z.map v) + vc + dot (fullVec s.length lam) (s.map v)) :=
    depsBelow_map2 z s hz hs fun p q =>
      Between lower upper (dot a p + vc + dot (fullVec s.length lam) q)
  exact (((e1.weaken (fun v _ h => h.1) (fun _ _ h => h)).seq e2 hdep
    (fun v h _ => h.2)).weaken (fun _ _ h => h) (fun _ _ h => h))

/-! ### The gradient times a vector -/

theorem gradHid_shape {xs n : ℕ} {m : ℕ} :
    ∀ (hs : List (Lin K × Act K)) (bs : List (Vec K × Vec K)) (first : Bool) (offPrev off k : ℕ)
      (c : List (LRow K)), gradHid xs n first offPrev off hs bs = some c → HidOk k hs m →
      off + numUnits hs ≤ n → (first = true → k = xs) → (first = false → offPrev + k ≤ n) →
      ∀ r ∈ c, r.x.length = xs ∧ r.s.length = n ∧ r.z.length = n := by
  intro hs
  induction hs with
  | nil =>
    intro bs first offPrev off k c h _ _ _ _
    cases bs <;> cases h <;> simp
  | cons p rest ih =>
    obtain ⟨l, a⟩ := p
    intro bs first offPrev off k c h hok hn hf hf2
    obtain ⟨rfl, hl, hrest⟩ := hok
    rw [numUnits] at hn
    cases bs with
    | nil => simp [gradHid] at h
    | cons b bs =>
    unfold gradHid at h
    split at h
    · rename_i c1 r1 e1 e2
      simp only [Option.some.injEq] at h
      subst h
      have s1 := gradLayer_shape e1 hl.1
      have s2 := ih bs false off (off + l.W.length) l.W.length r1 e2 hrest (by omega) (by simp)
        (fun _ => by omega)
      intro r hr
      simp only [List.mem_append, List.mem_map] at hr
      rcases hr with ⟨r', hr', rfl⟩ | hr
      · obtain ⟨a1, a2, a3⟩ := s1 r' hr'
        exact placeRow_shape first xs n offPrev off r' (fun h => by rw [a1]; exact hf h)
          (fun h => by rw [a1]; exact hf2 h) (by omega) (by omega)
      · exact s2 r hr
    · cases h

theorem gradTimesVecBounds_ready {net : Net K} {xs : ℕ} {wz : List (Vec K × Vec K)} {c : MIC K}
    (h : gradTimesVecBounds net xs wz = some c) (hok : net.Ok xs) :
    c.Ready xs ∧ c.numSlack = numUnits net.hidden ∧ c.numBinary = numUnits net.hidden ∧
      c.numOut = net.last.W.length ∧
      c.Aout_slack = some ⟨numUnits net.hidden, net.last.W.map fun w =>
        setSlice (zeros (numUnits net.hidden)) (lastOff net.hidden) w⟩ ∧
      c.Cout = none ∧ c.Aout_input = none ∧ c.Aout_binary = none ∧
      c.slack_lo = none ∧ c.slack_up = none ∧ c.input_lo = none ∧ c.input_up = none ∧
      c.binary_lo = none ∧ c.binary_up = none := by
  unfold gradTimesVecBounds at h
  simp only at h
  split at h
  · cases h
  · cases h
  · rename_i p ps rows hne hco
    have hne' : net.hidden ≠ [] := by rw [hne]; simp
    have hsh := gradHid_shape (m := net.last.inF) net.hidden wz true 0 0 xs rows hco hok.1 (by omega)
      (by simp) (by simp)
    cases h
    refine ⟨⟨⟨⟨shapeIs_none _ _, ?_, shapeIs_none _ _, ?_, ?_, ?_, ?_, by simp, ?_, ?_, ?_, by simp⟩,
      rfl, rfl, rfl⟩, ⟨?_, ?_, ?_, ?_, ?_, ?_⟩, ⟨?_, ?_⟩⟩, rfl, rfl, by simp [MIC.numOut], rfl, rfl, rfl,
      rfl, rfl, rfl, rfl, rfl, rfl, rfl⟩
    · intro M hM
      simp only [Option.some.injEq] at hM
      subst hM
      refine ⟨rfl, rfl, ?_⟩
      intro r hr
      simp only [List.mem_map] at hr
      obtain ⟨w, hw, rfl⟩ := hr
      have := hok.2.1 w hw
      have e := lastOff_add hok.1 hne'
      simp only
      rw [length_setSlice _ _ _ (by rw [length_zeros, this]; omega)]
      simp
    · simp
    · have := shapeIs_rowsTensor xs LRow.x _ fun r hr => (hsh r hr).1
      simpa [MIC.numIneq, MIC.numInput, numVar, rowsTensor] using this
    · have := shapeIs_rowsTensor _ LRow.s _ fun r hr => (hsh r hr).2.1
      simpa [MIC.numIneq, MIC.numSlack, numVar, rowsTensor] using this
    · have := shapeIs_rowsTensor _ LRow.z _ fun r hr => (hsh r hr).2.2
      simpa [MIC.numIneq, MIC.numBinary, numVar, rowsTensor] using this
    all_goals simp [rowsTensor, shapeIs_none, MIC.numEq]

theorem addMIC_given_isSome (m : Mip K) (hw : m.WF) (c : MIC K) (x zs : List ℕ) (bt : VType)
    (hc : c.Ready x.length) (hx : ∀ i ∈ x, i < m.n) (hz : zs.length = c.numBinary)
    (hne : c.numBinary ≠ 0) (hb : ∀ i ∈ zs, vtypeIs m.vars .binary i = true) (hbt : bt = .binary) :
    ∃ m', m.addMIC c x none (.given zs) bt = some (m', List.range' m.n c.numSlack, zs) := by
  subst hbt
  obtain ⟨m0, h0⟩ := setVarBound_isSome m (ids := x) (lo := c.input_lo) (up := c.input_up)
    (fun l hl => by rw [hc.lens.ilo l hl, hc.sized.input])
    (fun l hl => by rw [hc.lens.iup l hl, hc.sized.input])
  have w0 := setVarBound_wf h0 hw
  have n0 := setVarBound_n h0
  obtain ⟨⟨m1, s⟩, h1⟩ := addSlack_isSome m0 c hc.sized.slack hc.lens
  obtain ⟨hs, n1, w1, _, _⟩ := addSlack_spec h1 w0
  have hk := (keep_setVarBound h0).trans (keep_addSlack h1)
  have h2 : m1.addBin c (.given zs) .binary = some (m1, zs) := by
    unfold Mip.addBin
    rw [if_pos (by rw [hc.sized.binary]; exact hne)]
    simp only
    rw [if_pos]
    exact ⟨by rw [hz, hc.sized.binary], List.all_eq_true.2 fun i hi => hk i (hb i hi)⟩
  have hlt : ∀ i, i ∈ x ∨ i ∈ s ∨ i ∈ zs → i < m1.n := by
    intro i hi
    rcases hi with hi | hi | hi
    · have := hx i hi; omega
    · rw [hs] at hi
      have := mem_range'_lt le_rfl i hi
      omega
    · exact (addBin_given_spec h2).2.2.2 i hi
  have ls : c.numSlack = s.length := by rw [hs]; simp [hc.sized.slack]
  have hsh := hc.sized.shaped
  obtain ⟨m3, h3⟩ := addBlock_isSome m1 (sense := .le) (blockFits_of_shapeIs hsh.ain_x hc.sized.input)
    (blockFits_of_shapeIs hsh.ain_s ls) (blockFits_of_shapeIs hsh.ain_z hz.symm)
    (fun h => hc.rows.ineq (List.length_pos_iff.2 h)) hlt
  have n3 := addBlock_n h3
  obtain ⟨m4, h4⟩ := addBlock_isSome m3 (sense := .eq) (blockFits_of_shapeIs hsh.aeq_x hc.sized.input)
    (blockFits_of_shapeIs hsh.aeq_s ls) (blockFits_of_shapeIs hsh.aeq_z hz.symm)
    (fun h => hc.rows.eq (List.length_pos_iff.2 h)) (by rw [n3]; exact hlt)
  have n4 := addBlock_n h4
  obtain ⟨m5, h5⟩ := addOut_isSome m4 c hsh none x s zs hc.sized.input ls hz.symm
    (by simp) (by rw [n4, n3]; exact hlt)
  refine ⟨m5, ?_⟩
  unfold Mip.addMIC
  rw [hc.sized.slack, n0] at hs
  rw [← hs]
  simp [h0, h1, h2, h3, h4, h5]

theorem grad_enc (L : Lyap K) (hL : L.NetOk) {wz : List (Vec K × Vec K)} {c : MIC K}
    (hc : gradTimesVecBounds L.net L.dim wz = some c) (hwz : wz.length = L.net.hidden.length)
    (m : Mip K) (hw : m.WF) (x beta : List ℕ) (hl : x.length = L.dim) (hx : ∀ i ∈ x, i < m.n)
    (hbl : beta.length = numUnits L.net.hidden) (hb : ∀ i ∈ beta, vtypeIs m.vars .binary i = true)
    (hbn : ∀ i ∈ beta, i < m.n) :
    ∃ m' ga, m.addMIC c x none (.given beta) .binary =
        some (m', List.range' m.n (numUnits L.net.hidden), beta) ∧
      outRow c.Aout_slack = some ga ∧ ga.length = numUnits L.net.hidden ∧
      m'.n = m.n + numUnits L.net.hidden ∧ KeepBin m m' ∧
      Enc m m' (fun v => ∃ p, PatFits L.net.hidden p ∧ beta.map v = patVec p ∧
          WzOk L.net.hidden wz (dirPre L.net.hidden p (x.map v))) fun v =>
        ∀ p, PatFits L.net.hidden p → beta.map v = patVec p →
          dot ga ((List.range' m.n (numUnits L.net.hidden)).map v) = (L.net.dir p (x.map v)).getD 0 0 ∧
          WzOk L.net.hidden wz (dirPre L.net.hidden p (x.map v)) := by
  obtain ⟨hr, n1, n2, n3, hA, hC, hAi, hAb, q1, q2, q3, q4, q5, q6⟩ := gradTimesVecBounds_ready hc hL.net
  have hu := hL.units
  obtain ⟨m', hm'⟩ := addMIC_given_isSome m hw c x beta .binary (by rw [hl]; exact hr) hx
    (by rw [n2, hbl]) (by rw [n2]; omega) hb rfl
  obtain ⟨-, -, -, hn, hw', ho, hfe⟩ := addMIC_given_spec hm' hw (by rw [hl]; exact hr.sized) hx
  rw [n1] at hm' hn hfe
  obtain ⟨w, hW⟩ : ∃ w, L.net.last.W = [w] := by
    match h : L.net.last.W, hL.out with
    | [w], _ => exact ⟨w, rfl⟩
  rw [hW] at hA
  simp only [List.map_cons, List.map_nil] at hA
  have hAt : ∀ (v : ℕ → K) (p : List (List Bool)), PatFits L.net.hidden p → beta.map v = patVec p →
      (c.At x (List.range' m.n (numUnits L.net.hidden)) beta none v ↔
        c.Feas (x.map v) ((List.range' m.n (numUnits L.net.hidden)).map v) (patVec p)) := by
    intro v p hp hbp
    have hbin : IsBin (patVec p : Vec K) := by
      intro b hb
      obtain ⟨u, _, rfl⟩ := List.mem_map.1 hb
      cases u <;> simp
    rw [MIC.At, hbp]
    constructor
    · rintro ⟨h, -⟩
      refine ⟨by simp [n1], by rw [← hbp, n2]; simpa using hbl, hbin, h, ?_⟩
      simp [MIC.BoundsHold, LoOk, UpOk, q1, q2, q3, q4, q5, q6]
    · intro h
      refine ⟨h.rows, ?_⟩
      simp [LoOk, UpOk, q1, q2, q3, q4]
  refine ⟨m', _, hm', by rw [hA]; rfl, ?_, hn, keep_addMIC hm', hw', by omega, ho, fun v hv => ?_, ?_⟩
  · have := hL.net.2.1 w (by rw [hW]; simp)
    have hne' : L.net.hidden ≠ [] := by
      intro h0
      rw [h0] at hu
      simp [numUnits] at hu
    have e := lastOff_add hL.net.1 hne'
    rw [length_setSlice _ _ _ (by rw [length_zeros, this]; omega)]
    simp
  · obtain ⟨h1, h2⟩ := (hfe v).1 hv
    refine ⟨h1, fun p hp hbp => ?_⟩
    have hf := (hAt v p hp hbp).1 h2
    obtain ⟨e1, e2⟩ := (gradTimesVecBounds_feas hc hL.net hwz hp).1 hf
    refine ⟨?_, e2⟩
    have := gradTimesVecBounds_out (v := x.map v) (z := patVec p) hc hL.net hp
    rw [← this, ← e1, MIC.out, n3, hW, hA, hC, hAi, hAb]
    simp [mrow]
  · rintro v hv ⟨p, hp, hbp, hok⟩
    set s := (dirPost L.net.hidden p (x.map v)).flatten with hs
    have hfeas : c.Feas (x.map v) s (patVec p) := (gradTimesVecBounds_feas hc hL.net hwz hp).2 ⟨rfl, hok⟩
    have hsl : s.length = numUnits L.net.hidden := by rw [hfeas.len_s, n1]
    have ea : ∀ i, i < m.n → upd v m.n s i = v i := fun i hi => upd_lt _ _ _ _ hi
    refine ⟨upd v m.n s, ea, (hfe _).2 ⟨(hw.feas_congr ea).2 hv, ?_⟩⟩
    have ex : x.map (upd v m.n s) = x.map v := map_upd_lt _ _ _ _ hx
    have eb : beta.map (upd v m.n s) = beta.map v := map_upd_lt _ _ _ _ hbn
    rw [hAt _ p hp (by rw [eb, hbp]), ex]
    have : (List.range' m.n (numUnits L.net.hidden)).map (upd v m.n s) = s := map_upd _ _ _ _ hsl
    rw [this]
    exact hfeas

/-! ### The derivative of the L1 norm -/

theorem dl1Row_step (m : Mip K) (hw : m.WF) {l u : K} {p : Rows K}
    (hp : replaceBinaryContinuousProduct l u = some p) (r : Vec K) (x : List ℕ) (s a : ℕ)
    (hr : r.length = x.length) (hx : ∀ i ∈ x, i < m.n) (hs : s < m.n) (ha : a < m.n) :
    ∃ m', m.addMConstr [⟨x.length, p.Ax.map fun c => vsmul c r⟩, colT p.As, colT p.Aa] [x, [s], [a]] .le
        p.rhs = some m' ∧ Step m m' 0 fun v => p.Holds (dot r (x.map v)) (v s) (v a) := by
  have hlen : p.Ax.length = p.rhs.length ∧ p.As.length = p.rhs.length ∧ p.Aa.length = p.rhs.length := by
    unfold replaceBinaryContinuousProduct at hp
    split at hp
    · cases hp
      simp
    · cases hp
  obtain ⟨m', h⟩ := addMConstr_isSome m (A := [⟨x.length, p.Ax.map fun c => vsmul c r⟩, colT p.As, colT p.Aa])
    (x := [x, [s], [a]]) (sense := .le) (b := p.rhs) rfl (by simp) (by simp [colT, hlen])
    (by simp [colT]) (by
      simp only [List.flatten_cons, List.flatten_nil, List.append_nil, List.mem_append, List.mem_singleton]
      rintro i (hi | rfl | rfl)
      · exact hx i hi
      · exact hs
      · exact ha)
  refine ⟨m', h, (step_addMConstr h hw).congr rfl fun v => ?_⟩
  unfold Rows.Holds
  refine forall_congr' fun i => forall_congr' fun hi => ?_
  have h1 : i < p.Ax.length := by omega
  have h2 : i < p.As.length := by omega
  have h3 : i < p.Aa.length := by omega
  rw [dot_catRow_cons _ _ _ _ _ _ (by
      intro q hq
      obtain ⟨c, -, rfl⟩ := List.mem_map.1 hq
      simp [hr]) rfl (by simpa using h1),
    dot_catRow_cons _ _ _ _ _ _ (by intro q hq; simp [colT] at hq; obtain ⟨c, -, rfl⟩ := hq; rfl) rfl
      (by simpa [colT] using h2),
    dot_catRow_cons _ _ _ _ _ _ (by intro q hq; simp [colT] at hq; obtain ⟨c, -, rfl⟩ := hq; rfl) rfl
      (by simpa [colT] using h3)]
  simp [Sense.Rel, colT, List.getD, h1, h2, h3, dot_vsmul_left, add_assoc]

theorem dl1Loop_step (x : List ℕ) : ∀ (R : Mat K) (lb ub : Vec K) (sl al : List ℕ) (m : Mip K), m.WF →
    HasCols R x.length → lb.length = R.length → ub.length = R.length → sl.length = R.length →
    al.length = R.length → (∀ i, i < R.length → lb.getD i 0 ≤ ub.getD i 0) → (∀ i ∈ x, i < m.n) →
    (∀ i ∈ sl, i < m.n) → (∀ i ∈ al, i < m.n) →
    ∃ m' P, dl1Loop x.length x R lb ub sl al m = some m' ∧ Step m m' 0 P ∧
      ∀ (v : ℕ → K) (τ : List Bool), al.map v = τ.map bit →
        (P v ↔ (∀ i, i < R.length → lb.getD i 0 ≤ (matVec R (x.map v)).getD i 0 ∧
            (matVec R (x.map v)).getD i 0 ≤ ub.getD i 0) ∧
          sl.map v = List.zipWith (fun b t => bit b * t) τ (matVec R (x.map v))) := by
  intro R
  induction R with
  | nil =>
    intro lb ub sl al m hw _ h1 h2 h3 h4 _ _ _ _
    obtain rfl : lb = [] := List.length_eq_zero_iff.1 h1
    obtain rfl : ub = [] := List.length_eq_zero_iff.1 h2
    obtain rfl : sl = [] := List.length_eq_zero_iff.1 h3
    obtain rfl : al = [] := List.length_eq_zero_iff.1 h4
    exact ⟨m, fun _ => True, rfl, ⟨hw, rfl, rfl, by simp⟩, fun v τ _ => by simp [matVec]⟩
  | cons r R ih =>
    intro lb ub sl al m hw hR h1 h2 h3 h4 hlu hx hs ha
    obtain ⟨l, lb, rfl⟩ := List.exists_cons_of_length_eq_add_one h1
    obtain ⟨u, ub, rfl⟩ := List.exists_cons_of_length_eq_add_one h2
    obtain ⟨s, sl, rfl⟩ := List.exists_cons_of_length_eq_add_one h3
    obtain ⟨a, al, rfl⟩ := List.exists_cons_of_length_eq_add_one h4
    obtain ⟨p, hp⟩ := Option.isSome_iff_exists.1 ((C01_product_accepts l u).2
      (by simpa using hlu 0 (by simp)))
    obtain ⟨m1, e1, s1⟩ := dl1Row_step m hw hp r x s a (hR r (by simp)) hx (hs s (by simp)) (ha a (by simp))
    have hn : m1.n = m.n := s1.n
    obtain ⟨m2, P, e2, s2, hP⟩ := ih lb ub sl al m1 s1.wf (fun q hq => hR q (by simp [hq]))
      (by simpa using h1) (by simpa using h2) (by simpa using h3) (by simpa using h4)
      (fun i hi => by simpa using hlu (i + 1) (by simpa using hi)) (by rw [hn]; exact hx)
      (fun i hi => by rw [hn]; exact hs i (by simp [hi])) (fun i hi => by rw [hn]; exact ha i (by simp [hi]))
    refine ⟨m2, fun v => p.Holds (dot r (x.map v)) (v s) (v a) ∧ P v, by simp [dl1Loop, hp, e1, e2],
      ⟨s2.wf, by rw [s2.n, s1.n], by rw [s2.obj, s1.obj], fun v => by
        rw [s2.feas, s1.feas, and_assoc]⟩, fun v τ hτ => ?_⟩
    cases τ with
    | nil => simp at hτ
    | cons b τ =>
      simp only [List.map_cons, List.cons.injEq] at hτ
      simp only
      rw [hP v τ hτ.2, C01_product_exact l u _ _ _ p hp (by rw [hτ.1]; cases b <;> simp [bit]), hτ.1]
      have e : matVec (r :: R) (x.map v) = dot r (x.map v) :: matVec R (x.map v) := rfl
      rw [e]
      simp only [List.map_cons, List.zipWith_cons_cons, List.cons.injEq, List.length_cons]
      constructor
      · rintro ⟨⟨a1, a2⟩, b1, b2⟩
        refine ⟨fun i hi => ?_, a2, b2⟩
        cases i with
        | zero => simpa using a1
        | succ i => simpa using b1 i (by omega)
      · rintro ⟨a1, a2, b2⟩
        exact ⟨⟨by simpa using a1 0 (by omega), a2⟩, fun i hi => by simpa using a1 (i + 1) (by omega), b2⟩

theorem dl1_enc (L : Lyap K) {R : Mat K} {B : RateBounds K} {b : Vec K × Vec K} (hb : L.rateRange R B = some b)
    (hlo : b.1.length = R.length) (hup : b.2.length = R.length)
    (hlu : ∀ i, i < R.length → b.1.getD i 0 ≤ b.2.getD i 0) (hcols : HasCols R L.dim) (m : Mip K) (hw : m.WF)
    (lam : K) (al x : List ℕ) (hl : x.length = L.dim) (hal : al.length = R.length) (hx : ∀ i ∈ x, i < m.n)
    (ha : ∀ i ∈ al, i < m.n) :
    ∃ m', L.addDl1 m lam R al x B = some (m', fullVec R.length (2 * lam) ++ vsmul (-lam) (colSums L.dim R),
        List.range' m.n R.length ++ x) ∧
      m'.n = m.n + R.length ∧
      Enc m m' (fun v => (∃ τ : List Bool, τ.length = R.length ∧ al.map v = τ.map bit) ∧
          ∀ i, i < R.length → b.1.getD i 0 ≤ (matVec R (x.map v)).getD i 0 ∧
            (matVec R (x.map v)).getD i 0 ≤ b.2.getD i 0) fun v =>
        ∀ τ : List Bool, al.map v = τ.map bit →
          (∀ i, i < R.length → b.1.getD i 0 ≤ (matVec R (x.map v)).getD i 0 ∧
            (matVec R (x.map v)).getD i 0 ≤ b.2.getD i 0) ∧
          (List.range' m.n R.length).map v = List.zipWith (fun b t => bit b * t) τ (matVec R (x.map v)) := by
  obtain ⟨m1, h1, s1⟩ := free_addVars m hw R.length
  have n1 := s1.n
  obtain ⟨m2, P, e2, s2, hP⟩ := dl1Loop_step x R b.1 b.2 (List.range' m.n R.length) al m1 s1.wf
    (by rw [hl]; exact hcols) hlo hup (by simp) hal hlu (fun i hi => by have := hx i hi; omega)
    (fun i hi => by have := mem_range'_lt le_rfl i hi; omega) (fun i hi => by have := ha i hi; omega)
  rw [hl] at e2
  have n2 := s2.n
  refine ⟨m2, by simp [Lyap.addDl1, hb, h1, e2], by omega, s2.wf, by omega, by rw [s2.obj, s1.obj],
    fun v hv => ?_, ?_⟩
  · obtain ⟨a1, a2⟩ := (s2.feas v).1 hv
    exact ⟨((s1.feas v).1 a1).1, fun τ hτ => (hP v τ hτ).1 a2⟩
  · rintro v hv ⟨⟨τ, hτl, hτ⟩, hbd⟩
    set s := List.zipWith (fun b t => bit b * t) τ (matVec R (x.map v)) with hs
    have hsl : s.length = R.length := by simp [hs, matVec, hτl]
    have ea : ∀ i, i < m.n → upd v m.n s i = v i := fun i hi => upd_lt _ _ _ _ hi
    have ex : x.map (upd v m.n s) = x.map v := map_upd_lt _ _ _ _ hx
    have eb : al.map (upd v m.n s) = al.map v := map_upd_lt _ _ _ _ ha
    have es : (List.range' m.n R.length).map (upd v m.n s) = s := map_upd _ _ _ _ hsl
    refine ⟨upd v m.n s, ea, (s2.feas _).2 ⟨(s1.feas _).2 ⟨(hw.feas_congr ea).2 hv, trivial⟩, ?_⟩⟩
    rw [hP _ τ (by rw [eb, hτ]), ex, es]
    exact ⟨hbd, rfl⟩

end NNL.Model
