import Verif.Lemmas.Strengthen
import Verif.Props.Feedback

/-!
# The networks of the systems in the derivative program
-/

set_option linter.unusedSectionVars false

namespace NNL.Model

open NNL NNL.Spec NNL.Props

variable {K : Type*} [Field K] [LinearOrder K] [IsStrictOrderedRing K]

/-! ### Programs that only grow -/

/-- Variables and constraints are appended. -/
def Pre (m m' : Mip K) : Prop := ∃ vs cs, m'.vars = m.vars ++ vs ∧ m'.cons = m.cons ++ cs

theorem Pre.refl (m : Mip K) : Pre m m := ⟨[], [], by simp, by simp⟩

theorem Pre.trans {a b c : Mip K} (h : Pre a b) (h' : Pre b c) : Pre a c := by
  obtain ⟨v, w, h1, h2⟩ := h
  obtain ⟨v', w', h1', h2'⟩ := h'
  exact ⟨v ++ v', w ++ w', by rw [h1', h1, List.append_assoc], by rw [h2', h2, List.append_assoc]⟩

theorem Pre.n {m m' : Mip K} (h : Pre m m') : m.n ≤ m'.n := by
  obtain ⟨v, w, h1, h2⟩ := h
  simp [Mip.n, h1]

theorem Pre.feas {m m' : Mip K} (h : Pre m m') (v : ℕ → K) (hv : m'.Feas v) : m.Feas v := by
  obtain ⟨vs, w, h1, h2⟩ := h
  refine ⟨fun i g hg => hv.1 i g ?_, fun c hc => hv.2 c (by rw [h2]; simp [hc])⟩
  have : i < m.vars.length := (List.getElem?_eq_some_iff.1 hg).1
  rw [h1, List.getElem?_append_left this, hg]

theorem pre_addVars {m m' : Mip K} {num : ℕ} {lb ub : List (Option K)} {vt : VType} {ids : List ℕ}
    (h : m.addVars num lb ub vt = some (m', ids)) : Pre m m' :=
  ⟨_, [], (addVars_inv h).2.2.2.2.1, by rw [(addVars_inv h).2.2.2.2.2.1]; simp⟩

theorem pre_addMConstr {m m' : Mip K} {A : List (Tensor2 K)} {x : List (List ℕ)} {sense : Sense} {b : Vec K}
    (h : m.addMConstr A x sense b = some m') : Pre m m' :=
  ⟨[], _, by rw [(addMConstr_inv h).1]; simp, (addMConstr_inv h).2.1⟩

theorem pre_addLConstr {m m' : Mip K} {c : List (Vec K)} {x : List (List ℕ)} {sense : Sense} {b : K}
    (h : m.addLConstr c x sense b = some m') : Pre m m' := by
  unfold Mip.addLConstr at h
  split_ifs at h
  simp only at h
  split at h
  · cases h
  · cases sense <;> cases h <;> exact ⟨[], _, by simp, rfl⟩

theorem pre_addSaturation {m m' : Mip K} {x y : ℕ} {lower upper lo up : K} {bt : VType} {bs : List ℕ}
    (h : m.addSaturation x y lower upper lo up bt = some (m', bs)) : Pre m m' := by
  unfold Mip.addSaturation at h
  split_ifs at h
  · obtain ⟨m1, h1, h⟩ := Option.bind_eq_some_iff.1 h
    cases h
    exact pre_addLConstr h1
  · obtain ⟨m1, h1, h⟩ := Option.bind_eq_some_iff.1 h
    cases h
    exact pre_addLConstr h1
  · obtain ⟨m1, h1, h⟩ := Option.bind_eq_some_iff.1 h
    cases h
    exact pre_addLConstr h1
  · obtain ⟨R, -, h⟩ := Option.bind_eq_some_iff.1 h
    obtain ⟨t, h1, h⟩ := Option.bind_eq_some_iff.1 h
    obtain ⟨m2, h2, h⟩ := Option.bind_eq_some_iff.1 h
    cases h
    exact (pre_addVars h1).trans (pre_addMConstr h2)
  · obtain ⟨R, -, h⟩ := Option.bind_eq_some_iff.1 h
    obtain ⟨t, h1, h⟩ := Option.bind_eq_some_iff.1 h
    obtain ⟨m2, h2, h⟩ := Option.bind_eq_some_iff.1 h
    cases h
    exact (pre_addVars h1).trans (pre_addMConstr h2)
  · obtain ⟨tz, h1, h⟩ := Option.bind_eq_some_iff.1 h
    obtain ⟨t, h2, h⟩ := Option.bind_eq_some_iff.1 h
    obtain ⟨m3, h3, h⟩ := Option.bind_eq_some_iff.1 h
    obtain ⟨R, -, h⟩ := Option.bind_eq_some_iff.1 h
    obtain ⟨m4, h4, h⟩ := Option.bind_eq_some_iff.1 h
    obtain ⟨R, -, h⟩ := Option.bind_eq_some_iff.1 h
    obtain ⟨m5, h5, h⟩ := Option.bind_eq_some_iff.1 h
    cases h
    exact ((((pre_addVars h1).trans (pre_addVars h2)).trans (pre_addLConstr h3)).trans (pre_addMConstr h4)).trans
      (pre_addMConstr h5)

theorem pre_satTurn {u pre : ℕ} {lower upper : Ext K} {a b : K} {m m' : Mip K} {bt : VType}
    (h : satTurn u pre lower upper a b m bt = some m') : Pre m m' := by
  unfold satTurn at h
  split_ifs at h
  · exact pre_addLConstr h
  · split at h
    · obtain ⟨t, h1, h⟩ := Option.map_eq_some_iff.1 h
      subst h
      exact pre_addSaturation h1
    · cases h

theorem pre_satLoop {bt : VType} : ∀ (u pre : List ℕ) (lower upper : List (Ext K)) (a b : Vec K) (m m' : Mip K),
    satLoop bt u pre lower upper a b m = some m' → Pre m m'
  | [], _, _, _, _, _, m, m', h => by simp only [satLoop] at h; cases h; exact Pre.refl _
  | u :: us, pre :: pres, l :: ls, h :: hs, a :: as, b :: bs, m, m', hh => by
    simp only [satLoop, Option.bind_eq_bind, Option.bind_eq_some_iff] at hh
    obtain ⟨m1, h1, h2⟩ := hh
    exact (pre_satTurn h1).trans (pre_satLoop _ _ _ _ _ _ _ _ h2)
  | _ :: _, [], _, _, _, _, _, _, h => by simp [satLoop] at h
  | _ :: _, _ :: _, [], _, _, _, _, _, h => by simp [satLoop] at h
  | _ :: _, _ :: _, _ :: _, [], _, _, _, _, h => by simp [satLoop] at h
  | _ :: _, _ :: _, _ :: _, _ :: _, [], _, _, _, h => by simp [satLoop] at h
  | _ :: _, _ :: _, _ :: _, _ :: _, _ :: _, [], _, _, h => by simp [satLoop] at h

theorem pre_addInputSat {m m' : Mip K} {u pre : List ℕ} {lower upper : List (Ext K)} {a b lo up : Vec K} {bt : VType}
    (h : addInputSat m u pre lower upper a b bt = some (m', lo, up)) : Pre m m' := by
  unfold addInputSat at h
  split_ifs at h
  simp only [Option.bind_eq_bind, Option.bind_eq_some_iff] at h
  obtain ⟨m1, h1, lo', -, up', -, h⟩ := h
  split_ifs at h
  cases h
  exact pre_satLoop _ _ _ _ _ _ _ _ h1

/-! ### Networks that hold in a program -/

/-- The networks fit the program and their variables have the values of the networks at feasible points. -/
def AllHold (m : Mip K) (nets : List (NetAt K)) : Prop :=
  ∀ a ∈ nets, a.Fits m.n ∧ ∀ v, m.Feas v → a.Holds v

theorem AllHold.mono {m m' : Mip K} {nets : List (NetAt K)} (h : AllHold m nets) (hn : m.n ≤ m'.n)
    (hf : ∀ v, m'.Feas v → m.Feas v) : AllHold m' nets := by
  intro a ha
  obtain ⟨h1, h2⟩ := h a ha
  exact ⟨⟨h1.net, h1.s, h1.z, h1.lo, h1.up, fun i hi => (h1.lt i hi).trans_le hn⟩, fun v hv => h2 v (hf v hv)⟩

theorem AllHold.append {m : Mip K} {a b : List (NetAt K)} (h : AllHold m a) (h' : AllHold m b) : AllHold m (a ++ b) := by
  intro c hc
  rcases List.mem_append.1 hc with hc | hc
  · exact h c hc
  · exact h' c hc

theorem relu_lens {net : Net K} {xs : ℕ} {xlo xup : Vec K} {m : Method K} {r : ReluMIC K}
    (h : outputConstraint net xs xlo xup m = some r) (hok : net.Ok xs) :
    r.mic.numSlack = numUnits net.hidden ∧ r.mic.numBinary = numUnits net.hidden := by
  obtain ⟨-, -, h3, -⟩ := outputConstraint_some h
  obtain ⟨-, n1, n2, -⟩ := outputCons_ready h3 hok
  exact ⟨n1, n2⟩

/-- A network whose constraint set was added to a program. -/
theorem allHold_mic {net : Net K} {xlo xup : Vec K} {mt : Method K} {r0 : ReluMIC K} {c : MIC K} {m m' : Mip K}
    {x s z : List ℕ} {o : Option (List ℕ)} (hr : outputConstraint net x.length xlo xup mt = some r0)
    (hok : net.Ok x.length) (hm : MethodValid net xlo xup mt) (hl : xlo.length = x.length) (hu : xup.length = x.length)
    (hle : ∀ i, i < x.length → xlo.getD i 0 ≤ xup.getD i 0)
    (hw : m.WF) (hx : ∀ i ∈ x, i < m.n) (ho : ∀ o', o = some o' → o'.length = c.numOut ∧ ∀ i ∈ o', i < m.n)
    (hc : c.Ready x.length) (hs : c.numSlack = numUnits net.hidden) (hb : c.numBinary = numUnits net.hidden)
    (hf : ∀ x s z, c.Feas x s z ↔ r0.mic.Feas x s z) (h : m.addMIC c x o .fresh .binary = some (m', s, z)) :
    AllHold m' [⟨net, x, s, z, r0.nnInputLo ++ r0.reluOutputLo, r0.nnInputUp ++ r0.reluOutputUp⟩] := by
  obtain ⟨m1, h1, S⟩ := mic_step m hw c x o hc hx ho
  rw [h] at h1
  cases h1
  intro a ha
  simp only [List.mem_singleton] at ha
  subst ha
  obtain ⟨-, -, h3, e1, e2⟩ := outputConstraint_some hr
  have hbox : InBox xlo xup xlo := ⟨rfl, by rw [hl, hu], fun i hi => ⟨le_rfl, hle i (by rw [← hl]; exact hi)⟩⟩
  have hb' := (C11_bounds_sound hr hok hm hbox).2.1
  have ln := length_postacts_flatten hok.1 xlo
  refine ⟨⟨hok, by simp [hs], by simp [hb], ?_, ?_, ?_⟩, fun v hv => ?_⟩
  · simp only [List.length_append, e1, hl]
    rw [← hb'.1, ln]
  · simp only [List.length_append, e2, hu]
    rw [← hb'.2.1, ln]
  · have := S.n
    simp only [List.mem_append, List.mem_range'_1]
    rintro i ((hi | hi) | hi)
    · have := hx i hi; omega
    · omega
    · omega
  · exact holds_of_feas hr hok hm hl hu ((hf _ _ _).1 ((S.feas v).1 hv).2.1)

/-! ### The controller -/

theorem fbCtrl_nets {S : Feedback K} {n k : ℕ} (h : S.Ok n k) {m m' : Mip K} (hw : m.WF) {x u s g : List ℕ} {lo up : Vec K}
    (lx : x.length = n) (hx : ∀ i ∈ x, i < m.n) (hc : S.addCtrl m x u .binary = some (m', s, g, lo, up)) :
    ∃ l, S.ctrlNets x s g = some l ∧ AllHold m' l := by
  unfold Feedback.addCtrl at hc
  unfold Feedback.ctrlNets
  cases hctrl : S.ctrl with
  | lin l => exact ⟨[], rfl, by simp [AllHold]⟩
  | net N method =>
    rw [hctrl] at hc
    simp only at hc ⊢
    obtain ⟨hN, hW, hM, -⟩ := h.net N method hctrl
    unfold Feedback.addNetCtrl Feedback.addNetCtrlGiven at hc
    simp only [Option.bind_eq_bind, Option.bind_eq_some_iff] at hc
    obtain ⟨r, hr, t, ht, p, hp, A, hA, C, hC, m2, hm2, b, hb, hc⟩ := hc
    cases hc
    refine ⟨_, by rw [hr]; rfl, ?_⟩
    have e12 : r.nnInputLo = S.xLo ∧ r.nnInputUp = S.xUp := (outputConstraint_some hr).2.2.2
    obtain ⟨n1, n2⟩ := relu_lens (by rw [← h.lo] at hN; exact hr) (by rw [h.lo]; exact hN)
    obtain ⟨f1, -⟩ := relu_fields hr (by rw [h.lo]; exact hN)
    have lx' : x.length = S.xLo.length := by rw [lx, h.lo]
    have := allHold_mic (net := N) (xlo := S.xLo) (xup := S.xUp) (mt := method) (r0 := r) (c := r.mic) (m := m) (m' := t.1)
      (x := x) (s := t.2.1) (z := t.2.2) (o := none) (by rw [lx']; exact hr) (by rw [lx]; exact hN) hM lx'.symm
      (by rw [lx, h.up]) (fun i hi => h.le i (by omega)) hw hx (by simp) (by rw [lx']; exact f1) n1 n2 (fun _ _ _ => Iff.rfl) ht
    rw [e12.1, e12.2] at this
    have q := ((pre_addVars hp).trans (pre_addMConstr hm2)).trans (pre_addInputSat hb)
    exact this.mono q.n q.feas

/-! ### Forward systems -/

/-- The networks returned with the constraints of a forward system hold. -/
def FwdHold (fwd : CtrlConstr K) (nets : FwdNets K) (n k : ℕ) (P : Option (Vec K) → Option (Vec K) → Prop) : Prop :=
  ∀ (m : Mip K) (x xn u : List ℕ) (aLo aUp : Option (Vec K)), m.WF → x.length = n → xn.length = n →
    u.length = k → (∀ i ∈ x, i < m.n) → (∀ i ∈ xn, i < m.n) → (∀ i ∈ u, i < m.n) → P aLo aUp →
    ∀ m' s g, fwd m x xn u aLo aUp = some (m', s, g) → ∃ l, nets x u aLo aUp s g = some l ∧ AllHold m' l

theorem fwd_none (fwd : CtrlConstr K) (n k : ℕ) (P : Option (Vec K) → Option (Vec K) → Prop) :
    FwdHold fwd noNets n k P :=
  fun _ _ _ _ _ _ _ _ _ _ _ _ _ _ _ _ _ _ => ⟨[], rfl, by simp [AllHold]⟩

/-- `r` is the constraint set `r0` of the network with another output. -/
structure SameRows (r r0 : ReluMIC K) (n o : ℕ) : Prop where
  ready : r.mic.Ready n
  out : r.mic.numOut = o
  slack : r.mic.numSlack = r0.mic.numSlack
  bin : r.mic.numBinary = r0.mic.numBinary
  feas : ∀ x s z, r.mic.Feas x s z ↔ r0.mic.Feas x s z
  lo : r.nnInputLo ++ r.reluOutputLo = r0.nnInputLo ++ r0.reluOutputLo
  up : r.nnInputUp ++ r.reluOutputUp = r0.nnInputUp ++ r0.reluOutputUp

theorem fwd_ctrl {N : Net K} {n k : ℕ} {xLo xUp uLo uUp : Vec K}
    {c : Option (Vec K) → Option (Vec K) → Option (ReluMIC K)} (hok : N.Ok (n + k)) (hh : N.hidden ≠ [])
    (lx : xLo.length = n) (ux : xUp.length = n) (le : ∀ i, i < n → xLo.getD i 0 ≤ xUp.getD i 0)
    (l1 : uLo.length = k) (l2 : uUp.length = k)
    (hc : ∀ lo up r0, outputConstraint N (n + k) (xLo ++ lo) (xUp ++ up) .ia = some r0 →
      ∃ r, c (some lo) (some up) = some r ∧ SameRows r r0 (n + k) n) :
    FwdHold (addCtrl uLo uUp c .binary) (ctrlNets N uLo uUp c) n k (UsableU uLo uUp) := by
  intro m x xn u aLo aUp hw a1 a2 a3 a4 a5 a6 hP m' s g h
  obtain ⟨lo, up, r0, h1, h2, hr, b1, b2, hb⟩ := ctrl_net hok hh lx ux le l1 l2 hP
  obtain ⟨lo', up', h1', h2', h3', h4', h5', -⟩ := tightenU_exact l1 l2 hP
  rw [h1] at h1'
  rw [h2] at h2'
  cases h1'
  cases h2'
  obtain ⟨r, hr', R⟩ := hc lo up r0 hr
  obtain ⟨n1, n2⟩ := relu_lens hr hok
  have lxu : (x ++ u).length = n + k := by simp [a1, a3]
  simp only [addCtrl, h1, h2, hr', Option.bind_eq_bind, Option.bind_some] at h
  refine ⟨[⟨N, x ++ u, s, g, r.nnInputLo ++ r.reluOutputLo, r.nnInputUp ++ r.reluOutputUp⟩],
    by simp only [ctrlNets, h1, h2, hr', Option.bind_eq_bind, Option.bind_some], ?_⟩
  rw [R.lo, R.up]
  refine allHold_mic (mt := .ia) (xlo := xLo ++ lo) (xup := xUp ++ up) (c := r.mic) (m := m) (o := some xn) (by rw [lxu]; exact hr) (by rw [lxu]; exact hok)
    trivial (by rw [lxu, b1]) (by rw [lxu, b2]) ?_ hw ?_ ?_ (by rw [lxu]; exact R.ready) (by rw [R.slack, n1])
    (by rw [R.bin, n2]) R.feas h
  · intro i hi
    rw [lxu] at hi
    by_cases hlt : i < n
    · rw [getD_append_lt _ _ _ _ (by omega), getD_append_lt _ _ _ _ (by omega)]
      exact le i hlt
    · obtain ⟨j, rfl⟩ : ∃ j, i = n + j := ⟨i - n, by omega⟩
      have e1 : (xLo ++ lo).getD (n + j) 0 = lo.getD j 0 := by rw [← lx, getD_append_add]
      have e2 : (xUp ++ up).getD (n + j) 0 = up.getD j 0 := by rw [← ux, getD_append_add]
      rw [e1, e2]
      exact h5' j (by omega)
  · intro i hi
    rcases List.mem_append.1 hi with hi | hi
    · exact a4 i hi
    · exact a6 i hi
  · intro o' ho'
    cases ho'
    exact ⟨by rw [R.out, a2], a5⟩

theorem fwd_relu {S : CtrlRelu K} {n k : ℕ} (h : CtrlRelu.Ok S n k) (hh : S.net.hidden ≠ []) :
    FwdHold (addCtrl S.uLo S.uUp S.mic .binary) (ctrlNets S.net S.uLo S.uUp S.mic) n k (UsableU S.uLo S.uUp) := by
  refine fwd_ctrl h.net hh h.lo h.up h.le h.ulo h.uup fun lo up r0 hr => ⟨r0, ?_, ?_⟩
  · unfold CtrlRelu.mic
    rw [h.lo, h.ulo]
    exact hr
  · obtain ⟨f1, f2, -⟩ := relu_fields hr h.net
    exact ⟨f1, by rw [f2, h.out], rfl, rfl, fun _ _ _ => Iff.rfl, rfl, rfl⟩

/-- The constraint set of a network with another output. -/
theorem relu_same {net : Net K} {xs : ℕ} {xlo xup : Vec K} {m : Method K} {r : ReluMIC K}
    (h : outputConstraint net xs xlo xup m = some r) (hok : net.Ok xs) (Ai : Option (Tensor2 K))
    (As : Tensor2 K) (C : Vec K) (hAi : ShapeIs Ai As.rows.length xs) (hc : As.cols = numUnits net.hidden)
    (hAs : As.Ok) (hC : C.length = As.rows.length) (c' : MIC K)
    (hc' : c' = { r.mic with Aout_input := Ai, Aout_slack := some As, Cout := some C }) :
    SameRows { r with mic := c' } r xs As.rows.length := by
  obtain ⟨g1, g2, g3⟩ := relu_mod h hok Ai As C hAi hc hAs hC c' hc'
  obtain ⟨-, -, h3, -⟩ := outputConstraint_some h
  obtain ⟨-, n1, n2, n3, hA, hC0, hAi0, hAb0⟩ := outputCons_ready h3 hok
  refine ⟨g1, g2, ?_, ?_, g3, rfl, rfl⟩
  · subst hc'
    rw [n1]
    exact hc
  · subst hc'
    simp [MIC.numBinary, hAb0]

theorem fwd_relu_eq {S : CtrlRelu K} {n k : ℕ} (h : CtrlRelu.Ok S n k) (hh : S.net.hidden ≠ []) :
    FwdHold (addCtrl S.uLo S.uUp S.micEq .binary) (ctrlNets S.net S.uLo S.uUp S.micEq) n k (UsableU S.uLo S.uUp) := by
  refine fwd_ctrl h.net hh h.lo h.up h.le h.ulo h.uup fun lo up r hr => ?_
  obtain ⟨f1, f2, hA, hC0, hAi0, hAb0, hOk⟩ := relu_fields hr h.net
  have ln : ∀ x, (S.net.eval x).length = n := fun x => by rw [net_len h.net, h.out]
  have lb : S.net.last.b.length = n := by rw [h.net.2.2, h.out]
  have hrows : (netOut S.net).rows.length = n := by simp [netOut, h.out]
  set e := S.net.eval (S.xEq ++ S.uEq) with he
  obtain ⟨C, c, lC, hc, hmic⟩ : ∃ (C : Vec K) (c : MIC K), C.length = n ∧
      c = r.mic.withOut none (some (netOut S.net)) (some C) ∧
      S.micEq (some lo) (some up) = some { r with mic := c } := by
    have q1 : addCout r.mic (vneg e) = some { r.mic with Cout := some (vadd S.net.last.b (vneg e)) } :=
      addCout_eq hC0 (by simp [lb, he, ln])
    cases hd : S.discrete with
    | false =>
      refine ⟨vadd S.net.last.b (vneg e), _, by simp [lb, he, ln], mic_eta hAi0 hA _, ?_⟩
      unfold CtrlRelu.micEq
      simp only [Option.getD_some, h.lo, h.ulo, hr, ← he, Option.bind_eq_bind, Option.bind_some, q1, hd,
        Bool.false_eq_true, if_false]
    | true =>
      refine ⟨vadd (vadd S.net.last.b (vneg e)) S.xEq, _, by simp [lb, he, ln, h.eq],
        mic_eta hAi0 hA _, ?_⟩
      unfold CtrlRelu.micEq
      simp only [Option.getD_some, h.lo, h.ulo, hr, ← he, Option.bind_eq_bind, Option.bind_some, q1, hd,
        if_true]
      rw [addCout_eq (c := { r.mic with Cout := some (vadd S.net.last.b (vneg e)) }) rfl
        (by simp [lb, he, ln, h.eq])]
      rfl
  refine ⟨_, hmic, ?_⟩
  have := relu_same hr h.net none (netOut S.net) C (shapeIs_none _ _) rfl hOk (by rw [lC, hrows]) c hc
  rwa [hrows] at this

theorem fwd_second {S : SecondRelu K} {n k : ℕ} (h : SecondRelu.Ok S n k) (hn : S.net.Ok (n + n + k))
    (hh : S.net.hidden ≠ []) :
    FwdHold (addCtrl S.uLo S.uUp S.mic .binary) (ctrlNets S.net S.uLo S.uUp S.mic) (n + n) k (UsableU S.uLo S.uUp) := by
  refine fwd_ctrl hn hh h.lo h.up h.le h.ulo h.uup fun lo up r hr => ?_
  obtain ⟨f1, f2, hA, hC0, hAi0, hAb0, hOk⟩ := relu_fields hr hn
  have ln : ∀ x, (S.net.eval x).length = n := fun x => by rw [net_len hn, h.out]
  have lb : S.net.last.b.length = n := by rw [hn.2.2, h.out]
  have hrows : (netOut S.net).rows.length = n := by simp [netOut, h.out]
  obtain ⟨hq, hv⟩ := SecondRelu.nq_eq h
  set e := S.net.eval (S.xEq ++ S.uEq) with he
  set C0 := vadd S.net.last.b (vneg e) with hC
  have lC0 : C0.length = n := by rw [hC]; simp [lb, he, ln]
  have q1 : addCout r.mic (vneg e) = some { r.mic with Cout := some C0 } := addCout_eq hC0 (by simp [lb, he, ln])
  set top := (List.range n).map (fun i =>
        eyeRow n i ++ vsmul (S.dt / 2) (eyeRow n i) ++ (zeros k : Vec K)) with htop
  set Ai : Tensor2 K := ⟨n + n + k, top ++ zerosM n (n + n + k)⟩ with hAi
  set As : Tensor2 K := ⟨(netOut S.net).cols, (netOut S.net).rows.map (fun r => vsmul (S.dt / 2) r)
    ++ (netOut S.net).rows⟩ with hAs
  set C := vsmul (S.dt / 2) C0 ++ C0 with hCC
  have hso : S.secondOut (netOut S.net) C0 = some (Ai, As, C) := by
    unfold SecondRelu.secondOut
    rw [hq, hv, if_pos rfl, h.lo, h.ulo]
  have hmic : S.mic (some lo) (some up) = some { r with mic := r.mic.withOut (some Ai) (some As) (some C) } := by
    unfold SecondRelu.mic
    simp only [Option.getD_some, h.lo, h.ulo, hr, ← he, Option.bind_eq_bind, Option.bind_some, q1, hA, hso]
  have lAs : As.rows.length = n + n := by simp [hAs, hrows]
  have lC : C.length = n + n := by simp [hCC, lC0]
  have ltop : top.length = n := by simp [htop]
  refine ⟨_, hmic, ?_⟩
  have := relu_same hr hn (some Ai) As C
    (by
      intro M hM
      simp only [Option.some.injEq] at hM
      subst hM
      refine ⟨by simp [hAi, ltop, zerosM, lAs], rfl, ?_⟩
      intro row hrow
      simp only [hAi, List.mem_append, htop, List.mem_map, zerosM, List.mem_replicate] at hrow
      rcases hrow with ⟨i, -, rfl⟩ | ⟨-, rfl⟩
      · simp [hAi]
        omega
      · simp [hAi])
    rfl
    (by
      intro row hrow
      simp only [hAs, List.mem_append, List.mem_map] at hrow
      rcases hrow with ⟨i, hi, rfl⟩ | hi
      · simpa using hOk _ hi
      · exact hOk _ hi)
    (by rw [lC, lAs]) _ rfl
  rwa [lAs] at this

theorem fwd_residue {S : SecondRelu K} {n k : ℕ} (h : SecondRelu.Ok S n k) (hn : S.net.Ok (S.idx.length + k))
    (hi : ∀ i ∈ S.idx, i < n + n) (hm : S.method = .ia) :
    FwdHold (S.addResidue .binary) S.residueNets (n + n) k (UsableU S.uLo S.uUp) := by
  intro m x xn u aLo aUp hw lx lxn lu hx hxn hu hP m' s g hc
  set L := S.idx.map (fun i => S.xLo.getD i 0) with hL
  set U := S.idx.map (fun i => S.xUp.getD i 0) with hU
  have le : ∀ i, i < S.idx.length → L.getD i 0 ≤ U.getD i 0 := by
    intro i hi'
    have := h.le _ (hi _ (List.getElem_mem (l := S.idx) hi'))
    simpa [hL, hU, List.getD, hi'] using this
  obtain ⟨lo, up, h1, h2, h3, h4, h5, -⟩ := tightenU_exact h.ulo h.uup hP
  have hxl : ∀ i ∈ S.idx, i < x.length := by rw [lx]; exact hi
  have p1 : pick S.xLo S.idx = some L := by
    unfold pick
    rw [if_pos (by rw [h.lo]; exact hi)]
  have p2 : pick S.xUp S.idx = some U := by
    unfold pick
    rw [if_pos (by rw [h.up]; exact hi)]
  unfold SecondRelu.addResidue at hc
  unfold SecondRelu.residueNets
  rw [if_pos hxl] at hc
  simp only [h1, h2, p1, p2, Option.bind_eq_bind, Option.bind_some, Option.bind_eq_some_iff, h.ulo, hm] at hc ⊢
  obtain ⟨r, hr, t, ht, A, hA, C, hC, es, hes, m1, hm1, m2, hm2, hc⟩ := hc
  cases hc
  rw [hr]
  refine ⟨_, ⟨r, rfl, rfl⟩, ?_⟩
  obtain ⟨n1, n2⟩ := relu_lens hr hn
  obtain ⟨f1, -⟩ := relu_fields hr hn
  have ll : (S.idx.map (fun i => x.getD i 0) ++ u).length = S.idx.length + k := by simp [lu]
  have q := (pre_addMConstr hm1).trans (pre_addMConstr hm2)
  refine AllHold.mono (m := t.1) ?_ q.n q.feas
  refine allHold_mic (mt := .ia) (xlo := L ++ lo) (xup := U ++ up) (c := r.mic) (m := m) (o := none) (by rw [ll]; exact hr)
    (by rw [ll]; exact hn) trivial (by simp [hL, h3, lu]) (by simp [hU, h4, lu]) ?_ hw ?_ (by simp) (by rw [ll]; exact f1)
    n1 n2 (fun _ _ _ => Iff.rfl) ht
  · intro i hi'
    rw [ll] at hi'
    by_cases hlt : i < S.idx.length
    · rw [getD_append_lt _ _ _ _ (by simp [hL]; omega), getD_append_lt _ _ _ _ (by simp [hU]; omega)]
      exact le i hlt
    · obtain ⟨j, rfl⟩ : ∃ j, i = S.idx.length + j := ⟨i - S.idx.length, by omega⟩
      rw [getD_add_of_len (by simp [hL]), getD_add_of_len (by simp [hU])]
      exact h5 j (by omega)
  · intro i hi'
    rcases List.mem_append.1 hi' with hi' | hi'
    · obtain ⟨j, hj, rfl⟩ := List.mem_map.1 hi'
      refine hx _ ?_
      simp [List.getD, hxl j hj]
    · exact hu i hi'

/-! ### Systems -/

/-- The networks returned with the dynamics of a system hold. -/
def NetsHold (sys : SysNets K) (n : ℕ) : Prop :=
  ∀ (m : Mip K) (x xn : List ℕ), m.WF → x.length = n → xn.length = n → (x ++ xn).Nodup →
    (∀ i ∈ x, i < m.n) → (∀ i ∈ xn, i < m.n) → ∀ t, sys m x xn = some t → AllHold t.1 t.2.2.2

theorem netsHold_plain (sys : SysConstr K) (n : ℕ) : NetsHold (plainSys sys) n := by
  intro m x xn _ _ _ _ _ _ t ht
  simp only [plainSys, Option.map_eq_some_iff] at ht
  obtain ⟨q, -, rfl⟩ := ht
  simp [AllHold]

theorem constr_plain (sys : SysConstr K) : (plainSys sys).constr = sys := by
  funext m x xn
  simp [SysNets.constr, plainSys, Function.comp_def]

/-- Two descriptions of the same dynamics. -/
def SameSys (sys : SysConstr K) (sys' : SysConstr K) (n : ℕ) : Prop :=
  ∀ (m : Mip K) (x xn : List ℕ), m.WF → x.length = n → xn.length = n → (x ++ xn).Nodup →
    (∀ i ∈ x, i < m.n) → (∀ i ∈ xn, i < m.n) → sys m x xn = sys' m x xn

theorem feedback_nets {S : Feedback K} {n k : ℕ} (h : S.Ok n k) {fwd : VType → CtrlConstr K} {nets : FwdNets K}
    {P : Option (Vec K) → Option (Vec K) → Prop}
    {Rel : Option (Vec K) → Option (Vec K) → Vec K → Vec K → Vec K → Prop} (hF : CtrlEnc (fwd .binary) n k P Rel)
    (hN : FwdHold (fwd .binary) nets n k P)
    (hP : ∀ lo up : Vec K, lo.length = k → up.length = k →
      (∀ y w, InBox S.xLo S.xUp y → finVec (S.computeU y) = some w → InBox lo up w) → P (some lo) (some up)) :
    NetsHold (S.addDynamicsNets fwd nets .binary) n ∧
      SameSys (S.addDynamicsNets fwd nets .binary).constr (S.addDynamics (fwd .binary) .binary) n := by
  have key : ∀ (m : Mip K) (x xn : List ℕ), m.WF → x.length = n → xn.length = n → (x ++ xn).Nodup →
      (∀ i ∈ x, i < m.n) → (∀ i ∈ xn, i < m.n) → ∃ t nets', S.addDynamics (fwd .binary) .binary m x xn = some t ∧
        S.addDynamicsNets fwd nets .binary m x xn = some (t.1, t.2.1, t.2.2, nets') ∧ AllHold t.1 nets' := by
    intro m x xn hw lx lxn nd hx hxn
    obtain ⟨m1, hm1, s1⟩ := free_addVars m hw S.uDim
    have n1 := s1.n
    have hx1 : ∀ i ∈ x, i < m1.n := fun i hi => by have := hx i hi; omega
    have hxn1 : ∀ i ∈ xn, i < m1.n := fun i hi => by have := hxn i hi; omega
    have hu1 : ∀ i ∈ List.range' m.n S.uDim, i < m1.n := fun i hi => by
      have := List.mem_range'_1.1 hi; omega
    have lu : (List.range' m.n S.uDim).length = k := by simp [h.udim]
    obtain ⟨m2, s, g, lo, up, hc, l1, l2, hb, E⟩ := addCtrl_fb h m1 s1.wf x _ lx lu hx1 hu1
    obtain ⟨l, hl, hA⟩ := fbCtrl_nets h s1.wf lx hx1 hc
    have b1 : ∀ i ∈ x, i < m2.n := fun i hi => (hx1 i hi).trans_le E.n
    have b2 : ∀ i ∈ xn, i < m2.n := fun i hi => (hxn1 i hi).trans_le E.n
    have b3 : ∀ i ∈ List.range' m.n S.uDim, i < m2.n := fun i hi => (hu1 i hi).trans_le E.n
    obtain ⟨m3, s3, g3, hf, E3⟩ := hF m2 x xn _ (some lo) (some up) E.wf lx lxn lu b1 b2 b3 (hP lo up l1 l2 hb)
    obtain ⟨l', hl', hA'⟩ := hN m2 x xn _ (some lo) (some up) E.wf lx lxn lu b1 b2 b3 (hP lo up l1 l2 hb) m3 s3 g3 hf
    refine ⟨(m3, List.range' m.n S.uDim ++ s3 ++ s, g3 ++ g), l' ++ l, by simp only [Feedback.addDynamics, hm1, hc, hf, Option.bind_eq_bind, Option.bind_some],
      by simp only [Feedback.addDynamicsNets, hm1, hc, hf, hl, hl', Option.bind_eq_bind, Option.bind_some], ?_⟩
    exact hA'.append (hA.mono E3.n fun v hv => (E3.sound v hv).1)
  refine ⟨fun m x xn a1 a2 a3 a4 a5 a6 t ht => ?_, fun m x xn a1 a2 a3 a4 a5 a6 => ?_⟩
  · obtain ⟨t', l, -, h2, h3⟩ := key m x xn a1 a2 a3 a4 a5 a6
    rw [h2] at ht
    cases ht
    exact h3
  · obtain ⟨t', l, h1, h2, h3⟩ := key m x xn a1 a2 a3 a4 a5 a6
    simp only [SysNets.constr, h1, h2, Option.map_some]

theorem SysEnc.same {sys sys' : SysConstr K} {n : ℕ} {Dom Rel : Vec K → Vec K → Prop} (h : SysEnc sys' n Dom Rel)
    (e : SameSys sys sys' n) : SysEnc sys n Dom Rel := by
  intro m x xn a1 a2 a3 a4 a5 a6
  rw [e m x xn a1 a2 a3 a4 a5 a6]
  exact h m x xn a1 a2 a3 a4 a5 a6

theorem derivative_congr (L : Lyap K) {sys sys' : SysConstr K} (e : SameSys sys sys' L.dim) (xe : Vec K) (lam eps : K)
    (et : EpsType) (R : Option (Tensor2 K)) (lower upper : Option K) (bt : VType) :
    L.derivative sys xe lam eps et R lower upper bt = L.derivative sys' xe lam eps et R lower upper bt := by
  obtain ⟨m1, h1, w1, n1, f1⟩ := start_free (Mip.empty : Mip K) Mip.WF.empty feas_empty L.dim
  obtain ⟨m2, h2, w2, n2, f2⟩ := start_free m1 w1 f1 L.dim
  have e0 : (Mip.empty : Mip K).n = 0 := rfl
  have := e m2 (List.range' m1.n L.dim) (List.range' (Mip.empty : Mip K).n L.dim) w2 (by simp) (by simp) (by
    refine List.Nodup.append List.nodup_range' List.nodup_range' ?_
    intro i hi hi'
    rw [List.mem_range'_1] at hi hi'
    omega) (fun i hi => by rw [List.mem_range'_1] at hi; omega) (fun i hi => by rw [List.mem_range'_1] at hi; omega)
  unfold Lyap.derivative
  simp only [h1, h2, this, Option.bind_eq_bind, Option.bind_some]

theorem derivativeNets_fst (L : Lyap K) (sys : SysNets K) (xe : Vec K) (lam eps : K) (et : EpsType)
    (R : Option (Tensor2 K)) (lower upper : Option K) (bt : VType) :
    (L.derivativeNets sys xe lam eps et R lower upper bt).map Prod.fst =
      L.derivative sys.constr xe lam eps et R lower upper bt := by
  unfold Lyap.derivativeNets Lyap.derivative SysNets.constr
  split_ifs
  · simp only [Option.bind_eq_bind, Option.map_bind]
    congr 1; funext R'
    simp only [Function.comp_def, Option.map_bind]
    congr 1; funext tn
    congr 1; funext tx
    cases sys tx.1 tx.2 tn.2 with
    | none => rfl
    | some d =>
      simp only [Option.bind_some, Option.map_some]
  · rfl

theorem outputConstraint_le {net : Net K} {xs : ℕ} {xlo xup : Vec K} {m : Method K} {r : ReluMIC K}
    (h : outputConstraint net xs xlo xup m = some r) : ∀ i, i < xlo.length → xlo.getD i 0 ≤ xup.getD i 0 := by
  unfold outputConstraint at h
  split at h
  · assumption
  · cases h

/-- A network whose constraints hold at the points of a program. -/
theorem allHold_feas {net : Net K} {xlo xup : Vec K} {mt : Method K} {r : ReluMIC K} {m : Mip K} {x s z : List ℕ}
    (hr : outputConstraint net x.length xlo xup mt = some r) (hok : net.Ok x.length) (hm : MethodValid net xlo xup mt)
    (hl : xlo.length = x.length) (hu : xup.length = x.length) (hs : s.length = numUnits net.hidden)
    (hz : z.length = numUnits net.hidden) (hlt : ∀ i ∈ x ++ s ++ z, i < m.n)
    (hf : ∀ v, m.Feas v → r.mic.Feas (x.map v) (s.map v) (z.map v)) :
    AllHold m [⟨net, x, s, z, r.nnInputLo ++ r.reluOutputLo, r.nnInputUp ++ r.reluOutputUp⟩] := by
  intro a ha
  simp only [List.mem_singleton] at ha
  subst ha
  obtain ⟨-, -, h3, e1, e2⟩ := outputConstraint_some hr
  have hbox : InBox xlo xup xlo := ⟨rfl, by rw [hl, hu], fun i hi => ⟨le_rfl, outputConstraint_le hr i hi⟩⟩
  have hb' := (C11_bounds_sound hr hok hm hbox).2.1
  have ln := length_postacts_flatten hok.1 xlo
  refine ⟨⟨hok, hs, hz, ?_, ?_, hlt⟩, fun v hv => holds_of_feas hr hok hm hl hu (hf v hv)⟩
  · simp only [List.length_append, e1, hl]
    rw [← hb'.1, ln]
  · simp only [List.length_append, e2, hu]
    rw [← hb'.2.1, ln]

/-- The networks of the Lyapunov function in the program. -/
theorem lyapNets_hold (L : Lyap K) (hL : L.NetOk) {D : DerivRet K} (h : DerivNets L D) (lx : D.x.length = L.dim)
    (lxn : D.xNext.length = L.dim) : AllHold D.m (L.lyapNets D) := by
  have ll : L.xLo.length = L.dim := rfl
  obtain ⟨l1, l2, l3, l4⟩ := h.len
  have e : L.lyapNets D = [_] ++ [_] := rfl
  rw [e]
  refine AllHold.append ?_ ?_
  · refine allHold_feas (mt := L.method) (by rw [lx]; exact h.ret) (by rw [lx]; exact hL.net) hL.method (by rw [lx]; exact ll)
      (by rw [lx, hL.up]) l1 l3 (fun i hi => h.lt i ?_) fun v hv => (h.feas v hv).1
    simp only [List.mem_append] at hi ⊢
    tauto
  · refine allHold_feas (mt := L.method) (by rw [lxn]; exact h.retNext) (by rw [lxn]; exact hL.net) hL.method (by rw [lxn]; exact ll)
      (by rw [lxn, hL.up]) l2 l4 (fun i hi => h.lt i ?_) fun v hv => (h.feas v hv).2
    simp only [List.mem_append] at hi ⊢
    tauto

/-- The networks of the derivative program of a system: the program, and everything they are. -/
theorem derivativeNets_hold (L : Lyap K) (hL : L.NetOk) {R : Option (Tensor2 K)} {R' : Mat K} {xe : Vec K}
    (h : L.EqOk R R' xe) (lam eps : K) (et : EpsType) (lower upper : Option K) {sys : SysNets K}
    {Dom Rel : Vec K → Vec K → Prop} (hsys : SysEnc sys.constr L.dim Dom Rel) (hN : NetsHold sys L.dim) :
    ∃ D nets, L.derivativeNets sys xe lam eps et R lower upper .binary = some (D, nets) ∧
      L.derivative sys.constr xe lam eps et R lower upper .binary = some D ∧
      AllHold D.m (L.lyapNets D ++ nets) := by
  obtain ⟨D, hD, lx, lxn, -, -, -, m0, m1, w0, b1, b2, hs, hf, hn, nd, hle, mn, a1, a2⟩ :=
    derivative_program L hL h lam eps et lower upper hsys
  have hp := derivativeNets_fst L sys xe lam eps et R lower upper .binary
  rw [hD, Option.map_eq_some_iff] at hp
  obtain ⟨⟨D', nets⟩, h1, h2⟩ := hp
  simp only at h2
  subst h2
  refine ⟨D', nets, h1, hD, (lyapNets_hold L hL hn lx lxn).append ?_⟩
  unfold Lyap.derivativeNets at h1
  split_ifs at h1
  simp only [Option.bind_eq_bind, Option.bind_eq_some_iff, Option.some.injEq, Prod.mk.injEq] at h1
  obtain ⟨R2, -, tn, htn, tx, htx, d, hd, t, -, q, -, qn, -, m, -, u, -, m', -, h3, h4⟩ := h1
  rw [a1] at htn
  cases htn
  rw [a2] at htx
  cases htx
  subst h4
  have := hN m0 D'.x D'.xNext w0 lx lxn nd b1 b2 d hd
  refine this.mono ?_ ?_
  · simp only [SysNets.constr, hd, Option.map_some, Option.some.injEq, Prod.mk.injEq] at hs
    rw [hs.1]; exact hle
  · simp only [SysNets.constr, hd, Option.map_some, Option.some.injEq, Prod.mk.injEq] at hs
    rw [hs.1]; exact hf

end NNL.Model
