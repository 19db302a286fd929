import Verif.Lemmas.ReluSystem

/-!
# Systems given by networks: C49, C50
-/

set_option linter.unusedSectionVars false

namespace NNL.Props

open NNL NNL.Spec NNL.Model

variable {K : Type*} [Field K] [LinearOrder K] [IsStrictOrderedRing K]

/-- The shapes asserted by the constructors (relu_system.py 116-118, 206-208, 221, 314-316, 329) and the order
of the bounds. -/
structure AutoRelu.Ok (S : AutoRelu K) (n : ℕ) : Prop where
  net : S.net.Ok n
  out : S.net.last.W.length = n
  lo : S.xLo.length = n
  up : S.xUp.length = n
  le : ∀ i, i < n → S.xLo.getD i 0 ≤ S.xUp.getD i 0
  eq : S.xEq.length = n

/-- relu_system.py 430-444, 536-560: the same with an input of dimension `k`. -/
structure CtrlRelu.Ok (S : CtrlRelu K) (n k : ℕ) : Prop where
  net : S.net.Ok (n + k)
  out : S.net.last.W.length = n
  lo : S.xLo.length = n
  up : S.xUp.length = n
  le : ∀ i, i < n → S.xLo.getD i 0 ≤ S.xUp.getD i 0
  ulo : S.uLo.length = k
  uup : S.uUp.length = k
  eq : S.xEq.length = n
  ueq : S.uEq.length = k

/-- relu_system.py 651-685, 811-848: `n` velocities, hence `n` positions (other numbers of positions make
`torch.cat` fail). -/
structure SecondRelu.Ok (S : SecondRelu K) (n k : ℕ) : Prop where
  out : S.net.last.W.length = n
  lo : S.xLo.length = n + n
  up : S.xUp.length = n + n
  le : ∀ i, i < n + n → S.xLo.getD i 0 ≤ S.xUp.getD i 0
  ulo : S.uLo.length = k
  uup : S.uUp.length = k
  eq : S.qEq.length = n
  ueq : S.uEq.length = k

theorem net_len {net : Net K} {n : ℕ} (h : net.Ok n) (x : Vec K) : (net.eval x).length = net.last.W.length :=
  Lin.length_eval h.2 _

theorem vsub_self (a : Vec K) : vsub a a = zeros a.length := by
  refine vec_ext (by simp) fun i hi => ?_
  rw [getD_vsub _ _ _ rfl]
  simp

theorem zeros_vadd (a : Vec K) (n : ℕ) (h : a.length = n) : vadd (zeros n) a = a := by
  refine vec_ext (by simp [h]) fun i hi => ?_
  rw [getD_vadd _ _ _ (by simp [h])]
  simp

/-! ## C49 -/

/-- C49. `AutonomousReLUSystemGivenEquilibrium`. -/
theorem C49_auto {S : AutoRelu K} {n : ℕ} (h : AutoRelu.Ok S n) :
    S.stepEq S.xEq = if S.discrete then S.xEq else zeros n := by
  have e : vsub (S.net.eval S.xEq) (S.net.eval S.xEq) = zeros n := by
    rw [vsub_self, net_len h.net, h.out]
  unfold AutoRelu.stepEq
  rw [e, zeros_vadd _ _ h.eq]

/-- C49. `AutonomousResidualReLUSystemGivenEquilibrium`. -/
theorem C49_residual {S : AutoRelu K} {n : ℕ} (h : AutoRelu.Ok S n) :
    S.stepRes S.xEq = if S.discrete then S.xEq else zeros n := by
  have e : vsub (S.net.eval S.xEq) (S.net.eval S.xEq) = zeros n := by
    rw [vsub_self, net_len h.net, h.out]
  unfold AutoRelu.stepRes
  rw [e, zeros_vadd _ _ h.eq]

/-- C49. `ReLUSystemGivenEquilibrium`. -/
theorem C49_controlled {S : CtrlRelu K} {n k : ℕ} (h : CtrlRelu.Ok S n k) :
    S.stepEq S.xEq S.uEq = if S.discrete then S.xEq else zeros n := by
  have e : vsub (S.net.eval (S.xEq ++ S.uEq)) (S.net.eval (S.xEq ++ S.uEq)) = zeros n := by
    rw [vsub_self, net_len h.net, h.out]
  unfold CtrlRelu.stepEq
  simp only [e, zeros_vadd _ _ h.eq]

theorem SecondRelu.nq_eq {S : SecondRelu K} {n k : ℕ} (h : SecondRelu.Ok S n k) : S.nq = n ∧ S.nv = n := by
  have := h.out
  have := h.lo
  constructor
  · unfold SecondRelu.nq SecondRelu.nv
    omega
  · exact h.out

theorem vsmul_zeros (c : K) (n : ℕ) : vsmul c (zeros n) = zeros n := by
  simp [vsmul, zeros]

theorem vadd_zeros (a : Vec K) (n : ℕ) (h : a.length = n) : vadd a (zeros n) = a := by
  refine vec_ext (by simp [h]) fun i hi => ?_
  rw [getD_vadd _ _ _ (by simp [h])]
  simp

/-- C49. `ReLUSecondOrderSystemGivenEquilibrium`: the equilibrium is `[q*; 0]`. -/
theorem C49_second_order {S : SecondRelu K} {n k : ℕ} (h : SecondRelu.Ok S n k) (hn : S.net.Ok (n + n + k)) :
    S.step (S.qEq ++ zeros n) S.uEq = S.qEq ++ zeros n := by
  obtain ⟨h1, h2⟩ := SecondRelu.nq_eq h
  have e : vsub (S.net.eval (S.xEq ++ S.uEq)) (S.net.eval (S.xEq ++ S.uEq)) = zeros n := by
    rw [vsub_self, net_len hn, h.out]
  have q : S.xEq = S.qEq ++ zeros n := by rw [SecondRelu.xEq, h2]
  unfold SecondRelu.step
  rw [← q]
  simp only [e]
  rw [q, h1, List.take_append_of_le_length (by rw [h.eq]), List.drop_append_of_le_length (by rw [h.eq]),
    List.take_of_length_le (by rw [h.eq]), List.drop_of_length_le (by rw [h.eq]), List.nil_append,
    zeros_vadd _ _ (by simp), vsmul_zeros, vadd_zeros _ _ h.eq]

/-- C49. `ReLUSecondOrderResidueSystemGivenEquilibrium`. -/
theorem C49_second_order_residue {S : SecondRelu K} {n k : ℕ} (h : SecondRelu.Ok S n k)
    (hn : S.net.Ok (S.idx.length + k)) (hi : ∀ i ∈ S.idx, i < n + n) :
    S.stepRes (S.qEq ++ zeros n) S.uEq = some (S.qEq ++ zeros n) := by
  obtain ⟨h1, h2⟩ := SecondRelu.nq_eq h
  have q : S.xEq = S.qEq ++ zeros n := by rw [SecondRelu.xEq, h2]
  have hp : pick S.xEq S.idx = some (S.idx.map fun i => S.xEq.getD i 0) := by
    unfold pick
    rw [if_pos]
    intro i hh
    rw [q]
    simpa [h.eq] using hi i hh
  have ln : ∀ x, (S.net.eval x).length = n := fun x => by rw [net_len hn, h.out]
  unfold SecondRelu.stepRes
  rw [← q, hp]
  simp only [Option.bind_eq_bind, Option.bind_some]
  have e : ∀ w, vsub (vadd (zeros n) (S.net.eval w)) (S.net.eval w) = zeros n := by
    intro w
    rw [zeros_vadd _ _ (ln _), vsub_self, ln]
  rw [q, h1, List.take_append_of_le_length (by rw [h.eq]), List.drop_append_of_le_length (by rw [h.eq]),
    List.take_of_length_le (by rw [h.eq]), List.drop_of_length_le (by rw [h.eq]), List.nil_append,
    e, zeros_vadd _ _ (by simp), vsmul_zeros, vadd_zeros _ _ h.eq]

/-! ## C50, systems without input -/

theorem auto_out {S : AutoRelu K} {n : ℕ} (h : AutoRelu.Ok S n) {r : ReluMIC K}
    (hr : outputConstraint S.net S.xLo.length S.xLo S.xUp S.method = some r) {Ai : Option (Tensor2 K)}
    {C : Vec K} (hAi : ShapeIs Ai n n) (hC : C.length = n) {c' : MIC K}
    (hc' : c' = { r.mic with Aout_input := Ai, Aout_slack := some (netOut S.net), Cout := some C })
    (hm : MethodValid S.net S.xLo S.xUp S.method) (F : Vec K → Vec K) (hFl : ∀ x, x.length = n → (F x).length = n)
    (hF : ∀ x i, x.length = n → i < n → (F x).getD i 0 =
      dot (mrow Ai i) x + ((S.net.eval x).getD i 0 - S.net.last.b.getD i 0) + C.getD i 0) :
    c'.Ready n ∧ c'.numOut = n ∧ ∀ x y, x.length = n →
      ((∃ s z, c'.Feas x s z ∧ c'.out x s z = y) ↔ InBox S.xLo S.xUp x ∧ y = F x) := by
  rw [h.lo] at hr
  obtain ⟨-, -, hA, hC0, hAi0, hAb0, hOk⟩ := relu_fields hr h.net
  have hrows : (netOut S.net).rows.length = n := by simp [netOut, h.out]
  obtain ⟨h1, h2, h3⟩ := relu_mod hr h.net Ai (netOut S.net) C (by rwa [hrows]) rfl hOk (by rw [hC, hrows]) c' hc'
  rw [hrows] at h2
  refine ⟨h1, h2, fun x y hx => relu_mod_exact hr h.net hm h.lo h.up h3 hx fun z => ?_⟩
  rw [relu_mod_out hr h.net hc' (by rw [h2, hrows])]
  refine vec_ext (by rw [hFl x hx]; simp [hrows]) fun i hi => ?_
  have hi' : i < n := by simpa [hrows] using hi
  rw [hF x i hx hi', ← netOut_entry hr h.net hx i (by rw [h.out]; exact hi')]
  simp [hrows, hi', List.getD]

/-- C50. `AutonomousReLUSystem`: the constraints hold exactly when the state is in its box and the output is
`step_forward`; they can be added to a program. -/
theorem C50_auto {S : AutoRelu K} {n : ℕ} (h : AutoRelu.Ok S n) (hm : MethodValid S.net S.xLo S.xUp S.method)
    {r : ReluMIC K} (hr : S.mic = some r) :
    (∀ x y, x.length = n → ((∃ s z, r.mic.Feas x s z ∧ r.mic.out x s z = y) ↔
      InBox S.xLo S.xUp x ∧ y = S.net.eval x)) ∧
    SysEnc (addAuto S.mic) n (fun x y => InBox S.xLo S.xUp x ∧ y = S.step x) fun x y =>
      InBox S.xLo S.xUp x ∧ y = S.step x := by
  have hr' := hr
  unfold AutoRelu.mic at hr'
  rw [h.lo] at hr'
  have e : ∀ x y, x.length = n → ((∃ s z, r.mic.Feas x s z ∧ r.mic.out x s z = y) ↔
      InBox S.xLo S.xUp x ∧ y = S.net.eval x) := fun x y hx => C12_exact hr' h.net hm h.lo h.up hx
  obtain ⟨h1, h2, -⟩ := relu_fields hr' h.net
  exact ⟨e, addAuto_enc hr h1 (by rw [h2, h.out]) e⟩

/-- The steps, entry by entry. -/
theorem C50_auto_equilibrium_step {S : AutoRelu K} {n : ℕ} (h : AutoRelu.Ok S n) (x : Vec K) (hx : x.length = n) :
    (S.stepEq x).length = n ∧ (S.stepRes x).length = n ∧ ∀ i, i < n →
      (S.stepEq x).getD i 0 = (S.net.eval x).getD i 0 - (S.net.eval S.xEq).getD i 0 +
        (if S.discrete then S.xEq.getD i 0 else 0) ∧
      (S.stepRes x).getD i 0 = (S.net.eval x).getD i 0 - (S.net.eval S.xEq).getD i 0 +
        (if S.discrete then x.getD i 0 else 0) := by
  have ln : ∀ x, (S.net.eval x).length = n := fun x => by rw [net_len h.net, h.out]
  have l2 : (vsub (S.net.eval x) (S.net.eval S.xEq)).length = n := by simp [ln]
  unfold AutoRelu.stepEq AutoRelu.stepRes
  cases S.discrete with
  | false =>
    refine ⟨by simp [ln], by simp [ln], fun i hi => ?_⟩
    simp only [Bool.false_eq_true, if_false, add_zero]
    rw [getD_vsub _ _ _ (by rw [ln, ln])]
    exact ⟨rfl, rfl⟩
  | true =>
    refine ⟨by simp [ln, h.eq], by simp [ln, hx], fun i hi => ?_⟩
    simp only [if_true]
    rw [getD_vadd _ _ _ (by rw [l2, h.eq]), getD_vadd _ _ _ (by rw [l2, hx]), getD_vsub _ _ _ (by rw [ln, ln])]
    exact ⟨rfl, rfl⟩

/-- C50. `AutonomousReLUSystemGivenEquilibrium`. -/
theorem C50_auto_equilibrium {S : AutoRelu K} {n : ℕ} (h : AutoRelu.Ok S n)
    (hm : MethodValid S.net S.xLo S.xUp S.method) {r : ReluMIC K} (hr : S.micEq = some r) :
    (∀ x y, x.length = n → ((∃ s z, r.mic.Feas x s z ∧ r.mic.out x s z = y) ↔
      InBox S.xLo S.xUp x ∧ y = S.stepEq x)) ∧
    SysEnc (addAuto S.micEq) n (fun x y => InBox S.xLo S.xUp x ∧ y = S.stepEq x) fun x y =>
      InBox S.xLo S.xUp x ∧ y = S.stepEq x := by
  have hr0 := hr
  unfold AutoRelu.micEq at hr
  obtain ⟨r0, h0, hr1⟩ := Option.bind_eq_some_iff.1 hr
  obtain ⟨c, hc, hr2⟩ := Option.bind_eq_some_iff.1 hr1
  simp only [Option.some.injEq] at hr2
  have h0' := h0
  rw [h.lo] at h0'
  obtain ⟨-, -, hA, hC0, hAi0, hAb0, hOk⟩ := relu_fields h0' h.net
  have ln : ∀ x, (S.net.eval x).length = n := fun x => by rw [net_len h.net, h.out]
  have lb : S.net.last.b.length = n := by rw [h.net.2.2, h.out]
  set w := if S.discrete then vadd (vneg (S.net.eval S.xEq)) S.xEq else vneg (S.net.eval S.xEq) with hw
  have lw : w.length = n := by rw [hw]; split_ifs <;> simp [ln, h.eq]
  rw [addCout_eq hC0 (by rw [lb, lw])] at hc
  simp only [Option.some.injEq] at hc
  have hc' : r.mic = r0.mic.withOut (none) (some (netOut S.net)) (some (vadd S.net.last.b w)) := by
    rw [← hr2, ← hc]
    exact mic_eta hAi0 hA _
  obtain ⟨h1, h2, h3⟩ := auto_out h h0 (shapeIs_none _ _) (C := vadd S.net.last.b w) (by simp [lb, lw]) hc' hm
    S.stepEq (fun x hx => (C50_auto_equilibrium_step h x hx).1) (by
      intro x i hx hi
      rw [((C50_auto_equilibrium_step h x hx).2.2 i hi).1, getD_vadd _ _ _ (by rw [lb, lw]), hw]
      cases S.discrete with
      | false =>
        simp only [Bool.false_eq_true, if_false, getD_vneg, mrow, dot_nil_left]
        ring
      | true =>
        simp only [if_true, mrow, dot_nil_left]
        rw [getD_vadd _ _ _ (by simp [ln, h.eq]), getD_vneg]
        ring)
  exact ⟨h3, addAuto_enc hr0 h1 h2 h3⟩

theorem mrow_eye (n i : ℕ) (hi : i < n) (x : Vec K) (hx : x.length = n) :
    dot (mrow (some (⟨n, eye n⟩ : Tensor2 K)) i) x = x.getD i 0 := by
  simp only [mrow]
  rw [getD_eye n i hi, dot_eyeRow n i x hi]

theorem eye_ok (n : ℕ) : ShapeIs (some (⟨n, eye n⟩ : Tensor2 K)) n n := by
  intro M hM
  simp only [Option.some.injEq] at hM
  subst hM
  refine ⟨by simp, rfl, ?_⟩
  intro r hr
  simp only [eye, List.mem_map] at hr
  obtain ⟨i, -, rfl⟩ := hr
  simp

/-- C50. `AutonomousResidualReLUSystemGivenEquilibrium`. -/
theorem C50_auto_residual {S : AutoRelu K} {n : ℕ} (h : AutoRelu.Ok S n)
    (hm : MethodValid S.net S.xLo S.xUp S.method) {r : ReluMIC K} (hr : S.micRes = some r) :
    (∀ x y, x.length = n → ((∃ s z, r.mic.Feas x s z ∧ r.mic.out x s z = y) ↔
      InBox S.xLo S.xUp x ∧ y = S.stepRes x)) ∧
    SysEnc (addAuto S.micRes) n (fun x y => InBox S.xLo S.xUp x ∧ y = S.stepRes x) fun x y =>
      InBox S.xLo S.xUp x ∧ y = S.stepRes x := by
  have hr0 := hr
  unfold AutoRelu.micRes at hr
  obtain ⟨r0, h0, hr1⟩ := Option.bind_eq_some_iff.1 hr
  obtain ⟨c, hc, hr2⟩ := Option.bind_eq_some_iff.1 hr1
  have h0' := h0
  rw [h.lo] at h0'
  obtain ⟨-, -, hA, hC0, hAi0, hAb0, hOk⟩ := relu_fields h0' h.net
  have ln : ∀ x, (S.net.eval x).length = n := fun x => by rw [net_len h.net, h.out]
  have lb : S.net.last.b.length = n := by rw [h.net.2.2, h.out]
  set w := vneg (S.net.eval S.xEq) with hw
  have lw : w.length = n := by rw [hw]; simp [ln]
  rw [addCout_eq hC0 (by rw [lb, lw])] at hc
  simp only [Option.some.injEq] at hc
  have hst := C50_auto_equilibrium_step h
  cases hd : S.discrete with
  | false =>
    rw [hd] at hr2
    simp only [Bool.false_eq_true, if_false, Option.some.injEq] at hr2
    have hc' : r.mic = r0.mic.withOut (none) (some (netOut S.net)) (some (vadd S.net.last.b w)) := by
      rw [← hr2, ← hc]
      exact mic_eta hAi0 hA _
    obtain ⟨h1, h2, h3⟩ := auto_out h h0 (shapeIs_none _ _) (C := vadd S.net.last.b w) (by simp [lb, lw]) hc' hm
      S.stepRes (fun x hx => (hst x hx).2.1) (by
        intro x i hx hi
        rw [((hst x hx).2.2 i hi).2, getD_vadd _ _ _ (by rw [lb, lw]), hw, hd]
        simp only [Bool.false_eq_true, if_false, getD_vneg, mrow, dot_nil_left]
        ring)
    exact ⟨h3, addAuto_enc hr0 h1 h2 h3⟩
  | true =>
    rw [hd] at hr2
    have hci : c.Aout_input = none := by rw [← hc]; exact hAi0
    simp only [if_true, hci, Option.some.injEq, h.lo] at hr2
    have hc' : r.mic = r0.mic.withOut (some ⟨n, eye n⟩) (some (netOut S.net)) (some (vadd S.net.last.b w)) := by
      rw [← hr2, ← hc, ← hA]
    obtain ⟨h1, h2, h3⟩ := auto_out h h0 (eye_ok n) (C := vadd S.net.last.b w) (by simp [lb, lw]) hc' hm
      S.stepRes (fun x hx => (hst x hx).2.1) (by
        intro x i hx hi
        rw [((hst x hx).2.2 i hi).2, getD_vadd _ _ _ (by rw [lb, lw]), hw, hd, mrow_eye n i hi x hx]
        simp only [if_true, getD_vneg]
        ring)
    exact ⟨h3, addAuto_enc hr0 h1 h2 h3⟩

/-- The constraints exist (interval arithmetic, at least one hidden layer). -/
theorem C50_auto_accepts {S : AutoRelu K} {n : ℕ} (h : AutoRelu.Ok S n) (hm : S.method = .ia)
    (hh : S.net.hidden ≠ []) : S.mic.isSome ∧ S.micEq.isSome ∧ S.micRes.isSome := by
  obtain ⟨r, hr⟩ := Option.isSome_iff_exists.1
    ((C12_accepts S.net n S.xLo S.xUp h.net h.lo h.up h.le).2 hh)
  obtain ⟨-, -, hA, hC0, hAi0, hAb0, hOk⟩ := relu_fields hr h.net
  have ln : ∀ x, (S.net.eval x).length = n := fun x => by rw [net_len h.net, h.out]
  have lb : S.net.last.b.length = n := by rw [h.net.2.2, h.out]
  refine ⟨?_, ?_, ?_⟩
  · unfold AutoRelu.mic
    rw [h.lo, hm, hr]
    rfl
  · unfold AutoRelu.micEq
    rw [h.lo, hm, hr]
    simp only [Option.bind_eq_bind, Option.bind_some]
    rw [addCout_eq hC0 (by rw [lb]; split_ifs <;> simp [ln, h.eq])]
    rfl
  · unfold AutoRelu.micRes
    rw [h.lo, hm, hr]
    simp only [Option.bind_eq_bind, Option.bind_some]
    rw [addCout_eq hC0 (by rw [lb]; simp [ln])]
    simp only [Option.bind_some]
    split_ifs <;> rfl

theorem InBox_shift {lo up x a b c : Vec K} {n : ℕ} (h : InBox lo up x) (lx : x.length = n) (ha : a.length = n)
    (hb : b.length = n) (hc : c.length = n) (hab : ∀ i, i < n → a.getD i 0 ≤ c.getD i 0 ∧ c.getD i 0 ≤ b.getD i 0)
    (e : Vec K) (he : e.length = n) :
    InBox (vadd (vsub lo e) a) (vadd (vsub up e) b) (vadd (vsub x e) c) := by
  obtain ⟨h1, h2, h3⟩ := h
  refine ⟨by simp; omega, by simp; omega, fun i hi => ?_⟩
  have hi' : i < n := by simp at hi; omega
  have := h3 i (by omega)
  have := hab i hi'
  rw [getD_vadd _ _ _ (by simp; omega), getD_vadd _ _ _ (by simp; omega), getD_vadd _ _ _ (by simp; omega),
    getD_vsub _ _ _ (by omega), getD_vsub _ _ _ (by omega), getD_vsub _ _ _ (by omega)]
  constructor <;> linarith [h3 i (by omega)]

theorem InBox_sub {lo up x : Vec K} {n : ℕ} (h : InBox lo up x) (lx : x.length = n) (e : Vec K)
    (he : e.length = n) : InBox (vsub lo e) (vsub up e) (vsub x e) := by
  obtain ⟨h1, h2, h3⟩ := h
  refine ⟨by simp; omega, by simp; omega, fun i hi => ?_⟩
  have := h3 i (by simp at hi; omega)
  rw [getD_vsub _ _ _ (by omega), getD_vsub _ _ _ (by omega), getD_vsub _ _ _ (by omega)]
  constructor <;> linarith

/-- C50. The bounds of the next state that come with the constraints (`x_next_lb_IA`, `x_next_ub_IA`) hold for
every state of the box. -/
theorem C50_next_bounds {S : AutoRelu K} {n : ℕ} (h : AutoRelu.Ok S n)
    (hm : MethodValid S.net S.xLo S.xUp S.method) {r : ReluMIC K}
    (hr : outputConstraint S.net n S.xLo S.xUp S.method = some r) {x : Vec K} (hx : InBox S.xLo S.xUp x) :
    InBox (AutoRelu.nextBounds r).1 (AutoRelu.nextBounds r).2 (S.step x) ∧
      InBox (S.nextBoundsEq r).1 (S.nextBoundsEq r).2 (S.stepEq x) ∧
      InBox (S.nextBoundsRes r).1 (S.nextBoundsRes r).2 (S.stepRes x) := by
  have hb := (C11_bounds_sound hr h.net hm hx).2.2
  have ln : ∀ x, (S.net.eval x).length = n := fun x => by rw [net_len h.net, h.out]
  have lx : x.length = n := by rw [hx.1, h.lo]
  refine ⟨hb, ?_, ?_⟩
  · unfold AutoRelu.nextBoundsEq AutoRelu.stepEq
    cases S.discrete with
    | false => simpa using InBox_sub hb (ln _) _ (ln _)
    | true => simpa using InBox_shift hb (ln _) h.eq h.eq h.eq (fun i _ => ⟨le_rfl, le_rfl⟩) _ (ln _)
  · unfold AutoRelu.nextBoundsRes AutoRelu.stepRes
    cases S.discrete with
    | false => simpa using InBox_sub hb (ln _) _ (ln _)
    | true => simpa using InBox_shift hb (ln _) h.lo h.up lx (fun i hi => hx.2.2 i (by omega)) _ (ln _)

/-- The three constraint sets carry the same bounds. -/
theorem C50_same_bounds {S : AutoRelu K} {r : ReluMIC K} :
    (S.micEq = some r → ∃ r0, S.mic = some r0 ∧ S.nextBoundsEq r = S.nextBoundsEq r0) ∧
      (S.micRes = some r → ∃ r0, S.mic = some r0 ∧ S.nextBoundsRes r = S.nextBoundsRes r0) := by
  constructor
  · intro h
    obtain ⟨r0, h0, h⟩ := Option.bind_eq_some_iff.1 h
    obtain ⟨c, hc, h⟩ := Option.bind_eq_some_iff.1 h
    simp only [Option.some.injEq] at h
    subst h
    exact ⟨r0, h0, rfl⟩
  · intro h
    obtain ⟨r0, h0, h⟩ := Option.bind_eq_some_iff.1 h
    obtain ⟨c, hc, h⟩ := Option.bind_eq_some_iff.1 h
    refine ⟨r0, h0, ?_⟩
    split_ifs at h <;> simp only [Option.some.injEq] at h <;> subst h <;> rfl

/-! ## C50, systems with input -/

/-- The input respects the bounds of the system and the additional bounds. -/
def InU (uLo uUp : Vec K) (aLo aUp : Option (Vec K)) (u : Vec K) : Prop :=
  InBox uLo uUp u ∧ (∀ l, aLo = some l → ∀ i, i < u.length → l.getD i 0 ≤ u.getD i 0) ∧
    ∀ l, aUp = some l → ∀ i, i < u.length → u.getD i 0 ≤ l.getD i 0

/-- Additional input bounds of the right length that leave some input. -/
def UsableU (uLo uUp : Vec K) (aLo aUp : Option (Vec K)) : Prop :=
  (∀ l, aLo = some l → l.length = uLo.length) ∧ (∀ l, aUp = some l → l.length = uUp.length) ∧
    ∃ u, InU uLo uUp aLo aUp u

theorem tightenU_exact {uLo uUp : Vec K} {aLo aUp : Option (Vec K)} {k : ℕ} (l1 : uLo.length = k)
    (l2 : uUp.length = k) (h : UsableU uLo uUp aLo aUp) :
    ∃ lo up, tightenU max uLo aLo = some lo ∧ tightenU min uUp aUp = some up ∧ lo.length = k ∧ up.length = k ∧
      (∀ i, i < k → lo.getD i 0 ≤ up.getD i 0) ∧ ∀ u, u.length = k → (InBox lo up u ↔ InU uLo uUp aLo aUp u) := by
  obtain ⟨h1, h2, u0, hu0⟩ := h
  have g : ∀ (f : K → K → K) (a b : Vec K) i, i < a.length → i < b.length →
      (List.zipWith f a b).getD i 0 = f (a.getD i 0) (b.getD i 0) := by
    intro f a b i hi hj
    simp [List.getD, hi, hj]
  obtain ⟨lo, hlo, ll, el⟩ : ∃ lo, tightenU max uLo aLo = some lo ∧ lo.length = k ∧ ∀ i, i < k → ∀ v : K,
      lo.getD i 0 ≤ v ↔ uLo.getD i 0 ≤ v ∧ ∀ l, aLo = some l → l.getD i 0 ≤ v := by
    cases aLo with
    | none => exact ⟨uLo, rfl, l1, by simp⟩
    | some a =>
      have la := h1 a rfl
      refine ⟨List.zipWith max uLo a, by simp [tightenU, la], by simp [la, l1], fun i hi v => ?_⟩
      rw [g _ _ _ _ (by omega) (by omega), max_le_iff]
      simp
  obtain ⟨up, hup, lu, eu⟩ : ∃ up, tightenU min uUp aUp = some up ∧ up.length = k ∧ ∀ i, i < k → ∀ v : K,
      v ≤ up.getD i 0 ↔ v ≤ uUp.getD i 0 ∧ ∀ l, aUp = some l → v ≤ l.getD i 0 := by
    cases aUp with
    | none => exact ⟨uUp, rfl, l2, by simp⟩
    | some a =>
      have la := h2 a rfl
      refine ⟨List.zipWith min uUp a, by simp [tightenU, la], by simp [la, l2], fun i hi v => ?_⟩
      rw [g _ _ _ _ (by omega) (by omega), le_min_iff]
      simp
  have key : ∀ u, u.length = k → (InBox lo up u ↔ InU uLo uUp aLo aUp u) := by
    intro u lu'
    constructor
    · rintro ⟨-, -, h⟩
      have q : ∀ i, i < u.length → _ := fun i hi => And.intro ((el i (by omega) _).1 (h i hi).1)
        ((eu i (by omega) _).1 (h i hi).2)
      exact ⟨⟨by omega, by omega, fun i hi => ⟨(q i hi).1.1, (q i hi).2.1⟩⟩,
        fun l hl i hi => (q i hi).1.2 l hl, fun l hl i hi => (q i hi).2.2 l hl⟩
    · rintro ⟨⟨-, -, h⟩, h3, h4⟩
      exact ⟨by omega, by omega, fun i hi => ⟨(el i (by omega) _).2 ⟨(h i hi).1, fun l hl => h3 l hl i hi⟩,
        (eu i (by omega) _).2 ⟨(h i hi).2, fun l hl => h4 l hl i hi⟩⟩⟩
  refine ⟨lo, up, hlo, hup, ll, lu, fun i hi => ?_, key⟩
  have l0 : u0.length = k := by rw [hu0.1.1, l1]
  have := ((key u0 l0).2 hu0).2.2 i (by omega)
  exact this.1.trans this.2

/-- Data for the encodings with input: bounds, constraints and their exactness. -/
theorem ctrl_net {net : Net K} {n k : ℕ} {xLo xUp uLo uUp : Vec K} (hok : net.Ok (n + k)) (hh : net.hidden ≠ [])
    (lx : xLo.length = n) (ux : xUp.length = n) (le : ∀ i, i < n → xLo.getD i 0 ≤ xUp.getD i 0)
    (l1 : uLo.length = k) (l2 : uUp.length = k) {aLo aUp : Option (Vec K)} (h : UsableU uLo uUp aLo aUp) :
    ∃ lo up r, tightenU max uLo aLo = some lo ∧ tightenU min uUp aUp = some up ∧
      outputConstraint net (n + k) (xLo ++ lo) (xUp ++ up) .ia = some r ∧ (xLo ++ lo).length = n + k ∧
      (xUp ++ up).length = n + k ∧
      ∀ x u, x.length = n → u.length = k →
        (InBox (xLo ++ lo) (xUp ++ up) (x ++ u) ↔ InBox xLo xUp x ∧ InU uLo uUp aLo aUp u) := by
  obtain ⟨lo, up, h1, h2, h3, h4, h5, h6⟩ := tightenU_exact l1 l2 h
  obtain ⟨r, hr⟩ := Option.isSome_iff_exists.1 ((C12_accepts net (n + k) (xLo ++ lo) (xUp ++ up) hok
    (by simp [lx, h3]) (by simp [ux, h4]) (by
      intro i hi
      by_cases hlt : i < n
      · rw [getD_append_lt _ _ _ _ (by omega), getD_append_lt _ _ _ _ (by omega)]
        exact le i hlt
      · obtain ⟨j, rfl⟩ : ∃ j, i = n + j := ⟨i - n, by omega⟩
        have e1 : (xLo ++ lo).getD (n + j) 0 = lo.getD j 0 := by rw [← lx, getD_append_add]
        have e2 : (xUp ++ up).getD (n + j) 0 = up.getD j 0 := by rw [← ux, getD_append_add]
        rw [e1, e2]
        exact h5 j (by omega))).2 hh)
  refine ⟨lo, up, r, h1, h2, hr, by simp [lx, h3], by simp [ux, h4], fun x u hx hu => ?_⟩
  rw [InBox_append (by omega) (by omega) (by omega) (by omega), h6 u hu]

/-- C50. `ReLUSystem`: exactly `step_forward`, for states in their box and inputs within all bounds. -/
theorem C50_controlled {S : CtrlRelu K} {n k : ℕ} (h : CtrlRelu.Ok S n k) (hh : S.net.hidden ≠ []) :
    CtrlEnc (addCtrl S.uLo S.uUp S.mic) n k (UsableU S.uLo S.uUp) fun aLo aUp x u y =>
      InBox S.xLo S.xUp x ∧ InU S.uLo S.uUp aLo aUp u ∧ y = S.step x u := by
  refine addCtrl_enc fun aLo aUp hP => ?_
  obtain ⟨lo, up, r, h1, h2, hr, b1, b2, hb⟩ := ctrl_net h.net hh h.lo h.up h.le h.ulo h.uup hP
  obtain ⟨f1, f2, -⟩ := relu_fields hr h.net
  refine ⟨lo, up, r, h1, h2, ?_, f1, by rw [f2, h.out], fun x u y hx hu => ?_⟩
  · unfold CtrlRelu.mic
    rw [h.lo, h.ulo]
    exact hr
  · rw [C12_exact hr h.net trivial b1 b2 (by simp [hx, hu]), hb x u hx hu, and_assoc]
    rfl

theorem ctrl_step {S : CtrlRelu K} {n k : ℕ} (h : CtrlRelu.Ok S n k) (x u : Vec K) :
    (S.stepEq x u).length = n ∧ ∀ i, i < n → (S.stepEq x u).getD i 0 =
      (S.net.eval (x ++ u)).getD i 0 - (S.net.eval (S.xEq ++ S.uEq)).getD i 0 +
        (if S.discrete then S.xEq.getD i 0 else 0) := by
  have ln : ∀ x, (S.net.eval x).length = n := fun x => by rw [net_len h.net, h.out]
  unfold CtrlRelu.stepEq
  cases S.discrete with
  | false =>
    refine ⟨by simp [ln], fun i hi => ?_⟩
    simp only [Bool.false_eq_true, if_false, add_zero]
    rw [getD_vsub _ _ _ (by rw [ln, ln])]
  | true =>
    refine ⟨by simp [ln, h.eq], fun i hi => ?_⟩
    simp only [if_true]
    rw [getD_vadd _ _ _ (by simp [ln, h.eq]), getD_vsub _ _ _ (by rw [ln, ln])]

/-- `ReLUSystemGivenEquilibrium.step_forward`, entry by entry. -/
theorem C50_controlled_equilibrium_step {S : CtrlRelu K} {n k : ℕ} (h : CtrlRelu.Ok S n k) (x u : Vec K) (i : ℕ)
    (hi : i < n) : (S.stepEq x u).getD i 0 =
      (S.net.eval (x ++ u)).getD i 0 - (S.net.eval (S.xEq ++ S.uEq)).getD i 0 +
        (if S.discrete then S.xEq.getD i 0 else 0) := (ctrl_step h x u).2 i hi

/-- C50. `ReLUSystemGivenEquilibrium`. -/
theorem C50_controlled_equilibrium {S : CtrlRelu K} {n k : ℕ} (h : CtrlRelu.Ok S n k) (hh : S.net.hidden ≠ []) :
    CtrlEnc (addCtrl S.uLo S.uUp S.micEq) n k (UsableU S.uLo S.uUp) fun aLo aUp x u y =>
      InBox S.xLo S.xUp x ∧ InU S.uLo S.uUp aLo aUp u ∧ y = S.stepEq x u := by
  refine addCtrl_enc fun aLo aUp hP => ?_
  obtain ⟨lo, up, r, h1, h2, hr, b1, b2, hb⟩ := ctrl_net h.net hh h.lo h.up h.le h.ulo h.uup hP
  obtain ⟨f1, f2, hA, hC0, hAi0, hAb0, hOk⟩ := relu_fields hr h.net
  have ln : ∀ x, (S.net.eval x).length = n := fun x => by rw [net_len h.net, h.out]
  have lb : S.net.last.b.length = n := by rw [h.net.2.2, h.out]
  have hrows : (netOut S.net).rows.length = n := by simp [netOut, h.out]
  set e := S.net.eval (S.xEq ++ S.uEq) with he
  obtain ⟨C, c, lC, eC, hc, hmic⟩ : ∃ (C : Vec K) (c : MIC K), C.length = n ∧
      (∀ i, i < n → C.getD i 0 = S.net.last.b.getD i 0 - e.getD i 0 + (if S.discrete then S.xEq.getD i 0 else 0)) ∧
      c = r.mic.withOut none (some (netOut S.net)) (some C) ∧
      S.micEq (some lo) (some up) = some { r with mic := c } := by
    have q1 : addCout r.mic (vneg e) = some { r.mic with Cout := some (vadd S.net.last.b (vneg e)) } :=
      addCout_eq hC0 (by simp [lb, he, ln])
    cases hd : S.discrete with
    | false =>
      refine ⟨vadd S.net.last.b (vneg e), _, by simp [lb, he, ln], fun i hi => ?_, mic_eta hAi0 hA _, ?_⟩
      · rw [getD_vadd _ _ _ (by simp [lb, he, ln]), getD_vneg]
        simp only [Bool.false_eq_true, if_false]
        ring
      · unfold CtrlRelu.micEq
        simp only [Option.getD_some, h.lo, h.ulo, hr, ← he, Option.bind_eq_bind, Option.bind_some, q1, hd,
          Bool.false_eq_true, if_false]
    | true =>
      refine ⟨vadd (vadd S.net.last.b (vneg e)) S.xEq, _, by simp [lb, he, ln, h.eq], fun i hi => ?_,
        mic_eta hAi0 hA _, ?_⟩
      · rw [getD_vadd _ _ _ (by simp [lb, he, ln, h.eq]), getD_vadd _ _ _ (by simp [lb, he, ln]), getD_vneg]
        simp only [if_true]
        ring
      · unfold CtrlRelu.micEq
        simp only [Option.getD_some, h.lo, h.ulo, hr, ← he, Option.bind_eq_bind, Option.bind_some, q1, hd,
          if_true]
        rw [addCout_eq (c := { r.mic with Cout := some (vadd S.net.last.b (vneg e)) }) rfl
          (by simp [lb, he, ln, h.eq])]
        rfl
  obtain ⟨g1, g2, g3⟩ := relu_mod hr h.net none (netOut S.net) C (shapeIs_none _ _) rfl hOk (by rw [lC, hrows]) c hc
  refine ⟨lo, up, _, h1, h2, hmic, g1, by rw [← hrows]; exact g2, fun x u y hx hu => ?_⟩
  have lxu : (x ++ u).length = n + k := by simp [hx, hu]
  rw [relu_mod_exact hr h.net trivial b1 b2 g3 lxu (F := S.stepEq x u) ?_, hb x u hx hu, and_assoc]
  intro z
  rw [relu_mod_out hr h.net hc g2]
  have hs := ctrl_step h x u
  refine vec_ext (by rw [hs.1]; simp [hrows]) fun i hi => ?_
  have hi' : i < n := by simpa [hrows] using hi
  rw [hs.2 i hi', ← netOut_entry hr h.net lxu i (by rw [h.out]; exact hi')]
  have := eC i hi'
  simp only [hrows]
  simp [hi', List.getD, mrow] at this ⊢
  rw [this]
  ring

/-! ## C50, second order -/

theorem step_len {S : SecondRelu K} {n k : ℕ} (h : SecondRelu.Ok S n k) (hn : S.net.Ok (n + n + k)) (x u : Vec K)
    (hx : x.length = n + n) : (S.step x u).length = n + n ∧ ∀ i, i < n →
      (S.step x u).getD i 0 = x.getD i 0 + S.dt / 2 * (x.getD (n + i) 0 +
        ((S.net.eval (x ++ u)).getD i 0 - (S.net.eval (S.xEq ++ S.uEq)).getD i 0)) ∧
      (S.step x u).getD (n + i) 0 =
        (S.net.eval (x ++ u)).getD i 0 - (S.net.eval (S.xEq ++ S.uEq)).getD i 0 := by
  obtain ⟨h1, h2⟩ := SecondRelu.nq_eq h
  have ln : ∀ x, (S.net.eval x).length = n := fun x => by rw [net_len hn, h.out]
  unfold SecondRelu.step
  rw [h1]
  have lq : (vadd (x.take n) (vsmul (S.dt / 2) (vadd (x.drop n)
      (vsub (S.net.eval (x ++ u)) (S.net.eval (S.xEq ++ S.uEq)))))).length = n := by simp [ln, hx]
  refine ⟨by simp [ln, hx], fun i hi => ⟨?_, ?_⟩⟩
  · rw [getD_append_lt _ _ _ _ (by omega), getD_vadd _ _ _ (by simp [ln, hx]), getD_vsmul,
      getD_vadd _ _ _ (by simp [ln, hx]), getD_vsub _ _ _ (by simp [ln]), getD_take _ _ _ hi, getD_drop]
  · have : ∀ (a b : Vec K), a.length = n → (a ++ b).getD (n + i) 0 = b.getD i 0 := by
      intro a b ha
      rw [← ha, getD_append_add]
    rw [this _ _ lq, getD_vsub _ _ _ (by simp [ln])]

/-- C50. `ReLUSecondOrderSystemGivenEquilibrium.step_forward`: the velocity is the network output relative to the
equilibrium, the position follows by the trapezoid rule. -/
theorem C50_second_order_step {S : SecondRelu K} {n k : ℕ} (h : SecondRelu.Ok S n k) (hn : S.net.Ok (n + n + k))
    (x u : Vec K) (hx : x.length = n + n) (i : ℕ) (hi : i < n) :
    (S.step x u).getD (n + i) 0 =
        (S.net.eval (x ++ u)).getD i 0 - (S.net.eval (S.qEq ++ zeros n ++ S.uEq)).getD i 0 ∧
      (S.step x u).getD i 0 = x.getD i 0 + S.dt / 2 * (x.getD (n + i) 0 + (S.step x u).getD (n + i) 0) := by
  have := (step_len h hn x u hx).2 i hi
  rw [this.1, this.2, SecondRelu.xEq, (SecondRelu.nq_eq h).2]
  exact ⟨rfl, rfl⟩

/-- C50. `ReLUSecondOrderSystemGivenEquilibrium`: the constraints are exactly `step_forward`. -/
theorem C50_second_order {S : SecondRelu K} {n k : ℕ} (h : SecondRelu.Ok S n k) (hn : S.net.Ok (n + n + k))
    (hh : S.net.hidden ≠ []) :
    CtrlEnc (addCtrl S.uLo S.uUp S.mic) (n + n) k (UsableU S.uLo S.uUp) fun aLo aUp x u y =>
      InBox S.xLo S.xUp x ∧ InU S.uLo S.uUp aLo aUp u ∧ y = S.step x u := by
  refine addCtrl_enc fun aLo aUp hP => ?_
  obtain ⟨lo, up, r, h1, h2, hr, b1, b2, hb⟩ := ctrl_net hn hh h.lo h.up h.le h.ulo h.uup hP
  obtain ⟨f1, f2, hA, hC0, hAi0, hAb0, hOk⟩ := relu_fields hr hn
  have ln : ∀ x, (S.net.eval x).length = n := fun x => by rw [net_len hn, h.out]
  have lb : S.net.last.b.length = n := by rw [hn.2.2, h.out]
  have hrows : (netOut S.net).rows.length = n := by simp [netOut, h.out]
  obtain ⟨hq, hv⟩ := SecondRelu.nq_eq h
  set e := S.net.eval (S.xEq ++ S.uEq) with he
  set C0 := vadd S.net.last.b (vneg e) with hC
  have lC0 : C0.length = n := by rw [hC]; simp [lb, he, ln]
  have eC0 : ∀ i, C0.getD i 0 = S.net.last.b.getD i 0 - e.getD i 0 := fun i => by
    rw [hC, getD_vadd _ _ _ (by simp [lb, he, ln]), getD_vneg]
    ring
  have q1 : addCout r.mic (vneg e) = some { r.mic with Cout := some C0 } := addCout_eq hC0 (by simp [lb, he, ln])
  set top := (List.range n).map (fun i =>
        eyeRow n i ++ vsmul (S.dt / 2) (eyeRow n i) ++ (zeros k : Vec K)) with htop
  set Ai : Tensor2 K := ⟨n + n + k, top ++ zerosM n (n + n + k)⟩ with hAi
  set As : Tensor2 K := ⟨(netOut S.net).cols, (netOut S.net).rows.map (fun r => vsmul (S.dt / 2) r)
    ++ (netOut S.net).rows⟩ with hAs
  set C := vsmul (S.dt / 2) C0 ++ C0 with hCC
  have hso : S.secondOut (netOut S.net) C0 = some (Ai, As, C) := by
    unfold SecondRelu.secondOut
    rw [hq, hv, if_pos rfl, h.lo, h.ulo]
  have hmic : S.mic (some lo) (some up) = some { r with mic := r.mic.withOut (some Ai) (some As) (some C) } := by
    unfold SecondRelu.mic
    simp only [Option.getD_some, h.lo, h.ulo, hr, ← he, Option.bind_eq_bind, Option.bind_some, q1, hA, hso]
  have lAs : As.rows.length = n + n := by simp [hAs, hrows]
  have lC : C.length = n + n := by simp [hCC, lC0]
  have ltop : top.length = n := by simp [htop]
  obtain ⟨g1, g2, g3⟩ := relu_mod hr hn (some Ai) As C
    (by
      intro M hM
      simp only [Option.some.injEq] at hM
      subst hM
      refine ⟨by simp [hAi, ltop, zerosM, lAs], rfl, ?_⟩
      intro row hrow
      simp only [hAi, List.mem_append, htop, List.mem_map, zerosM, List.mem_replicate] at hrow
      rcases hrow with ⟨i, -, rfl⟩ | ⟨-, rfl⟩
      · simp [hAi]
        omega
      · simp [hAi])
    rfl
    (by
      intro row hrow
      simp only [hAs, List.mem_append, List.mem_map] at hrow
      rcases hrow with ⟨i, hi, rfl⟩ | hi
      · simpa using hOk _ hi
      · exact hOk _ hi)
    (by rw [lC, lAs]) _ rfl
  refine ⟨lo, up, _, h1, h2, hmic, g1, by rw [← lAs]; exact g2, fun x u y hx hu => ?_⟩
  have lxu : (x ++ u).length = n + n + k := by simp [hx, hu]
  rw [relu_mod_exact hr hn trivial b1 b2 g3 lxu (F := S.step x u) ?_, hb x u hx hu, and_assoc]
  intro z
  rw [relu_mod_out hr hn rfl g2]
  have hs := step_len h hn x u hx
  refine vec_ext (by rw [hs.1]; simp [lAs]) fun i hi => ?_
  have hi' : i < n + n := by simpa [lAs] using hi
  have ent : ∀ f : ℕ → K, ((List.range As.rows.length).map f).getD i 0 = f i := by
    intro f
    rw [lAs]
    simp [List.getD, hi']
  rw [ent]
  by_cases hlt : i < n
  · have r1 : mrow (some Ai) i = eyeRow n i ++ vsmul (S.dt / 2) (eyeRow n i) ++ zeros k := by
      simp only [mrow, hAi]
      rw [getD_append_lt _ _ _ _ (by omega), htop]
      simp [List.getD, hlt]
    have r2 : As.rows.getD i [] = vsmul (S.dt / 2) ((netOut S.net).rows.getD i []) := by
      simp only [hAs]
      rw [getD_append_lt _ _ _ _ (by simp; omega)]
      simp [List.getD, hrows, hlt]
    have r3 : C.getD i 0 = S.dt / 2 * C0.getD i 0 := by
      rw [hCC, getD_append_lt _ _ _ _ (by simp; omega), getD_vsmul]
    have r4 : dot (eyeRow n i ++ vsmul (S.dt / 2) (eyeRow n i) ++ zeros k) (x ++ u)
        = x.getD i 0 + S.dt / 2 * x.getD (n + i) 0 := by
      rw [dot_append _ _ _ _ (by simp [hx]), dot_zeros_left, add_zero]
      conv_lhs => rw [← List.take_append_drop n x]
      rw [dot_append _ _ _ _ (by simp [hx]), dot_vsmul_left, dot_eyeRow _ _ _ hlt, dot_eyeRow _ _ _ hlt,
        getD_take _ _ _ hlt, getD_drop]
    rw [r1, r2, r3, r4, dot_vsmul_left, eC0, (hs.2 i hlt).1,
      ← netOut_entry hr hn lxu i (by rw [h.out]; exact hlt)]
    ring
  · obtain ⟨j, rfl⟩ : ∃ j, i = n + j := ⟨i - n, by omega⟩
    have hj : j < n := by omega
    have r1 : dot (mrow (some Ai) (n + j)) (x ++ u) = 0 := by
      simp only [mrow, hAi]
      have : (top ++ zerosM n (n + n + k)).getD (n + j) [] = zeros (n + n + k) := by
        rw [← ltop, getD_append_add]
        simp [zerosM, List.getD, ltop, hj]
      rw [this, dot_zeros_left]
    have r2 : As.rows.getD (n + j) [] = (netOut S.net).rows.getD j [] := by
      simp only [hAs]
      have : ((netOut S.net).rows.map (fun r => vsmul (S.dt / 2) r)).length = n := by simp [hrows]
      conv_lhs => rw [← this, getD_append_add]
    have r3 : C.getD (n + j) 0 = C0.getD j 0 := by
      have : (vsmul (S.dt / 2) C0).length = n := by simp [lC0]
      rw [hCC]
      conv_lhs => rw [← this, getD_append_add]
    rw [r1, r2, r3, eC0, (hs.2 j hj).2, ← netOut_entry hr hn lxu j (by rw [h.out]; exact hj)]
    ring

theorem getD_add_of_len {α : Type*} {a b : List α} {n i : ℕ} {d : α} (h : a.length = n) :
    (a ++ b).getD (n + i) d = b.getD i d := by
  rw [← h, getD_append_add]

/-- C50. `ReLUSecondOrderResidueSystemGivenEquilibrium.step_forward`: the network gives the change of the velocity
relative to the equilibrium, the position follows by the trapezoid rule. -/
theorem C50_residue_step {S : SecondRelu K} {n k : ℕ} (h : SecondRelu.Ok S n k)
    (hn : S.net.Ok (S.idx.length + k)) (hi : ∀ i ∈ S.idx, i < n + n) (x u y : Vec K) (hx : x.length = n + n) :
    S.stepRes x u = some y ↔ y.length = n + n ∧ ∀ i, i < n →
      y.getD (n + i) 0 = x.getD (n + i) 0 + (S.net.eval (S.idx.map (fun j => x.getD j 0) ++ u)).getD i 0 -
          (S.net.eval (S.idx.map (fun j => (S.qEq ++ zeros n).getD j 0) ++ S.uEq)).getD i 0 ∧
        y.getD i 0 = x.getD i 0 + S.dt / 2 * (x.getD (n + i) 0 + y.getD (n + i) 0) := by
  obtain ⟨h1, h2⟩ := SecondRelu.nq_eq h
  have ln : ∀ x, (S.net.eval x).length = n := fun x => by rw [net_len hn, h.out]
  have p1 : pick x S.idx = some (S.idx.map fun j => x.getD j 0) := by
    unfold pick
    rw [if_pos (by rw [hx]; exact hi)]
  have p2 : pick S.xEq S.idx = some (S.idx.map fun j => (S.qEq ++ zeros n).getD j 0) := by
    unfold pick SecondRelu.xEq
    rw [h2, if_pos (by simpa [h.eq] using hi)]
  unfold SecondRelu.stepRes
  rw [p1, p2, h1]
  simp only [Option.bind_eq_bind, Option.bind_some, Option.some.injEq]
  set f := S.net.eval (S.idx.map (fun j => x.getD j 0) ++ u) with hf
  set e := S.net.eval (S.idx.map (fun j => (S.qEq ++ zeros n).getD j 0) ++ S.uEq) with he
  have lf : f.length = n := ln _
  have le' : e.length = n := ln _
  set w := vsub (vadd (x.drop n) f) e with hw
  have lw : w.length = n := by simp [hw, lf, le', hx]
  have ew : ∀ i, w.getD i 0 = x.getD (n + i) 0 + f.getD i 0 - e.getD i 0 := fun i => by
    rw [hw, getD_vsub _ _ _ (by simp [lf, le', hx]), getD_vadd _ _ _ (by simp [lf, hx]), getD_drop]
  set q := vadd (x.take n) (vsmul (S.dt / 2) (vadd (x.drop n) w)) with hq
  have lq : q.length = n := by simp [hq, lw, hx]
  have eq : ∀ i, i < n → q.getD i 0 = x.getD i 0 + S.dt / 2 * (x.getD (n + i) 0 + w.getD i 0) := fun i hi => by
    rw [hq, getD_vadd _ _ _ (by simp [lw, hx]), getD_vsmul, getD_vadd _ _ _ (by simp [lw, hx]), getD_drop,
      getD_take _ _ _ hi]
  constructor
  · rintro rfl
    refine ⟨by simp [lq, lw], fun i hi => ?_⟩
    rw [getD_add_of_len lq, getD_append_lt _ _ _ _ (by omega), eq i hi]
    exact ⟨ew i, rfl⟩
  · rintro ⟨ly, hy⟩
    refine vec_ext (by simp [lq, lw, ly]) fun i hi => ?_
    by_cases hlt : i < n
    · rw [getD_append_lt _ _ _ _ (by omega), eq i hlt, ew, (hy i hlt).2, (hy i hlt).1]
    · obtain ⟨j, rfl⟩ : ∃ j, i = n + j := ⟨i - n, by omega⟩
      have hj : j < n := by simp [lq, lw] at hi; omega
      rw [getD_add_of_len lq, ew, (hy j hj).1]

theorem eye_hasCols (n : ℕ) : ∀ r ∈ (eye n : Mat K), r.length = n := by
  intro r hr
  simp only [eye, List.mem_map] at hr
  obtain ⟨i, -, rfl⟩ := hr
  simp

theorem dot_map_eye (f : Vec K → Vec K) (n i : ℕ) (hi : i < n) (x : Vec K) :
    dot (((eye n).map f).getD i []) x = dot (f (eyeRow n i)) x := by
  have : ((eye n).map f).getD i [] = f (eyeRow n i) := by
    simp [eye, List.getD, hi]
  rw [this]

/-- C50. `ReLUSecondOrderResidueSystemGivenEquilibrium.add_dynamics_constraint` (interval arithmetic): exactly
`step_forward`, for inputs within all bounds and states whose coordinates fed to the network are in their box.
The other coordinates are not restricted. -/
theorem C50_residue {S : SecondRelu K} {n k : ℕ} (h : SecondRelu.Ok S n k) (hn : S.net.Ok (S.idx.length + k))
    (hi : ∀ i ∈ S.idx, i < n + n) (hh : S.net.hidden ≠ []) (hm : S.method = .ia) :
    CtrlEnc S.addResidue (n + n) k (UsableU S.uLo S.uUp) fun aLo aUp x u y =>
      (∀ i ∈ S.idx, S.xLo.getD i 0 ≤ x.getD i 0 ∧ x.getD i 0 ≤ S.xUp.getD i 0) ∧ InU S.uLo S.uUp aLo aUp u ∧
        S.stepRes x u = some y := by
  intro m x xn u aLo aUp hw lx lxn lu hx hxn hu hP
  obtain ⟨hq, hv⟩ := SecondRelu.nq_eq h
  set L := S.idx.map (fun i => S.xLo.getD i 0) with hL
  set U := S.idx.map (fun i => S.xUp.getD i 0) with hU
  obtain ⟨lo, up, r, h1, h2, hr, b1, b2, hb⟩ := ctrl_net (xLo := L) (xUp := U) hn hh (by simp [hL]) (by simp [hU])
    (by
      intro i hi'
      have := h.le _ (hi _ (List.getElem_mem (l := S.idx) hi'))
      simpa [hL, hU, List.getD, hi'] using this) h.ulo h.uup hP
  have hbox : ∀ x u : Vec K, u.length = k →
      (InBox (L ++ lo) (U ++ up) (S.idx.map (fun i => x.getD i 0) ++ u) ↔
        (∀ i ∈ S.idx, S.xLo.getD i 0 ≤ x.getD i 0 ∧ x.getD i 0 ≤ S.xUp.getD i 0) ∧ InU S.uLo S.uUp aLo aUp u) := by
    intro x u hu
    rw [hb _ _ (by simp) hu]
    refine and_congr ?_ Iff.rfl
    constructor
    · rintro ⟨-, -, hh⟩ i hi'
      obtain ⟨j, hj, rfl⟩ := List.getElem_of_mem hi'
      have := hh j (by simpa using hj)
      simpa [hL, hU, List.getD, hj] using this
    · intro hh
      refine ⟨by simp [hL], by simp [hU], fun j hj => ?_⟩
      have hj : j < S.idx.length := by simpa using hj
      have := hh _ (List.getElem_mem (l := S.idx) hj)
      simpa [hL, hU, List.getD, hj] using this
  obtain ⟨f1, f2, hA, hC0, hAi0, hAb0, hOk⟩ := relu_fields hr hn
  have ln : ∀ x, (S.net.eval x).length = n := fun x => by rw [net_len hn, h.out]
  have lb : S.net.last.b.length = n := by rw [hn.2.2, h.out]
  have hrows : (netOut S.net).rows.length = n := by simp [netOut, h.out]
  have hcols : r.mic.numSlack = (netOut S.net).cols := by
    obtain ⟨-, -, h3, -⟩ := outputConstraint_some hr
    exact (outputCons_ready h3 hn).2.1
  have hxl : ∀ i ∈ S.idx, i < x.length := by rw [lx]; exact hi
  set xs := S.idx.map (fun i => x.getD i 0) with hxs
  have hxs' : ∀ i ∈ xs ++ u, i < m.n := by
    intro i hi'
    rcases List.mem_append.1 hi' with hi' | hi'
    · obtain ⟨j, hj, rfl⟩ := List.mem_map.1 hi'
      refine hx _ ?_
      simp [List.getD, hxl j hj]
    · exact hu i hi'
  have exs : ∀ v : ℕ → K, (xs ++ u).map v = S.idx.map (fun i => (x.map v).getD i 0) ++ u.map v := by
    intro v
    rw [List.map_append, hxs, List.map_map]
    congr 1
    refine List.map_congr_left fun i hi' => ?_
    simp [List.getD, hxl i hi']
  obtain ⟨m1, hm1, hn1, e1⟩ := mic_enc m hw r.mic (xs ++ u) (by
    simpa [hxs, lu] using f1) hxs'
  set sl := List.range' m.n r.mic.numSlack with hsl
  set bi := List.range' (m.n + r.mic.numSlack) r.mic.numBinary with hbi
  set es := S.idx.map (fun j => (S.qEq ++ zeros n).getD j 0) with hes
  set e := S.net.eval (es ++ S.uEq) with he
  have lv : (x.drop n).length = n := by simp [lx]
  have lvn : (xn.drop n).length = n := by simp [lxn]
  have lq : (x.take n).length = n := by simp [lx]
  have lqn : (xn.take n).length = n := by simp [lxn]
  have mono : m.n ≤ m1.n := by omega
  obtain ⟨m2, hm2, s2⟩ := mconstr_step m1 e1.wf
    [(⟨n, eye n⟩, xn.drop n), (⟨n, (eye n).map vneg⟩, x.drop n),
      (⟨(netOut S.net).cols, (netOut S.net).rows.map vneg⟩, sl)] .eq (vsub S.net.last.b e) (by simp) (by
      have lbe : (vsub S.net.last.b e).length = n := by simp [lb, he, ln]
      rw [lbe]
      intro p hp
      simp only [List.mem_cons, List.not_mem_nil, or_false] at hp
      rcases hp with rfl | rfl | rfl
      · exact ⟨by simp, lvn.symm, eye_hasCols n, fun i hi' => (hxn i (List.mem_of_mem_drop hi')).trans_le mono⟩
      · refine ⟨by simp, lv.symm, ?_, fun i hi' => (hx i (List.mem_of_mem_drop hi')).trans_le mono⟩
        intro r hr
        obtain ⟨r', hr', rfl⟩ := List.mem_map.1 hr
        simpa using eye_hasCols n r' hr'
      · refine ⟨by simp [hrows], by simp [hsl, hcols], ?_, fun i hi' => ?_⟩
        · intro r hr
          obtain ⟨r', hr', rfl⟩ := List.mem_map.1 hr
          simpa using hOk r' hr'
        · have := (List.mem_range'_1.1 (hsl ▸ hi')).2
          omega)
  have hn2 : m2.n = m1.n := by simpa using s2.n
  obtain ⟨m3, hm3, s3⟩ := mconstr_step m2 s2.wf
    [(⟨n, eye n⟩, xn.take n), (⟨n, (eye n).map vneg⟩, x.take n), (⟨n, (eye n).map (vsmul (-S.dt / 2))⟩, xn.drop n),
      (⟨n, (eye n).map (vsmul (-S.dt / 2))⟩, x.drop n)] .eq (zeros n) (by simp) (by
      have hsm : ∀ f : Vec K → Vec K, (∀ a, (f a).length = a.length) → ∀ r ∈ (eye n : Mat K).map f, r.length = n := by
        intro f hf r hr
        obtain ⟨r', hr', rfl⟩ := List.mem_map.1 hr
        rw [hf]
        exact eye_hasCols n r' hr'
      intro p hp
      simp only [List.mem_cons, List.not_mem_nil, or_false] at hp
      rcases hp with rfl | rfl | rfl | rfl
      · exact ⟨by simp, lqn.symm, eye_hasCols n, fun i hi' =>
          (hxn i (List.mem_of_mem_take hi')).trans_le (by omega)⟩
      · exact ⟨by simp, lq.symm, hsm _ (by simp), fun i hi' => (hx i (List.mem_of_mem_take hi')).trans_le (by omega)⟩
      · exact ⟨by simp, lvn.symm, hsm _ (by simp), fun i hi' =>
          (hxn i (List.mem_of_mem_drop hi')).trans_le (by omega)⟩
      · exact ⟨by simp, lv.symm, hsm _ (by simp), fun i hi' =>
          (hx i (List.mem_of_mem_drop hi')).trans_le (by omega)⟩)
  refine ⟨m3, sl, bi, ?_, ?_⟩
  · have p1 : pick S.xLo S.idx = some L := by
      unfold pick
      rw [if_pos (by rw [h.lo]; exact hi)]
    have p2 : pick S.xUp S.idx = some U := by
      unfold pick
      rw [if_pos (by rw [h.up]; exact hi)]
    have p3 : pick S.xEq S.idx = some es := by
      unfold pick SecondRelu.xEq
      rw [hv, if_pos (by simpa [h.eq] using hi)]
    unfold SecondRelu.addResidue
    rw [if_pos hxl, h1, h2, p1, p2, p3, hq, hv, hm, h.ulo]
    simp only [Option.bind_eq_bind, Option.bind_some, hr, hA, hC0, ← hxs, hm1, ← he]
    simp only [List.map_cons, List.map_nil] at hm2 hm3
    rw [hm2]
    simp only [Option.bind_some]
    rw [hm3]
    rfl
  · have lbe : (vsub S.net.last.b e).length = n := by simp [lb, he, ln]
    have g2 : ∀ v : ℕ → K, (∀ i, i < (vsub S.net.last.b e).length → Sense.eq.Rel
        (([(⟨n, eye n⟩, xn.drop n), (⟨n, (eye n).map vneg⟩, x.drop n),
          (⟨(netOut S.net).cols, (netOut S.net).rows.map vneg⟩, sl)] : List (Tensor2 K × List ℕ)).map
            fun p => dot (p.1.rows.getD i []) (p.2.map v)).sum ((vsub S.net.last.b e).getD i 0)) ↔
        ∀ i, i < n → (xn.map v).getD (n + i) 0 = (x.map v).getD (n + i) 0 +
          (dot ((netOut S.net).rows.getD i []) (sl.map v) + S.net.last.b.getD i 0) - e.getD i 0 := by
      intro v
      rw [lbe]
      refine forall_congr' fun i => forall_congr' fun hi' => ?_
      have hneg : ((netOut S.net).rows.map vneg).getD i [] = vneg ((netOut S.net).rows.getD i []) := by
        simp [List.getD, hrows, hi']
      simp only [List.map_cons, List.map_nil, List.sum_cons, List.sum_nil, Sense.Rel]
      rw [dot_map_eye _ _ _ hi', getD_eye n i hi', dot_eyeRow _ _ _ hi', dot_vneg_left, dot_eyeRow _ _ _ hi', hneg,
        dot_vneg_left, getD_vsub _ _ _ (by simp [lb, he, ln]), List.map_drop, List.map_drop, getD_drop, getD_drop]
      constructor <;> intro hh' <;> linarith
    have g3 : ∀ v : ℕ → K, (∀ i, i < (zeros n : Vec K).length → Sense.eq.Rel
        (([(⟨n, eye n⟩, xn.take n), (⟨n, (eye n).map vneg⟩, x.take n),
          (⟨n, (eye n).map (vsmul (-S.dt / 2))⟩, xn.drop n),
          (⟨n, (eye n).map (vsmul (-S.dt / 2))⟩, x.drop n)] : List (Tensor2 K × List ℕ)).map
            fun p => dot (p.1.rows.getD i []) (p.2.map v)).sum ((zeros n : Vec K).getD i 0)) ↔
        ∀ i, i < n → (xn.map v).getD i 0 = (x.map v).getD i 0 +
          S.dt / 2 * ((x.map v).getD (n + i) 0 + (xn.map v).getD (n + i) 0) := by
      intro v
      rw [length_zeros]
      refine forall_congr' fun i => forall_congr' fun hi' => ?_
      simp only [List.map_cons, List.map_nil, List.sum_cons, List.sum_nil, Sense.Rel]
      rw [dot_map_eye _ _ _ hi', dot_map_eye _ _ _ hi', dot_map_eye _ _ _ hi', getD_eye n i hi',
        dot_eyeRow _ _ _ hi', dot_vneg_left,
        dot_eyeRow _ _ _ hi', dot_vsmul_left, dot_vsmul_left, dot_eyeRow _ _ _ hi', dot_eyeRow _ _ _ hi', List.map_drop,
        List.map_drop, List.map_take, List.map_take, getD_drop, getD_drop, getD_take _ _ _ hi', getD_take _ _ _ hi']
      simp only [getD_zeros]
      constructor <;> intro hh' <;> linarith
    have e2 := (s2.congr rfl g2).enc0 e1.wf
    have e3 := (s3.congr rfl g3).enc0 s2.wf
    have fe := fun v : ℕ → K => relu_feas_exact hr hn trivial b1 b2 (x := (xs ++ u).map v) (by simp [hxs, lu])
    have st := fun v : ℕ → K => C50_residue_step h hn hi (x.map v) (u.map v) (xn.map v) (by simpa using lx)
    have ent : ∀ v : ℕ → K, ∀ i, i < n →
        dot ((netOut S.net).rows.getD i []) (postacts S.net.hidden ((xs ++ u).map v)).flatten + S.net.last.b.getD i 0 =
          (S.net.eval (S.idx.map (fun j => (x.map v).getD j 0) ++ u.map v)).getD i 0 := by
      intro v i hi'
      rw [netOut_entry hr hn (by simp [hxs, lu]) i (by rw [h.out]; exact hi'), exs]
    set D : (ℕ → K) → Prop := fun v =>
      (∀ i ∈ S.idx, S.xLo.getD i 0 ≤ (x.map v).getD i 0 ∧ (x.map v).getD i 0 ≤ S.xUp.getD i 0) ∧
        InU S.uLo S.uUp aLo aUp (u.map v) ∧ S.stepRes (x.map v) (u.map v) = some (xn.map v) with hD
    have dep : DepsBelow m.n D := by
      intro v w hvw hv
      have q1 : x.map w = x.map v := List.map_congr_left fun i hi => (hvw i (hx i hi)).symm
      have q2 : xn.map w = xn.map v := List.map_congr_left fun i hi => (hvw i (hxn i hi)).symm
      have q3 : u.map w = u.map v := List.map_congr_left fun i hi => (hvw i (hu i hi)).symm
      simp only [hD] at hv ⊢
      rwa [q1, q2, q3]
    have e1' : Enc m m1 D fun v => r.mic.Feas ((xs ++ u).map v) (sl.map v) (bi.map v) := by
      refine e1.weaken (fun v _ hv => ?_) (fun _ _ h => h)
      rw [(fe v).1, exs, hbox _ _ (by simpa using lu)]
      exact ⟨hv.1, hv.2.1⟩
    have e12 := e1'.seq e2 dep (by
      intro v hv hf i hi'
      rw [(fe v).2 _ _ hf, ent v i hi']
      exact (((st v).1 hv.2.2).2 i hi').1)
    have e123 := e12.seq e3 dep (by
      intro v hv hf i hi'
      exact (((st v).1 hv.2.2).2 i hi').2)
    refine e123.weaken (fun _ _ h => h) ?_
    rintro v - ⟨⟨hf, hA2⟩, hA3⟩
    have hf' := (fe v).1.1 ⟨_, _, hf⟩
    rw [exs, hbox _ _ (by simpa using lu)] at hf'
    refine ⟨hf'.1, hf'.2, (st v).2 ⟨by simpa using lxn, fun i hi' => ⟨?_, hA3 i hi'⟩⟩⟩
    rw [hA2 i hi', (fe v).2 _ _ hf, ent v i hi']

/-! ### Concrete cases -/

/-- The network of the examples as a system on `[-1, 1]²`. -/
def exAutoRelu : AutoRelu ℚ := ⟨[-1, -1], [1, 1], exNet, [1 / 2, 0], true, .ia⟩

theorem exAutoRelu_ok : AutoRelu.Ok exAutoRelu 2 := ⟨exNet_ok, rfl, rfl, rfl, exBox, rfl⟩

example : ∃ r, exAutoRelu.mic = some r ∧ ∃ r', exAutoRelu.micRes = some r' := by
  obtain ⟨h1, -, h3⟩ := C50_auto_accepts exAutoRelu_ok rfl (by simp [exAutoRelu, exNet])
  exact ⟨_, Option.eq_some_of_isSome h1, _, Option.eq_some_of_isSome h3⟩

/-- One state and one input. -/
def exCtrl : CtrlRelu ℚ :=
  ⟨[-1], [1], [-1], [1], ⟨exNet.hidden, ⟨1, [[-1]], some [1 / 2]⟩⟩, [1 / 4], [0], true⟩

theorem exCtrl_ok : CtrlRelu.Ok exCtrl 1 1 :=
  ⟨by simp [exCtrl, exNet, Net.Ok, HidOk, Lin.Ok, HasCols, Lin.b, zeros], rfl, rfl, rfl, fun i hi => by
    have : i = 0 := by omega
    subst this
    norm_num [exCtrl], rfl, rfl, rfl, rfl⟩

example : UsableU exCtrl.uLo exCtrl.uUp (some [-1 / 2]) none :=
  ⟨by simp [exCtrl], by simp, [0], ⟨rfl, rfl, fun i hi => by
    have : i = 0 := by simpa using hi
    subst this
    norm_num [exCtrl]⟩, fun l hl i hi => by
      have : i = 0 := by simpa using hi
      subst this
      simp only [Option.some.injEq] at hl
      subst hl
      norm_num, by simp⟩

/-- One position, one velocity, no input. -/
def exSecond : SecondRelu ℚ :=
  ⟨[-1, -1], [1, 1], [], [], ⟨exNet.hidden, ⟨1, [[-1]], some [1 / 2]⟩⟩, [1 / 4], [], 1 / 10, [1, 0], .ia⟩

theorem exSecond_ok : SecondRelu.Ok exSecond 1 0 := ⟨rfl, rfl, rfl, exBox, rfl, rfl, rfl, rfl⟩

example : exSecond.net.Ok (1 + 1 + 0) ∧ exSecond.net.Ok (exSecond.idx.length + 0) ∧ exSecond.net.hidden ≠ [] :=
  by simp [exSecond, exNet, Net.Ok, HidOk, Lin.Ok, HasCols, Lin.b, zeros]

end NNL.Props
