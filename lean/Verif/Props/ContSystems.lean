import Verif.Lemmas.ContSystems
import Verif.Props.ExampleSystems3

/-!
# C78: the continuous-time example systems
-/

set_option linter.unusedSectionVars false

namespace NNL.Props

open NNL NNL.Model NNL.Spec

variable {K : Type*} [Field K] [LinearOrder K] [IsStrictOrderedRing K]

/-- The bounds of the input used by the program: the given ones instead of those of the system. -/
structure FwdBounds (S : ExSys K) (k : ℕ) (aLo aUp : Option (Vec K)) : Prop where
  lo : (aLo.getD S.uLo).length = k
  up : (aUp.getD S.uUp).length = k
  le : ∀ i, i < k → (aLo.getD S.uLo).getD i 0 ≤ (aUp.getD S.uUp).getD i 0

theorem fwd_enc {c : Option (Vec K) → Option (Vec K) → Option (ReluMIC K)} {n k : ℕ}
    {P : Option (Vec K) → Option (Vec K) → Prop} {Rel : Option (Vec K) → Option (Vec K) → Vec K → Vec K → Vec K → Prop}
    (h : ∀ aLo aUp, P aLo aUp → ∃ r, c aLo aUp = some r ∧ r.mic.Ready (n + k) ∧ r.mic.numOut = n ∧
      ∀ x u y : Vec K, x.length = n → u.length = k → y.length = n →
        ((∃ s z, r.mic.Feas (x ++ u) s z ∧ r.mic.out (x ++ u) s z = y) ↔ Rel aLo aUp x u y)) :
    CtrlEnc (addForward c) n k P Rel := by
  intro m x xn u aLo aUp hw lx lxn lu hx hxn hu hP
  obtain ⟨r, hr, rdy, no, hex⟩ := h aLo aUp hP
  obtain ⟨m', hm, -, e⟩ := mic_out_enc m hw r.mic (x ++ u) xn (by rw [List.length_append, lx, lu]; exact rdy)
    (by
      intro i hi
      rcases List.mem_append.1 hi with hi | hi
      · exact hx i hi
      · exact hu i hi) (by rw [lxn, no]) hxn
  refine ⟨m', _, _, by unfold addForward; rw [hr]; exact hm, e.weaken (fun v _ hv => ?_) fun v _ hv => ?_⟩
  · have := (hex (x.map v) (u.map v) (xn.map v) (by simp [lx]) (by simp [lu]) (by simp [lxn])).2 hv
    simpa using this
  · refine (hex (x.map v) (u.map v) (xn.map v) (by simp [lx]) (by simp [lu]) (by simp [lxn])).1
      ⟨(List.range' m.n r.mic.numSlack).map v, (List.range' (m.n + r.mic.numSlack) r.mic.numBinary).map v, ?_⟩
    simpa using hv

/-! ## The pendulum -/

/-- C78. `PendulumReluContinuousTime.step_forward`: the documented derivative. -/
theorem C78_pendulum_step {S : ExSys K} (h : ExOk S 2 1 3 1) (xEq x u y : Vec K) :
    S.pendStep xEq x u = y ↔ PendNext S.net.eval xEq S.uEq x u y := by
  have e : (vsub (S.net.eval (x ++ u)) (S.net.eval (xEq ++ S.uEq))).getD 0 0 =
      (S.net.eval (x ++ u)).getD 0 0 - (S.net.eval (xEq ++ S.uEq)).getD 0 0 := by
    rw [getD_vsub _ _ _ (by rw [ex_len h, ex_len h])]
  unfold ExSys.pendStep PendNext
  simp only [e]
  constructor
  · rintro rfl
    exact ⟨rfl, rfl, rfl⟩
  · rintro ⟨l, h1, h2⟩
    obtain ⟨a, b, rfl⟩ := length2 l
    simp only [List.getD_cons_zero, List.getD_cons_succ] at h1 h2
    rw [h1, h2]

/-- C78. `PendulumReluContinuousTime.mixed_integer_constraints`: for every state within its bounds and every input
within the given bounds (those of the system when none are given) the constraints are satisfiable with exactly the
value of `step_forward`, and it lies within `x_next_lb`, `x_next_ub`. -/
theorem C78_pendulum_constraints {S : ExSys K} (h : ExOk S 2 1 3 1) {xEq : Vec K} {aLo aUp : Option (Vec K)}
    (hb : FwdBounds S 1 aLo aUp)
    (hm : MethodValid S.net (S.xLo ++ aLo.getD S.uLo) (S.xUp ++ aUp.getD S.uUp) S.method) :
    ∃ r, S.pendMic xEq aLo aUp = some r ∧ r.mic.Ready 3 ∧ r.mic.numOut = 2 ∧
      ∀ x u y : Vec K, x.length = 2 → u.length = 1 → y.length = 2 →
        ((∃ s z, r.mic.Feas (x ++ u) s z ∧ r.mic.out (x ++ u) s z = y) ↔
          InBox S.xLo S.xUp x ∧ InBox (aLo.getD S.uLo) (aUp.getD S.uUp) u ∧ S.pendStep xEq x u = y) ∧
        (InBox S.xLo S.xUp x → InBox (aLo.getD S.uLo) (aUp.getD S.uUp) u →
          InBox (S.pendNextBounds xEq r).1 (S.pendNextBounds xEq r).2 (S.pendStep xEq x u)) := by
  set lo := aLo.getD S.uLo with hlo
  set up := aUp.getD S.uUp with hup
  have b1 : (S.xLo ++ lo).length = 3 := by rw [List.length_append, h.lo, hb.lo]
  have b2 : (S.xUp ++ up).length = 3 := by rw [List.length_append, h.up, hb.up]
  have box : ∀ x u : Vec K, x.length = 2 → u.length = 1 →
      (InBox (S.xLo ++ lo) (S.xUp ++ up) (x ++ u) ↔ InBox S.xLo S.xUp x ∧ InBox lo up u) := fun x u lx lu =>
    InBox_append (by rw [lx, h.lo]) (by rw [lx, h.up]) (by rw [lu, hb.lo]) (by rw [lu, hb.up])
  have hle := inBox_le ((box S.xLo lo h.lo hb.lo).2 ⟨⟨rfl, by rw [h.lo, h.up], fun i hi => ⟨le_rfl, h.le i (by
      rw [h.lo] at hi; exact hi)⟩⟩, rfl, by rw [hb.lo, hb.up], fun i hi => ⟨le_rfl, hb.le i (by rw [hb.lo] at hi; exact hi)⟩⟩)
  rw [b1] at hle
  obtain ⟨r, hr⟩ := outputConstraint_isSome S.method h.net h.hidden b1 b2 hle
  obtain ⟨rdy, no, hA, hC, hAi, hAb, okA⟩ := relu_fields hr h.net
  have nb := netBlock_of hr h.net hm b1 b2
  have lb : S.net.last.b.length = 1 := by rw [nb.lenb, h.out]
  obtain ⟨c, hc'⟩ : ∃ c, S.net.last.b = [c] := List.length_eq_one_iff.1 lb
  have le : (S.net.eval (xEq ++ S.uEq)).length = 1 := ex_len h _
  obtain ⟨e, he⟩ : ∃ e, S.net.eval (xEq ++ S.uEq) = [e] := List.length_eq_one_iff.1 le
  have lr : (netOut S.net).rows.length = 1 := by rw [nb.rows, h.out]
  obtain ⟨a, ha⟩ : ∃ a, (netOut S.net).rows = [a] := List.length_eq_one_iff.1 lr
  have cols : (netOut S.net).cols = r.mic.numSlack := nb.cols.symm
  set c' : MIC K := { r.mic with
    Aout_input := some ⟨3, [[0, 1, 0], [0, 0, 0]]⟩
    Aout_slack := some ⟨(netOut S.net).cols, zerosM 1 r.mic.numSlack ++ (netOut S.net).rows⟩
    Aout_binary := some ⟨r.mic.numBinary, zerosM 2 r.mic.numBinary⟩
    Cout := some (0 :: (S.net.eval (xEq ++ S.uEq)).map fun v => S.net.last.b.getD 0 0 - v) } with hcdef
  obtain ⟨rdy', no', n1, n2, hfe⟩ := set_out (p := 2) rdy hAb (c' := c') (by
      rintro M ⟨⟩
      refine ⟨rfl, rfl, ?_⟩
      intro r hr
      simp at hr
      rcases hr with rfl | rfl <;> rfl) (by
      rintro M ⟨⟩
      refine ⟨by simp [zerosM, lr], cols, ?_⟩
      intro q hq
      rcases List.mem_append.1 hq with hq | hq
      · simp [zerosM] at hq
        simp [hq, cols]
      · exact okA q hq) (by
      rintro M ⟨⟩
      refine ⟨by simp [zerosM], rfl, ?_⟩
      intro q hq
      simp [zerosM] at hq
      simp [hq]) (by simp [le]) rfl
  refine ⟨{ r with mic := c' }, ?_, rdy', no', ?_⟩
  · unfold ExSys.pendMic
    rw [← hlo, ← hup, hr]
    simp only [Option.bind_eq_bind, Option.bind_some, hC, hA, hAb]
    rfl
  · intro x u y lx lu ly
    have lz : (x ++ u).length = 3 := by simp [lx, lu]
    have out : ∀ s z, r.mic.Feas (x ++ u) s z → c'.out (x ++ u) s z = S.pendStep xEq x u := by
      intro s z hf
      have hn := nb.out (x ++ u) s z lz hf 0 (by rw [h.out]; omega)
      rw [MIC.out, no']
      obtain ⟨x0, x1, rfl⟩ := length2 lx
      obtain ⟨u0, rfl⟩ := List.length_eq_one_iff.1 lu
      have lz' : (S.net.eval ([x0, x1] ++ [u0])).length = 1 := ex_len h _
      obtain ⟨f, hf'⟩ := List.length_eq_one_iff.1 lz'
      rw [hf', ha, hc'] at hn
      unfold ExSys.pendStep
      rw [hf', he]
      simp [hcdef, mrow, List.range_succ, dot_cons, zerosM, ha, hc', he, vsub] at hn ⊢
      linarith
    refine ⟨?_, fun h1 h2 => ?_⟩
    · constructor
      · rintro ⟨s, z, hf, ho⟩
        have hf' := (hfe _ _ _).1 hf
        obtain ⟨g1, g2⟩ := (box x u lx lu).1 ((nb.exact _ lz).1 ⟨s, z, hf'⟩)
        exact ⟨g1, g2, by rw [← out s z hf', ho]⟩
      · rintro ⟨g1, g2, g3⟩
        obtain ⟨s, z, hf⟩ := (nb.exact _ lz).2 ((box x u lx lu).2 ⟨g1, g2⟩)
        exact ⟨s, z, (hfe _ _ _).2 hf, by rw [out s z hf, g3]⟩
    · obtain ⟨-, -, k3⟩ := C11_bounds_sound hr h.net hm ((box x u lx lu).2 ⟨h1, h2⟩)
      obtain ⟨k1, k2, k4⟩ := k3
      rw [ex_len h] at k1 k2 k4
      have q := k4 0 (by omega)
      have g := h1.2.2 1 (by omega)
      have e' : (vsub (S.net.eval (x ++ u)) (S.net.eval (xEq ++ S.uEq))).getD 0 0 =
          (S.net.eval (x ++ u)).getD 0 0 - (S.net.eval (xEq ++ S.uEq)).getD 0 0 := by
        rw [getD_vsub _ _ _ (by rw [ex_len h, ex_len h])]
      unfold ExSys.pendNextBounds ExSys.pendStep
      simp only [e']
      refine ⟨rfl, rfl, fun i hi => ?_⟩
      simp at hi
      interval_cases i
      · exact g
      · exact ⟨sub_le_sub_right q.1 _, sub_le_sub_right q.2 _⟩

/-- C78. The program of `PendulumReluContinuousTime.add_dynamics_constraint`. -/
theorem C78_pendulum {S : ExSys K} (h : ExOk S 2 1 3 1) (xEq : Vec K) :
    CtrlEnc (addForward (S.pendMic xEq)) 2 1 (fun aLo aUp => FwdBounds S 1 aLo aUp ∧
        MethodValid S.net (S.xLo ++ aLo.getD S.uLo) (S.xUp ++ aUp.getD S.uUp) S.method) fun aLo aUp x u y =>
      InBox S.xLo S.xUp x ∧ InBox (aLo.getD S.uLo) (aUp.getD S.uUp) u ∧ S.pendStep xEq x u = y := by
  refine fwd_enc fun aLo aUp ⟨h1, h2⟩ => ?_
  obtain ⟨r, e1, e2, e3, e4⟩ := C78_pendulum_constraints h h1 h2
  exact ⟨r, e1, e2, e3, fun x u y lx lu ly => (e4 x u y lx lu ly).1⟩

example := C78_pendulum (exSysP_ok 2 1 3 1) [3, 0]
example : FwdBounds (exSysP 2 1 3 1) 1 (some [1]) none ∧
    PendNext (exNetP 3 1).eval [3, 0] [1 / 2] [1, 1 / 2] [2] ((exSysP 2 1 3 1).pendStep [3, 0] [1, 1 / 2] [2]) :=
  ⟨⟨rfl, rfl, fun i hi => by
    interval_cases i
    norm_num [exSysP]⟩, (C78_pendulum_step (exSysP_ok 2 1 3 1) _ _ _ _).1 rfl⟩

/-- C78 (the program is not as documented): additional bounds of the input replace the limits of the system, so that the
program of a pendulum has a solution whose input is outside of the limits. -/
theorem C78_bounds_replaced : ∃ (S : ExSys ℚ) (xEq : Vec ℚ) (m m' : Mip ℚ) (s g : List ℕ) (v : ℕ → ℚ),
    ExOk S 2 1 3 1 ∧ addForward (S.pendMic xEq) m [0, 1] [2, 3] [4] none (some [5]) = some (m', s, g) ∧
      m'.Feas v ∧ S.uUp.getD 0 0 < v 4 := by
  obtain ⟨m, hm, st⟩ := free_addVars (Mip.empty : Mip ℚ) Mip.WF.empty 5
  have hn : m.n = 5 := by rw [st.n]; rfl
  have hlt : ∀ i, i < 5 → i < m.n := fun i hi => by omega
  obtain ⟨m', s, g, e, enc⟩ := C78_pendulum (exSysP_ok 2 1 3 1) [3, 0] m [0, 1] [2, 3] [4] none (some [5])
    st.wf rfl rfl rfl (by intro i hi; apply hlt; revert i; decide)
    (by intro i hi; apply hlt; revert i; decide) (by intro i hi; apply hlt; revert i; decide)
    ⟨⟨rfl, rfl, fun i hi => by
      interval_cases i
      norm_num [exSysP]⟩, trivial⟩
  set y := (exSysP 2 1 3 1).pendStep [3, 0] [0, 0] [3] with hy
  obtain ⟨v', hv, hf⟩ := enc.complete (fun i => if i = 2 then y.getD 0 0 else if i = 3 then y.getD 1 0 else
      if i = 4 then 3 else 0)
    (by
      rw [st.feas]
      exact ⟨feas_empty _, by simp⟩)
    (by
      refine ⟨⟨rfl, rfl, fun i hi => ?_⟩, ⟨rfl, rfl, fun i hi => ?_⟩, ?_⟩
      · have : i < 2 := hi
        interval_cases i <;> norm_num [exSysP]
      · have : i < 1 := hi
        interval_cases i
        norm_num [exSysP]
      · simp [hy, ExSys.pendStep])
  refine ⟨exSysP 2 1 3 1, [3, 0], m, m', s, g, v', exSysP_ok 2 1 3 1, e, hf, ?_⟩
  rw [hv 4 (by omega)]
  norm_num [exSysP]

/-! ## The planar quadrotor -/

theorem quad2_step_entries {S : ExSys K} (h : ExOk S 6 2 3 3) {x u : Vec K} (hx : x.length = 6) :
    Quad2Next S.net.eval S.uEq x u (S.quad2Step x u) := by
  obtain ⟨x0, x1, x2, x3, x4, x5, rfl⟩ := length6 hx
  have e1 : seg [x0, x1, x2, x3, x4, x5] 2 3 = [x2] := rfl
  unfold ExSys.quad2Step Quad2Next
  simp only [List.getD_cons_zero, List.getD_cons_succ, e1]
  obtain ⟨f0, f1, f2, ef⟩ := length3 (ex_len h ([x2] ++ u))
  obtain ⟨g0, g1, g2, eg⟩ := length3 (ex_len h ([0] ++ S.uEq))
  rw [ef, eg]
  refine ⟨by simp [vsub], fun i hi => ?_⟩
  interval_cases i <;> simp [vsub]

/-- C78. `QuadrotorReluContinuousTime.step_forward`: the documented derivative. -/
theorem C78_quadrotor2d_step {S : ExSys K} (h : ExOk S 6 2 3 3) {x u : Vec K} (hx : x.length = 6) (y : Vec K) :
    S.quad2Step x u = y ↔ Quad2Next S.net.eval S.uEq x u y := by
  constructor
  · rintro rfl
    exact quad2_step_entries h hx
  · rintro ⟨ly, hy⟩
    obtain ⟨lz, hz⟩ := quad2_step_entries h hx (u := u)
    refine eq_of_getD lz ly fun i hi => ?_
    rcases Nat.lt_or_ge i 3 with h3 | h3
    · rw [(hz i h3).1, (hy i h3).1]
    · obtain ⟨j, rfl⟩ := Nat.exists_eq_add_of_le h3
      rw [(hz j (by omega)).2, (hy j (by omega)).2]

theorem quad2_transform {x u : Vec K} (hx : x.length = 6) (hu : u.length = 2) :
    vadd (matVec (quad2Transform (K := K)).rows (x ++ u)) (zeros 3) = seg x 2 3 ++ u := by
  obtain ⟨x0, x1, x2, x3, x4, x5, rfl⟩ := length6 hx
  obtain ⟨u0, u1, rfl⟩ := length2 hu
  simp [quad2Transform, matVec, eyeRow, List.range_succ, dot_cons, vadd, zeros, seg]

theorem quad2_box {S : ExSys K} (h1 : S.xLo.length = 6) (h2 : S.xUp.length = 6) {x u : Vec K} (hx : x.length = 6)
    (hu : u.length = 2) : (∀ i, i < (quad2Box (K := K)).length → dot (quad2Box.getD i []) (x ++ u) ≤
      (seg S.xUp 0 2 ++ vneg (seg S.xLo 0 2) ++ seg S.xUp 3 6 ++ vneg (seg S.xLo 3 6)).getD i 0) ↔
      ∀ i ∈ [0, 1, 3, 4, 5], InXAt S.xLo S.xUp x i := by
  obtain ⟨x0, x1, x2, x3, x4, x5, rfl⟩ := length6 hx
  obtain ⟨u0, u1, rfl⟩ := length2 hu
  obtain ⟨l0, l1, l2, l3, l4, l5, e1⟩ := length6 h1
  obtain ⟨m0, m1, m2, m3, m4, m5, e2⟩ := length6 h2
  rw [e1, e2]
  have l : (quad2Box (K := K)).length = 10 := rfl
  rw [l]
  constructor
  · intro h i hi
    have q0 := h 0 (by omega)
    have q1 := h 1 (by omega)
    have q2 := h 2 (by omega)
    have q3 := h 3 (by omega)
    have q4 := h 4 (by omega)
    have q5 := h 5 (by omega)
    have q6 := h 6 (by omega)
    have q7 := h 7 (by omega)
    have q8 := h 8 (by omega)
    have q9 := h 9 (by omega)
    simp [quad2Box, eyeRow, List.range_succ, dot_cons, seg, vneg] at q0 q1 q2 q3 q4 q5 q6 q7 q8 q9
    simp at hi
    rcases hi with rfl | rfl | rfl | rfl | rfl <;> simp [InXAt, *]
  · intro h i hi
    have q0 := h 0 (by simp)
    have q1 := h 1 (by simp)
    have q3 := h 3 (by simp)
    have q4 := h 4 (by simp)
    have q5 := h 5 (by simp)
    simp [InXAt] at q0 q1 q3 q4 q5
    interval_cases i <;> simp [quad2Box, eyeRow, List.range_succ, dot_cons, seg, vneg, *]

/-- C78. `QuadrotorReluContinuousTime.mixed_integer_constraints`: for every state within its bounds and every input
within the given bounds (those of the system when none are given) the constraints are satisfiable with exactly the
value of `step_forward`, and it lies within `x_next_lb`, `x_next_ub`. -/
theorem C78_quadrotor2d_constraints {S : ExSys K} (h : ExOk S 6 2 3 3) {aLo aUp : Option (Vec K)}
    (hb : FwdBounds S 2 aLo aUp)
    (hm : MethodValid S.net (seg S.xLo 2 3 ++ aLo.getD S.uLo) (seg S.xUp 2 3 ++ aUp.getD S.uUp) S.method) :
    ∃ r, S.quad2Mic aLo aUp = some r ∧ r.mic.Ready 8 ∧ r.mic.numOut = 6 ∧
      ∀ x u y : Vec K, x.length = 6 → u.length = 2 → y.length = 6 →
        ((∃ s z, r.mic.Feas (x ++ u) s z ∧ r.mic.out (x ++ u) s z = y) ↔
          InBox S.xLo S.xUp x ∧ InBox (aLo.getD S.uLo) (aUp.getD S.uUp) u ∧ S.quad2Step x u = y) ∧
        (InBox S.xLo S.xUp x → InBox (aLo.getD S.uLo) (aUp.getD S.uUp) u →
          InBox (S.quad2NextBounds r).1 (S.quad2NextBounds r).2 (S.quad2Step x u)) := by
  set lo := aLo.getD S.uLo with hlo
  set up := aUp.getD S.uUp with hup
  have b1 : (seg S.xLo 2 3 ++ lo).length = 3 := by
    rw [List.length_append, length_seg _ _ _ (by rw [h.lo]; omega), hb.lo]
  have b2 : (seg S.xUp 2 3 ++ up).length = 3 := by
    rw [List.length_append, length_seg _ _ _ (by rw [h.up]; omega), hb.up]
  have box : ∀ x u : Vec K, x.length = 6 → u.length = 2 →
      (InBox (seg S.xLo 2 3 ++ lo) (seg S.xUp 2 3 ++ up) (seg x 2 3 ++ u) ↔ InXAt S.xLo S.xUp x 2 ∧ InBox lo up u) := by
    intro x u lx lu
    rw [InBox_append (by simp [length_seg, lx, h.lo]) (by simp [length_seg, lx, h.up]) (by rw [lu, hb.lo])
      (by rw [lu, hb.up]), seg_box h.lo h.up lx _ _ (by omega)]
    refine and_congr ⟨fun g => g 2 (by omega) (by omega), fun g i hi hi' => ?_⟩ Iff.rfl
    have : i = 2 := by omega
    subst this
    exact g
  have hle := inBox_le ((box S.xLo lo h.lo hb.lo).2 ⟨⟨le_rfl, h.le 2 (by omega)⟩, rfl, by rw [hb.lo, hb.up],
    fun i hi => ⟨le_rfl, hb.le i (by rw [hb.lo] at hi; exact hi)⟩⟩)
  rw [b1] at hle
  obtain ⟨r, hr⟩ := outputConstraint_isSome S.method h.net h.hidden b1 b2 hle
  obtain ⟨rdy, no, hA, hC, hAi, hAb, okA⟩ := relu_fields hr h.net
  have nb := netBlock_of hr h.net hm b1 b2
  obtain ⟨-, -, h3, -⟩ := outputConstraint_some hr
  obtain ⟨f1, f2, f3, f4, f5, f6⟩ : r.mic.Ain_input.isSome ∧ r.mic.Ain_slack.isSome ∧ r.mic.Ain_binary.isSome ∧
      r.mic.rhs_in.isSome ∧ r.mic.input_lo = none ∧ r.mic.input_up = none := by
    revert h3
    generalize r.mic = c
    intro h3
    unfold outputConsGivenBounds at h3
    simp only at h3
    split at h3
    · cases h3
    · cases h3
    · cases h3
      simp [rowsTensor]
  obtain ⟨t, ht, rdyt, nt1, nt2, nt3, hfet, -⟩ := transformInput_ready (c := r.mic) (A := quad2Transform) (b := zeros 3)
    (by
      intro q hq
      simp [quad2Transform] at hq
      rcases hq with rfl | rfl | rfl <;> rfl) rdy rfl (Or.inl f1) f5 f6
  obtain ⟨k1, k2, k3, k4, k5, k6, k7, k8⟩ := transform_keeps ht hAi
  rw [hA] at k1
  rw [hAb] at k2
  rw [hC] at k3
  obtain ⟨Ai, hAin, hAcol⟩ := k7 f1
  obtain ⟨As, hAs⟩ := Option.isSome_iff_exists.1 (k5 ▸ f2)
  obtain ⟨Ab, hAbn⟩ := Option.isSome_iff_exists.1 (k6 ▸ f3)
  obtain ⟨b, hbr⟩ := Option.isSome_iff_exists.1 (k8 f4)
  have le : (S.net.eval ([0] ++ S.uEq)).length = 3 := ex_len h _
  have lb : S.net.last.b.length = 3 := by rw [nb.lenb, h.out]
  have lr : (netOut S.net).rows.length = 3 := by rw [nb.rows, h.out]
  have cols : (netOut S.net).cols = t.numSlack := by rw [nt1]; exact nb.cols.symm
  set e := S.net.eval ([0] ++ S.uEq) with he
  set t1 : MIC K := { t with
    Cout := some (zeros 3 ++ vsub S.net.last.b e)
    Aout_input := some ⟨8, (List.range 3).map (fun i => eyeRow 8 (3 + i)) ++ zerosM 3 8⟩
    Aout_slack := some ⟨(netOut S.net).cols, zerosM 3 t.numSlack ++ (netOut S.net).rows⟩
    Aout_binary := t.Aout_binary.map fun B => ⟨B.cols, zerosM 3 t.numBinary ++ B.rows⟩ } with ht1
  have rdy8 : t.Ready 8 := rdyt
  have hAb1 : (t.Aout_binary.map fun B => (⟨B.cols, zerosM 3 t.numBinary ++ B.rows⟩ : Tensor2 K)) = none := by
    rw [k2]; rfl
  obtain ⟨rdy1, no1, n1, n2, hfe1⟩ := set_out (p := 6) rdy8 k2 (c' := t1) (Ab := none)
    (Ai := ⟨8, (List.range 3).map (fun i => eyeRow 8 (3 + i)) ++ zerosM 3 8⟩)
    (As := ⟨(netOut S.net).cols, zerosM 3 t.numSlack ++ (netOut S.net).rows⟩) (by
      rintro M ⟨⟩
      refine ⟨rfl, rfl, ?_⟩
      intro r hr
      simp [zerosM] at hr
      rcases hr with ⟨i, -, rfl⟩ | rfl <;> simp [eyeRow]) (by
      rintro M ⟨⟩
      refine ⟨by simp [zerosM, lr], cols, ?_⟩
      intro q hq
      rcases List.mem_append.1 hq with hq | hq
      · simp [zerosM] at hq
        simp [hq, cols]
      · exact okA q hq) (shapeIs_none _ _) (C := zeros 3 ++ vsub S.net.last.b e) (by simp [vsub, lb, le])
      (by rw [ht1, hAb1])
  set w := seg S.xUp 0 2 ++ vneg (seg S.xLo 0 2) ++ seg S.xUp 3 6 ++ vneg (seg S.xLo 3 6) with hw
  set t2 : MIC K := { t1 with
    Ain_input := some ⟨Ai.cols, Ai.rows ++ quad2Box⟩
    Ain_slack := some ⟨As.cols, As.rows ++ zerosM 10 t1.numSlack⟩
    Ain_binary := some ⟨Ab.cols, Ab.rows ++ zerosM 10 t1.numBinary⟩
    rhs_in := some (b ++ w) } with ht2
  obtain ⟨rdy2, no2, m1, m2, hfe2⟩ := add_ineq rdy1 (R := quad2Box) (w := w) hAin hAs hAbn hbr (by
      intro q hq
      simp only [quad2Box, List.mem_append, List.mem_map] at hq
      rcases hq with ((⟨i, -, rfl⟩ | ⟨i, -, rfl⟩) | ⟨i, -, rfl⟩) | ⟨i, -, rfl⟩ <;> simp [eyeRow]) (by
      simp [hw, length_seg, h.lo, h.up, quad2Box]) (c' := t2) rfl
  have sh1 := rdy1.sized.shaped
  refine ⟨{ r with mic := t2 }, ?_, rdy2, by rw [no2, no1], ?_⟩
  · unfold ExSys.quad2Mic
    rw [← hlo, ← hup, hr]
    simp only [Option.bind_eq_bind, Option.bind_some, ht, k1, k3, k4, Option.isSome_none, Bool.false_eq_true, if_false]
    rw [← he, ← ht1]
    have c1 : catTo t1.Ain_input 8 quad2Box = some ⟨Ai.cols, Ai.rows ++ quad2Box⟩ := by
      have : t1.Ain_input = some Ai := hAin
      have hc8 : Ai.cols = 8 := hAcol
      rw [this, catTo, if_pos hc8]
    have c2 : catTo t1.Ain_slack t1.numSlack (zerosM 10 t1.numSlack) =
        some ⟨As.cols, As.rows ++ zerosM 10 t1.numSlack⟩ := by
      have e' : t1.Ain_slack = some As := hAs
      rw [e', catTo, if_pos (sh1.ain_s As e').2.1]
    have c3 : catTo t1.Ain_binary t1.numBinary (zerosM 10 t1.numBinary) =
        some ⟨Ab.cols, Ab.rows ++ zerosM 10 t1.numBinary⟩ := by
      have e' : t1.Ain_binary = some Ab := hAbn
      rw [e', catTo, if_pos (sh1.ain_z Ab e').2.1]
    have c4 : t1.rhs_in = some b := hbr
    rw [c1, c2, c3, c4]
    rfl
  · intro x u y lx lu ly
    have lxu : (seg x 2 3 ++ u).length = 3 := by simp [length_seg, lx, lu]
    have feas : ∀ s z, t2.Feas (x ++ u) s z ↔ r.mic.Feas (seg x 2 3 ++ u) s z ∧
        ∀ i ∈ [0, 1, 3, 4, 5], InXAt S.xLo S.xUp x i := by
      intro s z
      rw [hfe2, hfe1, hfet, quad2_transform lx lu, quad2_box h.lo h.up lx lu]
    have ibox : InBox S.xLo S.xUp x ↔ InXAt S.xLo S.xUp x 2 ∧ ∀ i ∈ [0, 1, 3, 4, 5], InXAt S.xLo S.xUp x i := by
      constructor
      · rintro ⟨-, -, g⟩
        refine ⟨g 2 (by omega), fun i hi => g i ?_⟩
        simp at hi
        omega
      · rintro ⟨g1, g2⟩
        refine ⟨by rw [lx, h.lo], by rw [lx, h.up], fun i hi => ?_⟩
        rw [lx] at hi
        interval_cases i <;> first | exact g1 | exact g2 _ (by simp)
    have out : ∀ s z, r.mic.Feas (seg x 2 3 ++ u) s z → t2.out (x ++ u) s z = S.quad2Step x u := by
      intro s z hf
      have hn := fun i hi => nb.out (seg x 2 3 ++ u) s z lxu hf i hi
      rw [h.out] at hn
      obtain ⟨lz, hz⟩ := quad2_step_entries h lx (u := u)
      have e1 : seg x 2 3 = [x.getD 2 0] := by
        obtain ⟨x0, x1, x2, x3, x4, x5, rfl⟩ := length6 lx
        rfl
      rw [e1] at hn
      refine eq_of_getD (n := 6) (by simp [MIC.out, no2, no1]) lz fun i hi => ?_
      have eo : (t2.out (x ++ u) s z).getD i 0 = dot (mrow t1.Aout_input i) (x ++ u) + dot (mrow t1.Aout_slack i) s +
          dot (mrow t1.Aout_binary i) z + (t1.Cout.getD []).getD i 0 := by
        rw [MIC.out, no2, no1]
        simp [List.getD, hi, ht2]
      have ab : mrow t1.Aout_binary i = ([] : Vec K) := by
        have : t1.Aout_binary = none := hAb1
        rw [this]
        rfl
      rw [eo, ab]
      rcases Nat.lt_or_ge i 3 with h3 | h3
      · rw [(hz i h3).1]
        obtain ⟨x0, x1, x2, x3, x4, x5, rfl⟩ := length6 lx
        obtain ⟨u0, u1, rfl⟩ := length2 lu
        interval_cases i <;> simp [ht1, mrow, eyeRow, List.range_succ, dot_cons, zerosM, zeros] <;>
          exact dot_zeros_left _ _
      · obtain ⟨j, rfl⟩ := Nat.exists_eq_add_of_le h3
        have hj : j < 3 := by omega
        rw [(hz j hj).2, ← hn j hj]
        have a1 : mrow t1.Aout_input (3 + j) = (zeros 8 : Vec K) := by
          interval_cases j <;> rfl
        have a2 : mrow t1.Aout_slack (3 + j) = (netOut S.net).rows.getD j [] := by
          simp only [ht1, mrow]
          have : (zerosM 3 t.numSlack : Mat K).length = 3 := by simp [zerosM]
          rw [show 3 + j = (zerosM 3 t.numSlack : Mat K).length + j by rw [this], getD_append_add]
        have a3 : (t1.Cout.getD []).getD (3 + j) 0 = S.net.last.b.getD j 0 - e.getD j 0 := by
          simp only [ht1, Option.getD_some]
          rw [show 3 + j = (zeros 3 : Vec K).length + j by rw [length_zeros], getD_append_add,
            getD_vsub _ _ _ (by rw [lb, le])]
        rw [a1, a2, a3, dot_zeros_left, dot_nil_left]
        ring
    refine ⟨?_, fun h1 h2 => ?_⟩
    · constructor
      · rintro ⟨s, z, hf, ho⟩
        obtain ⟨hf', g⟩ := (feas s z).1 hf
        obtain ⟨g1, g2⟩ := (box x u lx lu).1 ((nb.exact _ lxu).1 ⟨s, z, hf'⟩)
        exact ⟨ibox.2 ⟨g1, g⟩, g2, by rw [← out s z hf', ← ho]⟩
      · rintro ⟨g1, g2, g3⟩
        obtain ⟨s, z, hf⟩ := (nb.exact _ lxu).2 ((box x u lx lu).2 ⟨(ibox.1 g1).1, g2⟩)
        exact ⟨s, z, (feas s z).2 ⟨hf, (ibox.1 g1).2⟩, by rw [← g3, ← out s z hf]⟩
    · obtain ⟨-, -, c1, c2, c3⟩ := C11_bounds_sound hr h.net hm ((box x u lx lu).2 ⟨(ibox.1 h1).1, h2⟩)
      rw [ex_len h] at c1 c2 c3
      unfold ExSys.quad2NextBounds ExSys.quad2Step
      simp only [← he]
      rw [InBox_append (by simp [lx, h.lo]) (by simp [lx, h.up]) (by simp [vsub, le, ex_len h, ← c1])
        (by simp [vsub, le, ex_len h, ← c2])]
      constructor
      · refine ⟨by simp [lx, h.lo], by simp [lx, h.up], fun i hi => ?_⟩
        rw [getD_drop, getD_drop, getD_drop]
        simp [lx] at hi
        exact h1.2.2 (3 + i) (by omega)
      · refine ⟨by simp [vsub, le, ex_len h, ← c1], by simp [vsub, le, ex_len h, ← c2], fun i hi => ?_⟩
        simp [vsub, le, ex_len h] at hi
        rw [getD_vsub r.nnOutputLo _ _ (by rw [← c1, le]), getD_vsub r.nnOutputUp _ _ (by rw [← c2, le]),
          getD_vsub (S.net.eval _) _ _ (by rw [ex_len h, le])]
        have := c3 i hi
        exact ⟨sub_le_sub_right this.1 _, sub_le_sub_right this.2 _⟩

/-- C78. The program of `QuadrotorReluContinuousTime.add_dynamics_constraint`. -/
theorem C78_quadrotor2d {S : ExSys K} (h : ExOk S 6 2 3 3) :
    CtrlEnc (addForward S.quad2Mic) 6 2 (fun aLo aUp => FwdBounds S 2 aLo aUp ∧
        MethodValid S.net (seg S.xLo 2 3 ++ aLo.getD S.uLo) (seg S.xUp 2 3 ++ aUp.getD S.uUp) S.method)
      fun aLo aUp x u y =>
        InBox S.xLo S.xUp x ∧ InBox (aLo.getD S.uLo) (aUp.getD S.uUp) u ∧ S.quad2Step x u = y := by
  refine fwd_enc fun aLo aUp ⟨h1, h2⟩ => ?_
  obtain ⟨r, e1, e2, e3, e4⟩ := C78_quadrotor2d_constraints h h1 h2
  exact ⟨r, e1, e2, e3, fun x u y lx lu ly => (e4 x u y lx lu ly).1⟩

example := C78_quadrotor2d (exSysP_ok 6 2 3 3)
example : FwdBounds (exSysP 6 2 3 3) 2 (some [1, 1]) none ∧
    Quad2Next (exNetP 3 3).eval [1 / 2, 1 / 2] [1, 1 / 2, 0, 1, 1, 0] [2, 1]
      ((exSysP 6 2 3 3).quad2Step [1, 1 / 2, 0, 1, 1, 0] [2, 1]) :=
  ⟨⟨rfl, rfl, fun i hi => by
    interval_cases i <;> norm_num [exSysP]⟩, (C78_quadrotor2d_step (exSysP_ok 6 2 3 3) rfl _).1 rfl⟩

end NNL.Props
