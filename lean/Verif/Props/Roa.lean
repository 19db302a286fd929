import Verif.Lemmas.Roa
import Verif.Spec.Roa
import Verif.Props.Lyapunov
import Verif.Props.Hybrid
import Mathlib.Topology.Order.IntermediateValue
import Mathlib.Topology.Order.Lattice
import Mathlib.Topology.Instances.Real.Lemmas

/-!
# The region of attraction: C37
-/

set_option linter.unusedSectionVars false

namespace NNL.Props

open NNL NNL.Spec NNL.Model

variable {K : Type*} [Field K] [LinearOrder K] [IsStrictOrderedRing K]

theorem getD_set_self (l : Vec K) (i : ℕ) (a : K) (hi : i < l.length) : (l.set i a).getD i 0 = a := by
  simp [List.getD, hi]

theorem getD_set_ne (l : Vec K) (i j : ℕ) (a : K) (h : j ≠ i) : (l.set i a).getD j 0 = l.getD j 0 := by
  simp [List.getD, List.getElem?_set, Ne.symm h]

/-- The `2 n` boxes of the code are the region next to the box. -/
theorem roaBox_shell (lo up loL upL w : Vec K) (hl : up.length = lo.length) :
    (∃ i, i < 2 * lo.length ∧ InBox (roaBox lo up loL upL i).1 (roaBox lo up loL upL i).2 w) ↔
      InShell lo up loL upL w := by
  have key : ∀ i, i < lo.length → ∀ a b : K, w.length = lo.length →
      (InBox (lo.set i a) (up.set i b) w ↔ (a ≤ w.getD i 0 ∧ w.getD i 0 ≤ b) ∧
        ∀ j, j < lo.length → j ≠ i → lo.getD j 0 ≤ w.getD j 0 ∧ w.getD j 0 ≤ up.getD j 0) := by
    intro i hi a b hw
    constructor
    · rintro ⟨-, -, h⟩
      refine ⟨?_, fun j hj hne => ?_⟩
      · have := h i (by omega)
        rwa [getD_set_self _ _ _ hi, getD_set_self _ _ _ (by omega)] at this
      · have := h j (by omega)
        rwa [getD_set_ne _ _ _ _ hne, getD_set_ne _ _ _ _ hne] at this
    · rintro ⟨h1, h2⟩
      refine ⟨by simpa using hw, by simp; omega, fun j hj => ?_⟩
      by_cases hne : j = i
      · subst hne
        rwa [getD_set_self _ _ _ hi, getD_set_self _ _ _ (by omega)]
      · rw [getD_set_ne _ _ _ _ hne, getD_set_ne _ _ _ _ hne]
        exact h2 j (by omega) hne
  constructor
  · rintro ⟨i, hi, h⟩
    have hw : w.length = lo.length := by rw [h.1, (length_roaBox _ _ _ _ _).1]
    refine ⟨hw, ?_⟩
    unfold roaBox at h
    split at h
    · rename_i hlt
      have := (key i hlt _ _ hw).1 h
      exact ⟨i, hlt, Or.inl this.1, this.2⟩
    · rename_i hlt
      have hlt' : i - lo.length < lo.length := by omega
      have := (key _ hlt' _ _ hw).1 h
      exact ⟨_, hlt', Or.inr this.1, this.2⟩
  · rintro ⟨hw, i, hi, h1 | h1, h2⟩
    · refine ⟨i, by omega, ?_⟩
      rw [roaBox, if_pos hi]
      exact (key i hi _ _ hw).2 ⟨h1, h2⟩
    · refine ⟨lo.length + i, by omega, ?_⟩
      rw [roaBox, if_neg (by omega), Nat.add_sub_cancel_left]
      exact (key i hi _ _ hw).2 ⟨h1, h2⟩

theorem roaNext_enc (L : Lyap K) (hu : L.xUp.length = L.dim) (inBox : Bool) (m : Mip K) (hw : m.WF) (xn : List ℕ)
    (lx : xn.length = L.dim) (hx : ∀ i ∈ xn, i < m.n) :
    ∃ m', L.roaNext inBox m xn = some m' ∧
      Enc m m' (fun v => inBox = false → InBox L.xLo L.xUp (xn.map v))
        fun v => inBox = false → InBox L.xLo L.xUp (xn.map v) := by
  cases inBox with
  | true => exact ⟨m, by simp [Lyap.roaNext], ((Step.refl hw).congr rfl fun v => by simp).enc0 hw⟩
  | false =>
    obtain ⟨m1, h1, S1⟩ := mconstr1_step m hw (eye L.dim) xn .le L.xUp (by rw [lx]; exact eye_hasCols _)
      (by simp [hu]) hx
    obtain ⟨m2, h2, S2⟩ := mconstr1_step m1 S1.wf (negEye L.dim) xn .le (vneg L.xLo)
      (by rw [lx]; exact negEye_hasCols _) (by simp [Lyap.dim]) (fun i hi => by have := S1.n; have := hx i hi; omega)
    rw [lx] at h1 h2
    refine ⟨m2, by simp [Lyap.roaNext, h1, h2], ((S1.trans S2).congr rfl fun v => ?_).enc0 hw⟩
    simp only [Sense.Rel, forall_const]
    constructor
    · rintro ⟨a1, a2⟩
      refine ⟨by rw [List.length_map]; exact lx, by simp [lx, hu], fun i hi => ?_⟩
      have hi' : i < L.dim := by simpa [lx] using hi
      have b1 := a1 i (by omega)
      have b2 := a2 i (by simpa [Lyap.dim] using hi')
      rw [getD_eye _ _ hi', dot_eyeRow _ _ _ hi'] at b1
      rw [getD_negEye _ _ hi', dot_vneg_left, dot_eyeRow _ _ _ hi', getD_vneg] at b2
      exact ⟨by linarith, b1⟩
    · rintro ⟨-, -, h⟩
      refine ⟨fun i hi => ?_, fun i hi => ?_⟩
      · have hi' : i < L.dim := by omega
        rw [getD_eye _ _ hi', dot_eyeRow _ _ _ hi']
        exact (h i (by simpa [lx] using hi')).2
      · have hi' : i < L.dim := by simpa [Lyap.dim] using hi
        rw [getD_negEye _ _ hi', dot_vneg_left, dot_eyeRow _ _ _ hi', getD_vneg]
        linarith [(h i (by simpa [lx] using hi')).1]

/-- C37. `_construct_milp_for_roa`: the program is built, it minimises; its points are the states of the box with a
successor next to the box (`x_curr_in_box`), or the states of the box that are next to it with a successor in the box, and
the objective is `V(x)`. -/
theorem C37_program (L : Lyap K) (hL : L.NetOk) {R : Option (Tensor2 K)} {R' : Mat K} {xe : Vec K}
    (h : L.EqOk R R' xe) (lam : K) {sys : SysConstr K} {Dom Rel : Vec K → Vec K → Prop} (hsys : SysEnc sys L.dim Dom Rel)
    (loL upL : Vec K) (inBox : Bool) :
    ∃ m x xn, L.roaMilp sys lam R xe loL upL inBox = some (m, x, xn) ∧ x.length = L.dim ∧ xn.length = L.dim ∧
      m.obj.map MilpObj.maximize = some false ∧
      (∀ v, m.Feas v → InBox L.xLo L.xUp (x.map v) ∧ Rel (x.map v) (xn.map v) ∧
        InShell L.xLo L.xUp loL upL (if inBox then xn.map v else x.map v) ∧
        (inBox = false → InBox L.xLo L.xUp (xn.map v)) ∧ m.objVal v = lyapV L.net R' lam xe (x.map v)) ∧
      ∀ y yn, InBox L.xLo L.xUp y → yn.length = L.dim → Dom y yn →
        InShell L.xLo L.xUp loL upL (if inBox then yn else y) → (inBox = false → InBox L.xLo L.xUp yn) →
        ∃ v, m.Feas v ∧ x.map v = y ∧ xn.map v = yn := by
  obtain ⟨m1, h1, w1, n1, f1⟩ := start_free (Mip.empty : Mip K) Mip.WF.empty feas_empty L.dim
  have e0 : (Mip.empty : Mip K).n = 0 := rfl
  rw [e0] at h1 n1
  rw [zero_add] at n1
  obtain ⟨m2, h2, w2, n2, f2⟩ := start_free m1 w1 f1 L.dim
  rw [n1] at h2 n2
  set x := List.range' 0 L.dim with hx
  set xn := List.range' L.dim L.dim with hxn
  have lxn : xn.length = L.dim := by simp [hxn]
  have lx : x.length = L.dim := by simp [hx]
  have bx : ∀ i ∈ x, i < L.dim := fun i hi => mem_range'_lt (by omega) i hi
  have bxn : ∀ i ∈ xn, L.dim ≤ i ∧ i < m2.n := fun i hi => by
    rw [hxn, List.mem_range'_1] at hi
    omega
  have b2 : ∀ i ∈ x, i < m2.n := fun i hi => by have := bx i hi; omega
  have b2n : ∀ i ∈ xn, i < m2.n := fun i hi => (bxn i hi).2
  have ndx : (x ++ xn).Nodup := by
    refine List.Nodup.append List.nodup_range' List.nodup_range' ?_
    intro i hi hi'
    have := bx i hi
    have := (bxn i hi').1
    omega
  obtain ⟨m3, ds, dg, h3, E3⟩ := hsys m2 x xn w2 lx lxn ndx b2 b2n
  obtain ⟨m4, h4, E4⟩ := roaNext_enc L h.up inBox m3 E3.wf xn lxn (fun i hi => lt_of_lt_of_le (b2n i hi) E3.n)
  have q4 := E3.n.trans E4.n
  obtain ⟨t, h5, tz, tb, tn, ta, tbb, -, E5⟩ := relu_enc L hL m4 E4.wf x lx
    (fun i hi => lt_of_lt_of_le (b2 i hi) q4)
  have q5 := q4.trans E5.n
  obtain ⟨m6, z, m7, m8, ts, m9, h6, h7, h8, h9, E9⟩ := union_enc t.m E5.wf L.xLo L.xUp loL upL h.up
    (if inBox then xn else x) (by split <;> assumption) (by
      split
      · exact fun i hi => lt_of_lt_of_le (b2n i hi) q5
      · exact fun i hi => lt_of_lt_of_le (b2 i hi) q5)
  have q9 := q5.trans E9.n
  obtain ⟨m10, s, al, h10, ls, nds, hs, E10⟩ := l1_enc L h m9 E9.wf x lx
    (fun i hi => lt_of_lt_of_le (b2 i hi) q9) false
  have hmap : ∀ v : ℕ → K, (if inBox then xn else x).map v = if inBox then xn.map v else x.map v := by
    intro v
    split <;> rfl
  have E9' := E9.weaken (D2 := fun v => InShell L.xLo L.xUp loL upL (if inBox then xn.map v else x.map v))
    (R2 := fun v => InShell L.xLo L.xUp loL upL (if inBox then xn.map v else x.map v))
    (fun v _ hv => (roaBox_shell _ _ _ _ _ h.up).2 (by rw [hmap]; exact hv))
    (fun v _ hv => by
      have := (roaBox_shell _ _ _ _ _ h.up).1 hv
      rwa [hmap] at this)
  have hD : DepsBelow m2.n fun v => InBox L.xLo L.xUp (x.map v) ∧ Dom (x.map v) (xn.map v) ∧
      InShell L.xLo L.xUp loL upL (if inBox then xn.map v else x.map v) ∧
      (inBox = false → InBox L.xLo L.xUp (xn.map v)) :=
    depsBelow_map2 x xn b2 b2n fun y yn => InBox L.xLo L.xUp y ∧ Dom y yn ∧
      InShell L.xLo L.xUp loL upL (if inBox then yn else y) ∧ (inBox = false → InBox L.xLo L.xUp yn)
  have C1 := (E3.weaken (fun v _ h => h.2.1) (fun _ _ h => h)).seq E4 hD (fun v h _ => h.2.2.2)
  have C2 := C1.seq E5 hD (fun v h _ => h.1)
  have C3 := C2.seq E9' hD (fun v h _ => h.2.2.1)
  have C4 := C3.seq E10 hD (fun v h _ => h.1)
  have htz : ∀ i ∈ t.z, i < t.m.n := fun i hi => by
    rw [tz, List.mem_range'_1] at hi
    omega
  obtain ⟨m11, h11, f11, o11, v11⟩ := obj_set m10 C4.wf [t.a, fullVec s.length lam] [t.z, s]
    (t.b - L.phi xe) false (by simp [ta, tz, length_aOut L hL, fullVec])
    (by
      simp only [List.flatten_cons, List.flatten_nil, List.append_nil]
      refine List.Nodup.append (by rw [tz]; exact List.nodup_range') nds ?_
      intro i hi hi'
      have := htz i hi
      have := (hs i hi').1
      have := E9.n
      omega)
    (by
      simp only [List.flatten_cons, List.flatten_nil, List.append_nil, List.mem_append]
      rintro i (hi | hi)
      · have := htz i hi
        have := E9.n
        have := E10.n
        omega
      · exact (hs i hi).2)
  refine ⟨m11, x, xn, ?_, lx, lxn, o11, fun v hv => ?_, fun y yn hy lyn hdom hsh hbn => ?_⟩
  · unfold Lyap.roaMilp
    simp only [Lyap.dim] at *
    simp only [Option.bind_eq_bind, Option.bind_some, h1, h2, h3, h4, h5, h6, h7, h8, h9, h10, h11]
  · rw [f11] at hv
    obtain ⟨-, ⟨⟨⟨r3, r4⟩, r5⟩, r9⟩, r10, -⟩ := C4.sound v hv
    refine ⟨r5.1, r3, r9, r4, ?_⟩
    have := l1_sum r10 lam
    rw [List.length_map] at this
    rw [v11]
    simp only [objExpr, List.zipWith_cons_cons, List.zipWith_nil_left, List.sum_cons, List.sum_nil]
    rw [this]
    have hphi : dot t.a (t.z.map v) = L.phi (x.map v) - t.b := by rw [← r5.2.2]; ring
    rw [hphi]
    show _ = L.phi (x.map v) - L.phi xe + lam * l1err R' xe (x.map v)
    ring
  · have ly : y.length = L.dim := hy.1
    have e1 : x.map (upd (fun _ => 0) 0 (y ++ yn)) = y := by
      have hm := map_upd (fun _ => (0 : K)) 0 (y ++ yn) (L.dim + L.dim) (by simp [ly, lyn])
      rw [← List.range'_append_1, List.map_append, zero_add] at hm
      exact List.append_inj_left hm (by simp [ly, lx])
    have e2 : xn.map (upd (fun _ => 0) 0 (y ++ yn)) = yn := by
      have hm := map_upd (fun _ => (0 : K)) 0 (y ++ yn) (L.dim + L.dim) (by simp [ly, lyn])
      rw [← List.range'_append_1, List.map_append, zero_add] at hm
      exact List.append_inj_right hm (by simp [ly])
    obtain ⟨v', hv', hf'⟩ := C4.complete (upd (fun _ => 0) 0 (y ++ yn)) (f2 _)
      (by rw [e1, e2]; exact ⟨hy, hdom, hsh, hbn⟩)
    refine ⟨v', (f11 v').2 hf', ?_, ?_⟩
    · rw [← e1]
      exact List.map_congr_left fun i hi => hv' i (b2 i hi)
    · rw [← e2]
      exact List.map_congr_left fun i hi => hv' i (b2n i hi)

/-- The value used for a program: its minimum, or `inf` when it has no point. -/
def MinOf (m : Mip K) : Option K → Prop
  | some c => (∃ v, m.Feas v ∧ m.objVal v = c) ∧ ∀ v, m.Feas v → c ≤ m.objVal v
  | none => ∀ v, ¬ m.Feas v

theorem below_roaValue {o1 o2 vu : Option K} {a : K} (h : Below (roaValue o1 o2 vu) a) :
    Below o1 a ∧ Below o2 a ∧ Below vu a := by
  unfold Below roaValue at *
  cases o1 <;> cases o2 <;> cases vu <;> simp_all [minInf]

theorem roaValue_below {o1 o2 vu : Option K} {a : K} (h1 : Below o1 a) (h2 : Below o2 a) (h3 : Below vu a) :
    Below (roaValue o1 o2 vu) a := by
  unfold Below roaValue at *
  cases o1 <;> cases o2 <;> cases vu <;> simp_all [minInf]

/-- What `compute_region_of_attraction` computes: the two programs, their optimal values, the smallest one. -/
structure RoaRun (L : Lyap K) (sys : SysConstr K) (lam : K) (R : Option (Tensor2 K)) (xe loL upL : Vec K)
    (vUpper rho : Option K) : Prop where
  run : ∃ p1 p2 o1 o2, L.roaMilp sys lam R xe loL upL true = some p1 ∧
    L.roaMilp sys lam R xe loL upL false = some p2 ∧ MinOf p1.1 o1 ∧ MinOf p2.1 o2 ∧ rho = roaValue o1 o2 vUpper

/-- C37. A state of the box below the returned level has no successor next to the box, is below `V_upper_bound`, and is
in the interior if a successor is in the box. -/
theorem C37_no_exit {L : Lyap K} (hL : L.NetOk) {R : Option (Tensor2 K)} {R' : Mat K} {xe : Vec K}
    (h : L.EqOk R R' xe) {lam : K} {sys : SysConstr K} {Rel : Vec K → Vec K → Prop} (hsys : SysEnc sys L.dim Rel Rel)
    {loL upL : Vec K} {vu rho : Option K} (hr : RoaRun L sys lam R xe loL upL vu rho) {x xn : Vec K}
    (hx : InBox L.xLo L.xUp x) (hn : xn.length = L.dim) (hs : Rel x xn) (hV : Below rho (lyapV L.net R' lam xe x)) :
    ¬ InShell L.xLo L.xUp loL upL xn ∧ (InBox L.xLo L.xUp xn → ¬ InShell L.xLo L.xUp loL upL x) ∧
      Below vu (lyapV L.net R' lam xe x) := by
  obtain ⟨p1, p2, o1, o2, e1, e2, M1, M2, rfl⟩ := hr.run
  obtain ⟨V1, V2, V3⟩ := below_roaValue hV
  obtain ⟨m1, x1, xn1, q1, -, -, -, s1, c1⟩ := C37_program L hL h lam hsys loL upL true
  obtain ⟨m2, x2, xn2, q2, -, -, -, s2, c2⟩ := C37_program L hL h lam hsys loL upL false
  rw [e1] at q1
  rw [e2] at q2
  cases q1
  cases q2
  refine ⟨fun hsh => ?_, fun hb hsh => ?_, V3⟩
  · obtain ⟨v, hv, ex, -⟩ := c1 x xn hx hn hs (by simpa using hsh) (by simp)
    cases o1 with
    | none => exact M1 v hv
    | some c =>
      have a1 := M1.2 v hv
      have a2 := V1 c rfl
      rw [(s1 v hv).2.2.2.2, ex] at a1
      exact absurd a2 (not_lt.2 a1)
  · obtain ⟨v, hv, ex, -⟩ := c2 x xn hx hn hs (by simpa using hsh) (fun _ => hb)
    cases o2 with
    | none => exact M2 v hv
    | some c =>
      have a1 := M2.2 v hv
      have a2 := V2 c rfl
      rw [(s2 v hv).2.2.2.2, ex] at a1
      exact absurd a2 (not_lt.2 a1)

/-- C37. The level is the largest with this property: it is `V_upper_bound`, or attained at a state with a successor next
to the box, or at a state of the boundary with a successor in the box. -/
theorem C37_tight {L : Lyap K} (hL : L.NetOk) {R : Option (Tensor2 K)} {R' : Mat K} {xe : Vec K}
    (h : L.EqOk R R' xe) {lam : K} {sys : SysConstr K} {Rel : Vec K → Vec K → Prop} (hsys : SysEnc sys L.dim Rel Rel)
    {loL upL : Vec K} {vu : Option K} {r : K} (hr : RoaRun L sys lam R xe loL upL vu (some r)) :
    vu = some r ∨ ∃ x xn, InBox L.xLo L.xUp x ∧ Rel x xn ∧ lyapV L.net R' lam xe x = r ∧
      (InShell L.xLo L.xUp loL upL xn ∨ InShell L.xLo L.xUp loL upL x ∧ InBox L.xLo L.xUp xn) := by
  obtain ⟨p1, p2, o1, o2, e1, e2, M1, M2, hrho⟩ := hr.run
  obtain ⟨m1, x1, xn1, q1, -, -, -, s1, c1⟩ := C37_program L hL h lam hsys loL upL true
  obtain ⟨m2, x2, xn2, q2, -, -, -, s2, c2⟩ := C37_program L hL h lam hsys loL upL false
  rw [e1] at q1
  rw [e2] at q2
  cases q1
  cases q2
  have hcase : vu = some r ∨ o1 = some r ∨ o2 = some r := by
    have hmin : ∀ a b c : Option K, minInf a b = c → c = a ∨ c = b := by
      rintro a b c rfl
      cases a <;> cases b <;> simp [minInf]
      rename_i a b
      exact (le_total a b).imp_right fun e => e
    rcases hmin _ _ _ hrho.symm with e | e
    · rcases hmin _ _ _ e.symm with e | e
      · exact Or.inr (Or.inl e.symm)
      · exact Or.inr (Or.inr e.symm)
    · exact Or.inl e.symm
  rcases hcase with e | rfl | rfl
  · exact Or.inl e
  · obtain ⟨v, hv, ho⟩ := M1.1
    obtain ⟨a1, a2, a3, -, a5⟩ := s1 v hv
    exact Or.inr ⟨_, _, a1, a2, by rw [← a5, ho], Or.inl (by simpa using a3)⟩
  · obtain ⟨v, hv, ho⟩ := M2.1
    obtain ⟨a1, a2, a3, a4, a5⟩ := s2 v hv
    exact Or.inr ⟨_, _, a1, a2, by rw [← a5, ho], Or.inr ⟨by simpa using a3, a4 rfl⟩⟩

/-- The full claim: every state of the box below the level has its successors in the box. -/
def RoaInvariant (L : Lyap K) (R' : Mat K) (lam : K) (xe : Vec K) (Rel : Vec K → Vec K → Prop) (rho : Option K) : Prop :=
  ∀ x xn, InBox L.xLo L.xUp x → Rel x xn → Below rho (lyapV L.net R' lam xe x) → InBox L.xLo L.xUp xn

/-- C37 for systems that leave the box through one face at a time, and not beyond the larger box. Missing: successors
that violate the bounds of two coordinates at once, or are outside of the larger box; for these the claim is false
(`C37_corner_counterexample`). -/
theorem C37_invariant_partial {L : Lyap K} (hL : L.NetOk) {R : Option (Tensor2 K)} {R' : Mat K} {xe : Vec K}
    (h : L.EqOk R R' xe) {lam : K} {sys : SysConstr K} {Rel : Vec K → Vec K → Prop} (hsys : SysEnc sys L.dim Rel Rel)
    {loL upL : Vec K} {vu rho : Option K} (hr : RoaRun L sys lam R xe loL upL vu rho)
    (hface : ∀ x xn, InBox L.xLo L.xUp x → Rel x xn → InBox L.xLo L.xUp xn ∨ InShell L.xLo L.xUp loL upL xn) :
    RoaInvariant L R' lam xe Rel rho := by
  intro x xn hx hs hV
  rcases hface x xn hx hs with hb | hb
  · exact hb
  · exact absurd hb (C37_no_exit hL h hsys hr hx hb.1 hs hV).1

/-- C37 for one-dimensional systems whose successors stay within the larger interval: the claim holds in full. -/
theorem C37_one_dim {L : Lyap K} (hL : L.NetOk) {R : Option (Tensor2 K)} {R' : Mat K} {xe : Vec K}
    (h : L.EqOk R R' xe) {lam : K} {sys : SysConstr K} {Rel : Vec K → Vec K → Prop} (hsys : SysEnc sys L.dim Rel Rel)
    {loL upL : Vec K} {vu rho : Option K} (hr : RoaRun L sys lam R xe loL upL vu rho) (h1 : L.dim = 1)
    (hlarge : ∀ x xn, InBox L.xLo L.xUp x → Rel x xn → InBox loL upL xn) (hll : loL.length = 1) :
    RoaInvariant L R' lam xe Rel rho := by
  refine C37_invariant_partial hL h hsys hr fun x xn hx hs => ?_
  obtain ⟨a1, a2, a3⟩ := hlarge x xn hx hs
  have hu := h.up
  have hd : L.xLo.length = 1 := h1
  rw [h1] at hu
  have b := a3 0 (by omega)
  by_cases c1 : xn.getD 0 0 < L.xLo.getD 0 0
  · exact Or.inr ⟨by omega, 0, by omega, Or.inr ⟨b.1, c1.le⟩, fun j hj hne => by omega⟩
  by_cases c2 : L.xUp.getD 0 0 < xn.getD 0 0
  · exact Or.inr ⟨by omega, 0, by omega, Or.inl ⟨c2.le, b.2⟩, fun j hj hne => by omega⟩
  refine Or.inl ⟨by omega, by omega, fun i hi => ?_⟩
  have : i = 0 := by omega
  subst this
  exact ⟨not_lt.1 c1, not_lt.1 c2⟩

/-- A trajectory that starts in the box below the level stays there, when the value does not grow within the box and
exits go through one face. -/
theorem C37_trajectory_partial {L : Lyap K} (hL : L.NetOk) {R : Option (Tensor2 K)} {R' : Mat K} {xe : Vec K}
    (h : L.EqOk R R' xe) {lam : K} {sys : SysConstr K} {Rel : Vec K → Vec K → Prop} (hsys : SysEnc sys L.dim Rel Rel)
    {loL upL : Vec K} {vu rho : Option K} (hr : RoaRun L sys lam R xe loL upL vu rho)
    (hface : ∀ x xn, InBox L.xLo L.xUp x → Rel x xn → InBox L.xLo L.xUp xn ∨ InShell L.xLo L.xUp loL upL xn)
    (hdec : ∀ x xn, InBox L.xLo L.xUp x → InBox L.xLo L.xUp xn → Rel x xn → Below vu (lyapV L.net R' lam xe x) →
      lyapV L.net R' lam xe xn ≤ lyapV L.net R' lam xe x)
    (traj : ℕ → Vec K) (htraj : ∀ k, Rel (traj k) (traj (k + 1))) (h0 : InBox L.xLo L.xUp (traj 0))
    (hV : Below rho (lyapV L.net R' lam xe (traj 0))) (k : ℕ) :
    InBox L.xLo L.xUp (traj k) ∧ Below rho (lyapV L.net R' lam xe (traj k)) := by
  induction k with
  | zero => exact ⟨h0, hV⟩
  | succ k ih =>
    have hb := C37_invariant_partial hL h hsys hr hface _ _ ih.1 (htraj k) ih.2
    refine ⟨hb, fun r hr' => lt_of_le_of_lt (hdec _ _ ih.1 hb (htraj k) ?_) (ih.2 r hr')⟩
    exact (C37_no_exit hL h hsys hr ih.1 (by rw [hb.1]; rfl) (htraj k) ih.2).2.2

/-! ### Continuous dynamics -/

/-- The distance to the faces, over the first `k` coordinates. -/
noncomputable def faceDist (lo up w : Vec ℝ) : ℕ → ℝ
  | 0 => 1
  | k + 1 => min (faceDist lo up w k) (min (w.getD k 0 - lo.getD k 0) (up.getD k 0 - w.getD k 0))

theorem faceDist_nonneg (lo up w : Vec ℝ) (k : ℕ) : 0 ≤ faceDist lo up w k ↔
    ∀ i, i < k → lo.getD i 0 ≤ w.getD i 0 ∧ w.getD i 0 ≤ up.getD i 0 := by
  induction k with
  | zero => simp [faceDist]
  | succ k ih =>
    simp only [faceDist, le_min_iff, ih, sub_nonneg]
    constructor
    · rintro ⟨h1, h2⟩ i hi
      rcases Nat.lt_or_ge i k with h | h
      · exact h1 i h
      · have : i = k := by omega
        subst this
        exact h2
    · exact fun h => ⟨fun i hi => h i (by omega), h k (by omega)⟩

theorem faceDist_zero (lo up w : Vec ℝ) (k : ℕ) (h : faceDist lo up w k = 0) :
    ∃ i, i < k ∧ (w.getD i 0 = lo.getD i 0 ∨ w.getD i 0 = up.getD i 0) := by
  induction k with
  | zero => simp [faceDist] at h
  | succ k ih =>
    simp only [faceDist] at h
    rcases min_choice (faceDist lo up w k) (min (w.getD k 0 - lo.getD k 0) (up.getD k 0 - w.getD k 0)) with e | e
    · rw [e] at h
      obtain ⟨i, hi, h'⟩ := ih h
      exact ⟨i, by omega, h'⟩
    · rw [e] at h
      refine ⟨k, by omega, ?_⟩
      rcases min_choice (w.getD k 0 - lo.getD k 0) (up.getD k 0 - w.getD k 0) with e | e
      · rw [e] at h
        exact Or.inl (by linarith)
      · rw [e] at h
        exact Or.inr (by linarith)

/-- C37 for continuous dynamics, corners and successors outside of the larger box included: a state that is joined, within
the box and below the level, to a state with successor in the box (as `x*`) has its successor in the box. -/
theorem C37_continuous {L : Lyap ℝ} (hL : L.NetOk) {R : Option (Tensor2 ℝ)} {R' : Mat ℝ} {xe : Vec ℝ}
    (h : L.EqOk R R' xe) {lam : ℝ} {sys : SysConstr ℝ} {Rel : Vec ℝ → Vec ℝ → Prop} (hsys : SysEnc sys L.dim Rel Rel)
    {loL upL : Vec ℝ} {vu rho : Option ℝ} (hr : RoaRun L sys lam R xe loL upL vu rho)
    (hlarge : ∀ i, i < L.dim → loL.getD i 0 ≤ L.xLo.getD i 0 ∧ L.xUp.getD i 0 ≤ upL.getD i 0)
    (f : Vec ℝ → Vec ℝ) (path : ℝ → Vec ℝ)
    (hpath : ∀ t ∈ Set.Icc (0 : ℝ) 1, InBox L.xLo L.xUp (path t) ∧ Below rho (lyapV L.net R' lam xe (path t)) ∧
      Rel (path t) (f (path t)) ∧ (f (path t)).length = L.dim)
    (hcont : ∀ i, i < L.dim → ContinuousOn (fun t => (f (path t)).getD i 0) (Set.Icc 0 1))
    (h0 : InBox L.xLo L.xUp (f (path 0))) : InBox L.xLo L.xUp (f (path 1)) := by
  have hu := h.up
  have hin : ∀ t ∈ Set.Icc (0 : ℝ) 1, (InBox L.xLo L.xUp (f (path t)) ↔
      0 ≤ faceDist L.xLo L.xUp (f (path t)) L.dim) := by
    intro t ht
    have hl := (hpath t ht).2.2.2
    rw [faceDist_nonneg]
    constructor
    · exact fun h i hi => h.2.2 i (by omega)
    · exact fun h => ⟨hl, by omega, fun i hi => h i (by omega)⟩
  have hc : ∀ k, k ≤ L.dim → ContinuousOn (fun t => faceDist L.xLo L.xUp (f (path t)) k) (Set.Icc 0 1) := by
    intro k
    induction k with
    | zero => exact fun _ => continuousOn_const
    | succ k ih =>
      intro hk
      have h1 := hcont k (by omega)
      exact ContinuousOn.inf (ih (by omega)) (ContinuousOn.inf (h1.sub continuousOn_const) (continuousOn_const.sub h1))
  rw [hin 1 (by simp)]
  by_contra hneg
  obtain ⟨t, ht, hzero⟩ := intermediate_value_Icc' (zero_le_one) (hc L.dim le_rfl)
    ⟨(not_le.1 hneg).le, (hin 0 (by simp)).1 h0⟩
  obtain ⟨i, hi, hface⟩ := faceDist_zero _ _ _ _ hzero
  obtain ⟨b1, b2, b3, b4⟩ := hpath t ht
  have hbox := (hin t ht).2 hzero.ge
  refine (C37_no_exit hL h hsys hr b1 b4 b3 b2).1 ⟨b4, i, hi, ?_, fun j hj _ => hbox.2.2 j (by rw [b4]; exact hj)⟩
  have := hbox.2.2 i (by omega)
  rcases hface with e | e
  · exact Or.inr ⟨by rw [e]; exact (hlarge i hi).1, e.le⟩
  · exact Or.inl ⟨e.ge, by rw [e]; exact (hlarge i hi).2⟩

/-! ### The counterexample -/

/-- `x⁺ = x / 2` where `x₀ ≤ 1/2`. -/
def cornerModeA : AMode ℚ := ⟨[[1/2, 0], [0, 1/2]], [0, 0], [[1, 0], [-1, 0], [0, 1], [0, -1]], [1/2, 1, 1, 1]⟩

/-- `x⁺ = (3, 3)` where `x₀ ≥ 1/2`. -/
def cornerModeB : AMode ℚ := ⟨[[0, 0], [0, 0]], [3, 3], [[1, 0], [-1, 0], [0, 1], [0, -1]], [1, -1/2, 1, 1]⟩

theorem mem_rect (a1 b1 a2 b2 c d v : ℚ) : v ∈ polyValues 2 [[1, 0], [-1, 0], [0, 1], [0, -1]] [b1, a1, b2, a2] [c, d] ↔
    ∃ x y, -a1 ≤ x ∧ x ≤ b1 ∧ -a2 ≤ y ∧ y ≤ b2 ∧ c * x + d * y = v := by
  constructor
  · rintro ⟨w, hw, hP, rfl⟩
    obtain ⟨x, y, rfl⟩ := List.length_eq_two.1 hw
    have h1 := hP 0 (by simp)
    have h2 := hP 1 (by simp)
    have h3 := hP 2 (by simp)
    have h4 := hP 3 (by simp)
    simp [dot] at h1 h2 h3 h4
    exact ⟨x, y, by linarith, h1, by linarith, h3, by simp [dot]⟩
  · rintro ⟨x, y, h1, h2, h3, h4, rfl⟩
    refine ⟨[x, y], rfl, ?_, by simp [dot]⟩
    intro i hi
    match i, hi with
    | 0, _ => simpa [dot] using h2
    | 1, _ => simp [dot]; linarith
    | 2, _ => simpa [dot] using h4
    | 3, _ => simp [dot]; linarith
    | n + 4, hi => simp at hi

theorem rect_bounds (a1 b1 a2 b2 c d : ℚ) (x1 y1 x2 y2 : ℚ)
    (h1 : -a1 ≤ x1 ∧ x1 ≤ b1 ∧ -a2 ≤ y1 ∧ y1 ≤ b2) (h2 : -a1 ≤ x2 ∧ x2 ≤ b1 ∧ -a2 ≤ y2 ∧ y2 ≤ b2)
    (hm : ∀ x y, -a1 ≤ x → x ≤ b1 → -a2 ≤ y → y ≤ b2 → c * x1 + d * y1 ≤ c * x + d * y ∧
      c * x + d * y ≤ c * x2 + d * y2) :
    lpBounds exactLp 2 [[1, 0], [-1, 0], [0, 1], [0, -1]] [b1, a1, b2, a2] [c, d] =
      some (Ext.fin (c * x1 + d * y1), Ext.fin (c * x2 + d * y2)) := by
  refine exactLp_bounds ⟨(mem_rect _ _ _ _ _ _ _).2 ⟨x1, y1, h1.1, h1.2.1, h1.2.2.1, h1.2.2.2, rfl⟩, fun v hv => ?_⟩
    ⟨(mem_rect _ _ _ _ _ _ _).2 ⟨x2, y2, h2.1, h2.2.1, h2.2.2.1, h2.2.2.2, rfl⟩, fun v hv => ?_⟩
  · obtain ⟨x, y, a, b, c, d, rfl⟩ := (mem_rect _ _ _ _ _ _ _).1 hv
    exact (hm x y a b c d).1
  · obtain ⟨x, y, a, b, c, d, rfl⟩ := (mem_rect _ _ _ _ _ _ _).1 hv
    exact (hm x y a b c d).2

/-- The system with both modes. -/
def cornerSys : AutoHybrid ℚ where
  xdim := 2
  modes := [cornerModeA, cornerModeB]
  los := [[Ext.fin (-1), Ext.fin (-1)], [Ext.fin (1/2), Ext.fin (-1)]]
  ups := [[Ext.fin (1/2), Ext.fin 1], [Ext.fin 1, Ext.fin 1]]
  loAll := [Ext.fin (-1), Ext.fin (-1)]
  upAll := [Ext.fin 1, Ext.fin 1]
  axLo := [[Ext.fin (-1/2), Ext.fin (-1/2)], [Ext.fin 0, Ext.fin 0]]
  axUp := [[Ext.fin (1/4), Ext.fin (1/2)], [Ext.fin 0, Ext.fin 0]]
  dxLo := [Ext.fin (-1/2), Ext.fin (-1/2)]
  dxUp := [Ext.fin 3, Ext.fin 3]

theorem cornerSys_built : ABuilt exactLp 2 cornerSys := by
  have okA : cornerModeA.toH.Ok 2 0 := by decide
  have okB : cornerModeB.toH.Ok 2 0 := by decide
  have hadd : ∀ (a g : ℚ), Ext.addFin (Ext.fin a) g = Ext.fin (a + g) := fun a g => rfl
  have e1 : eye 2 = ([[1, 0], [0, 1]] : Mat ℚ) := by simp [eye, eyeRow, List.range_succ]
  have A1 := rect_bounds 1 (1/2) 1 1 1 0 (-1) 0 (1/2) 0 (by norm_num) (by norm_num)
    (fun x y _ _ _ _ => ⟨by linarith, by linarith⟩)
  have A2 := rect_bounds 1 (1/2) 1 1 0 1 0 (-1) 0 1 (by norm_num) (by norm_num)
    (fun x y _ _ _ _ => ⟨by linarith, by linarith⟩)
  have A3 := rect_bounds 1 (1/2) 1 1 (1/2) 0 (-1) 0 (1/2) 0 (by norm_num) (by norm_num)
    (fun x y _ _ _ _ => ⟨by linarith, by linarith⟩)
  have A4 := rect_bounds 1 (1/2) 1 1 0 (1/2) 0 (-1) 0 1 (by norm_num) (by norm_num)
    (fun x y _ _ _ _ => ⟨by linarith, by linarith⟩)
  have B1 := rect_bounds (-1/2) 1 1 1 1 0 (1/2) 0 1 0 (by norm_num) (by norm_num)
    (fun x y _ _ _ _ => ⟨by linarith, by linarith⟩)
  have B2 := rect_bounds (-1/2) 1 1 1 0 1 1 (-1) 1 1 (by norm_num) (by norm_num)
    (fun x y _ _ _ _ => ⟨by linarith, by linarith⟩)
  have B3 := rect_bounds (-1/2) 1 1 1 0 0 1 0 1 0 (by norm_num) (by norm_num)
    (fun x y _ _ _ _ => ⟨by linarith, by linarith⟩)
  refine ABuilt.add (md := cornerModeB) (ABuilt.add (md := cornerModeA) (S' := ?S1) ABuilt.new ?h1) ?h2
  case h1 =>
    rw [AutoHybrid.addMode, if_pos okA]
    simp only [e1]
    simp only [boundsOf, cornerModeA, A1, A2, A3, A4, Option.bind_eq_bind, Option.bind_some]
    rfl
  case h2 =>
    rw [AutoHybrid.addMode, if_pos okB]
    simp only [e1]
    simp only [boundsOf, show cornerModeB.P = [[1, 0], [-1, 0], [0, 1], [0, -1]] from rfl,
      show cornerModeB.q = [1, -1/2, 1, 1] from rfl, show cornerModeB.A = [[0, 0], [0, 0]] from rfl, B1, B2, B3,
      Option.bind_eq_bind, Option.bind_some]
    simp only [cornerSys, List.replicate_succ, List.replicate_zero, List.zipWith_cons_cons, List.zipWith_nil_right,
      min_top_ext, max_bot_ext,
      show cornerModeB.g = [3, 3] from rfl, hadd, Props.fin_min, Props.fin_max, List.nil_append,
      List.cons_append]
    norm_num [cornerModeA, cornerModeB]

theorem cornerSys_mic : (cornerSys.mic none none).isSome := by
  decide

theorem cornerSys_enc : SysEnc cornerSys.addDynamics 2 (AStep cornerSys.modes) (AStep cornerSys.modes) :=
  C42_auto_dynamics exactLp_truthful cornerSys_built cornerSys_mic

/-- `V(x) = |x|₁` on the box `[-1, 1]²` (the network is zero). -/
def cornerL : Lyap ℚ :=
  { xLo := [-1, -1], xUp := [1, 1]
    net := { hidden := [(⟨2, [[1, 0], [0, 1]], some [0, 0]⟩, .relu)]
             last := ⟨2, [[0, 0]], some [0]⟩ } }

theorem cornerL_ok : cornerL.NetOk := by
  refine Lyap.netOk_ia rfl rfl ?_ ?_ rfl (by decide)
  · intro i hi
    have : i < 2 := hi
    interval_cases i <;> norm_num [cornerL]
  · simp [cornerL, Net.Ok, HidOk, Lin.Ok, HasCols, Lin.b, Lyap.dim]

theorem cornerEq_ok : cornerL.EqOk none (eye 2) [0, 0] := by
  refine ⟨rfl, rfl, ?_, by decide, rfl, rfl, ?_⟩
  · exact eye_hasCols 2
  · intro i hi
    have : i < 2 := hi
    interval_cases i <;> norm_num [cornerL]

theorem corner_V (a b : ℚ) : lyapV cornerL.net (eye 2) 1 [0, 0] [a, b] = |a| + |b| := by
  have e : eye 2 = ([[1, 0], [0, 1]] : Mat ℚ) := by simp [eye, eyeRow, List.range_succ]
  have z : ∀ x, cornerL.net.val x = 0 := by
    intro x
    simp [Net.val, Net.eval, cornerL, Lin.eval, Lin.b, matVec, vadd, hiddenOut, dot]
  simp [lyapV, err, z, e, norm1, matVec, vsub, dot]

/-- The minimum of a function over a relation, or `none` when it is empty. -/
def SemMin (P : Vec K → Vec K → Prop) (V : Vec K → K) : Option K → Prop
  | some c => (∃ x xn, P x xn ∧ V x = c) ∧ ∀ x xn, P x xn → c ≤ V x
  | none => ∀ x xn, ¬ P x xn

/-- The two programs have the optimal values that the exits have. -/
theorem roaRun_intro {L : Lyap K} (hL : L.NetOk) {R : Option (Tensor2 K)} {R' : Mat K} {xe : Vec K}
    (h : L.EqOk R R' xe) {lam : K} {sys : SysConstr K} {Rel : Vec K → Vec K → Prop} (hsys : SysEnc sys L.dim Rel Rel)
    (loL upL : Vec K) (vu : Option K) {o1 o2 : Option K}
    (h1 : SemMin (fun x xn => InBox L.xLo L.xUp x ∧ Rel x xn ∧ InShell L.xLo L.xUp loL upL xn)
      (lyapV L.net R' lam xe) o1)
    (h2 : SemMin (fun x xn => InBox L.xLo L.xUp x ∧ Rel x xn ∧ InShell L.xLo L.xUp loL upL x ∧ InBox L.xLo L.xUp xn)
      (lyapV L.net R' lam xe) o2) :
    RoaRun L sys lam R xe loL upL vu (roaValue o1 o2 vu) := by
  obtain ⟨m1, x1, xn1, q1, -, -, -, s1, c1⟩ := C37_program L hL h lam hsys loL upL true
  obtain ⟨m2, x2, xn2, q2, -, -, -, s2, c2⟩ := C37_program L hL h lam hsys loL upL false
  refine ⟨⟨_, _, o1, o2, q1, q2, ?_, ?_, rfl⟩⟩
  · cases o1 with
    | none => exact fun v hv => h1 _ _ ⟨(s1 v hv).1, (s1 v hv).2.1, by simpa using (s1 v hv).2.2.1⟩
    | some c =>
      obtain ⟨⟨y, yn, ⟨a1, a2, a3⟩, rfl⟩, hmin⟩ := h1
      obtain ⟨v, hv, e1, e2⟩ := c1 y yn a1 a3.1 a2 (by simpa using a3) (by simp)
      refine ⟨⟨v, hv, by rw [(s1 v hv).2.2.2.2, e1]⟩, fun v hv => ?_⟩
      rw [(s1 v hv).2.2.2.2]
      exact hmin _ _ ⟨(s1 v hv).1, (s1 v hv).2.1, by simpa using (s1 v hv).2.2.1⟩
  · cases o2 with
    | none => exact fun v hv => h2 _ _ ⟨(s2 v hv).1, (s2 v hv).2.1, by simpa using (s2 v hv).2.2.1, (s2 v hv).2.2.2.1 rfl⟩
    | some c =>
      obtain ⟨⟨y, yn, ⟨a1, a2, a3, a4⟩, rfl⟩, hmin⟩ := h2
      obtain ⟨v, hv, e1, e2⟩ := c2 y yn a1 a4.1 a2 (by simpa using a3) (fun _ => a4)
      refine ⟨⟨v, hv, by rw [(s2 v hv).2.2.2.2, e1]⟩, fun v hv => ?_⟩
      rw [(s2 v hv).2.2.2.2]
      exact hmin _ _ ⟨(s2 v hv).1, (s2 v hv).2.1, by simpa using (s2 v hv).2.2.1, (s2 v hv).2.2.2.1 rfl⟩

theorem corner_box (x : Vec ℚ) : InBox cornerL.xLo cornerL.xUp x ↔
    ∃ a b, x = [a, b] ∧ -1 ≤ a ∧ a ≤ 1 ∧ -1 ≤ b ∧ b ≤ 1 := by
  constructor
  · rintro ⟨h1, -, h3⟩
    obtain ⟨a, b, rfl⟩ := List.length_eq_two.1 (show x.length = 2 from h1)
    have e0 := h3 0 (by simp)
    have e1 := h3 1 (by simp)
    simp [cornerL] at e0 e1
    exact ⟨a, b, rfl, e0.1, e0.2, e1.1, e1.2⟩
  · rintro ⟨a, b, rfl, h1, h2, h3, h4⟩
    refine ⟨rfl, rfl, fun i hi => ?_⟩
    have : i < 2 := hi
    interval_cases i <;> simp [cornerL, *]

theorem corner_step (a b : ℚ) (xn : Vec ℚ) : AStep cornerSys.modes [a, b] xn ↔
    (-1 ≤ a ∧ a ≤ 1/2 ∧ -1 ≤ b ∧ b ≤ 1 ∧ xn = [a / 2, b / 2]) ∨
    (1/2 ≤ a ∧ a ≤ 1 ∧ -1 ≤ b ∧ b ≤ 1 ∧ xn = [3, 3]) := by
  have hA : InPoly cornerModeA.P cornerModeA.q [a, b] ↔ -1 ≤ a ∧ a ≤ 1/2 ∧ -1 ≤ b ∧ b ≤ 1 := by
    constructor
    · intro h
      have h0 := h 0 (by simp [cornerModeA])
      have h1 := h 1 (by simp [cornerModeA])
      have h2 := h 2 (by simp [cornerModeA])
      have h3 := h 3 (by simp [cornerModeA])
      simp [cornerModeA, dot] at h0 h1 h2 h3
      exact ⟨by linarith, by linarith, by linarith, by linarith⟩
    · rintro ⟨h1, h2, h3, h4⟩ i hi
      have : i < 4 := hi
      interval_cases i <;> simp [cornerModeA, dot] <;> linarith
  have hB : InPoly cornerModeB.P cornerModeB.q [a, b] ↔ 1/2 ≤ a ∧ a ≤ 1 ∧ -1 ≤ b ∧ b ≤ 1 := by
    constructor
    · intro h
      have h0 := h 0 (by simp [cornerModeB])
      have h1 := h 1 (by simp [cornerModeB])
      have h2 := h 2 (by simp [cornerModeB])
      have h3 := h 3 (by simp [cornerModeB])
      simp [cornerModeB, dot] at h0 h1 h2 h3
      exact ⟨by linarith, by linarith, by linarith, by linarith⟩
    · rintro ⟨h1, h2, h3, h4⟩ i hi
      have : i < 4 := hi
      interval_cases i <;> simp [cornerModeB, dot] <;> linarith
  have eA : vadd (matVec cornerModeA.A [a, b]) cornerModeA.g = [a / 2, b / 2] := by
    simp [cornerModeA, matVec, dot, vadd]
    constructor <;> ring
  have eB : vadd (matVec cornerModeB.A [a, b]) cornerModeB.g = [3, 3] := by
    simp [cornerModeB, matVec, dot, vadd]
  simp only [AStep, cornerSys, List.mem_cons, List.not_mem_nil, or_false, exists_eq_or_imp, exists_eq_left, hA, hB, eA, eB,
    and_assoc]

/-- The full claim is false: with `V = |x|₁`, which every step within the box at least halves, the function returns the
level 1 for the box `[-1, 1]²` and the larger box `[-4, 4]²`, but the state `(3/4, 0)` at level `3/4` has its successor
`(3, 3)` outside: both coordinates leave the box in the same step, and neither program looks at such a successor. -/
theorem C37_corner_counterexample :
    cornerL.NetOk ∧ cornerL.EqOk none (eye 2) [0, 0] ∧
    SysEnc cornerSys.addDynamics 2 (AStep cornerSys.modes) (AStep cornerSys.modes) ∧
    (∀ x xn, InBox cornerL.xLo cornerL.xUp x → InBox cornerL.xLo cornerL.xUp xn → AStep cornerSys.modes x xn →
      lyapV cornerL.net (eye 2) 1 [0, 0] xn ≤ lyapV cornerL.net (eye 2) 1 [0, 0] x / 2) ∧
    RoaRun cornerL cornerSys.addDynamics 1 none [0, 0] [-4, -4] [4, 4] none (some 1) ∧
    (AStep cornerSys.modes [3/4, 0] [3, 3] ∧ lyapV cornerL.net (eye 2) 1 [0, 0] [3/4, 0] = 3/4) ∧
    ¬ RoaInvariant cornerL (eye 2) 1 [0, 0] (AStep cornerSys.modes) (some 1) := by
  have hst : AStep cornerSys.modes [3/4, 0] [3, 3] := by
    rw [corner_step]
    exact Or.inr (by norm_num)
  have hV : lyapV cornerL.net (eye 2) 1 [0, 0] [3/4, 0] = (3/4 : ℚ) := by
    rw [corner_V]
    norm_num [abs_of_pos]
  refine ⟨cornerL_ok, cornerEq_ok, cornerSys_enc, ?_, ?_, ⟨hst, hV⟩, ?_⟩
  · intro x xn hx hn hs
    obtain ⟨a, b, rfl, -⟩ := (corner_box x).1 hx
    rcases (corner_step a b xn).1 hs with ⟨-, -, -, -, rfl⟩ | ⟨-, -, -, -, rfl⟩
    · rw [corner_V, corner_V, abs_div, abs_div]
      simp only [Nat.abs_ofNat]
      linarith
    · obtain ⟨c, d, e, h⟩ := (corner_box _).1 hn
      simp only [List.cons.injEq] at e
      exfalso
      linarith [e.1]
  · refine roaRun_intro (o1 := none) (o2 := some 1) (vu := none) cornerL_ok cornerEq_ok cornerSys_enc _ _ ?_ ?_
    · rintro x xn ⟨hx, hs, -, i, hi, hbe⟩
      obtain ⟨a, b, rfl, -⟩ := (corner_box x).1 hx
      have hi' : i < 2 := hi
      rcases (corner_step a b xn).1 hs with ⟨h1, h2, h3, h4, rfl⟩ | ⟨-, -, -, -, rfl⟩
      · interval_cases i
        · rcases hbe.1 with e | e <;> simp [cornerL] at e <;> linarith [e.1, e.2]
        · rcases hbe.1 with e | e <;> simp [cornerL] at e <;> linarith [e.1, e.2]
      · interval_cases i
        · have := hbe.2 1 (by simp [cornerL]) (by simp)
          norm_num [cornerL] at this
        · have := hbe.2 0 (by simp [cornerL]) (by simp)
          norm_num [cornerL] at this
    · refine ⟨⟨[-1, 0], [-1/2, 0], ⟨?_, ?_, ?_, ?_⟩, ?_⟩, ?_⟩
      · exact (corner_box _).2 ⟨_, _, rfl, by norm_num⟩
      · rw [corner_step]
        exact Or.inl (by norm_num)
      · refine ⟨rfl, 0, by simp [cornerL], Or.inr (by norm_num [cornerL]), fun j hj hne => ?_⟩
        have : j < 2 := hj
        interval_cases j
        · exact absurd rfl hne
        · norm_num [cornerL]
      · exact (corner_box _).2 ⟨_, _, rfl, by norm_num⟩
      · rw [corner_V]
        norm_num
      · rintro x xn ⟨hx, -, ⟨-, i, hi, hbe⟩, -⟩
        obtain ⟨a, b, rfl, h1, h2, h3, h4⟩ := (corner_box x).1 hx
        have hi' : i < 2 := hi
        rw [corner_V]
        have ha := abs_nonneg a
        have hb := abs_nonneg b
        have ha1 := le_abs_self a
        have ha2 := neg_le_abs a
        have hb1 := le_abs_self b
        have hb2 := neg_le_abs b
        interval_cases i
        · rcases hbe.1 with e | e <;> simp [cornerL] at e <;> linarith [e.1, e.2]
        · rcases hbe.1 with e | e <;> simp [cornerL] at e <;> linarith [e.1, e.2]
  · intro hinv
    obtain ⟨c, d, e, h⟩ := (corner_box _).1 (hinv [3/4, 0] [3, 3] ((corner_box _).2 ⟨_, _, rfl, by norm_num⟩) hst (by
      intro r hr
      cases hr
      rw [hV]
      norm_num))
    simp only [List.cons.injEq] at e
    linarith [e.1]

/-! ### An example that leaves the box through two opposite faces -/

/-- `x⁺ = (3/2 x₀, 1/2 x₁)`. -/
abbrev stretchRel (y yn : Vec ℚ) : Prop := yn = matVec [[3/2, 0], [0, 1/2]] y

theorem stretch_enc : SysEnc (linSys 2 [[3/2, 0], [0, 1/2]]) cornerL.dim stretchRel stretchRel :=
  linSys_enc 2 _ (by simp [HasCols]) rfl

theorem stretch_step (a b : ℚ) (xn : Vec ℚ) : stretchRel [a, b] xn ↔ xn = [3/2 * a, 1/2 * b] := by
  simp [stretchRel, matVec, dot]

/-- The returned level is `2/3`. -/
theorem stretch_run : RoaRun cornerL (linSys 2 [[3/2, 0], [0, 1/2]]) 1 none [0, 0] [-4, -4] [4, 4] none (some (2/3)) := by
  have hm : roaValue (some (2/3)) (some 1) none = some (2/3 : ℚ) := by norm_num [roaValue, minInf]
  rw [← hm]
  refine roaRun_intro (o1 := some (2/3)) (o2 := some 1) (vu := none) cornerL_ok cornerEq_ok stretch_enc _ _ ?_ ?_
  · refine ⟨⟨[2/3, 0], [1, 0], ⟨?_, ?_, ?_⟩, ?_⟩, ?_⟩
    · exact (corner_box _).2 ⟨_, _, rfl, by norm_num⟩
    · rw [stretch_step]
      norm_num
    · refine ⟨rfl, 0, by simp [cornerL], Or.inl (by norm_num [cornerL]), fun j hj hne => ?_⟩
      have : j < 2 := hj
      interval_cases j
      · exact absurd rfl hne
      · norm_num [cornerL]
    · rw [corner_V]
      norm_num [abs_of_pos]
    · rintro x xn ⟨hx, hs, -, i, hi, hbe⟩
      obtain ⟨a, b, rfl, h1, h2, h3, h4⟩ := (corner_box x).1 hx
      have hi' : i < 2 := hi
      rw [stretch_step] at hs
      subst hs
      rw [corner_V]
      have ha := abs_nonneg a
      have hb := abs_nonneg b
      have ha1 := le_abs_self a
      have ha2 := neg_le_abs a
      interval_cases i
      · rcases hbe.1 with e | e <;> simp [cornerL] at e <;> linarith [e.1, e.2]
      · rcases hbe.1 with e | e <;> simp [cornerL] at e <;> linarith [e.1, e.2]
  · refine ⟨⟨[0, 1], [0, 1/2], ⟨?_, ?_, ?_, ?_⟩, ?_⟩, ?_⟩
    · exact (corner_box _).2 ⟨_, _, rfl, by norm_num⟩
    · rw [stretch_step]
      norm_num
    · refine ⟨rfl, 1, by simp [cornerL], Or.inl (by norm_num [cornerL]), fun j hj hne => ?_⟩
      have : j < 2 := hj
      interval_cases j
      · norm_num [cornerL]
      · exact absurd rfl hne
    · exact (corner_box _).2 ⟨_, _, rfl, by norm_num⟩
    · rw [corner_V]
      norm_num
    · rintro x xn ⟨hx, -, ⟨-, i, hi, hbe⟩, -⟩
      obtain ⟨a, b, rfl, h1, h2, h3, h4⟩ := (corner_box x).1 hx
      have hi' : i < 2 := hi
      rw [corner_V]
      have ha := abs_nonneg a
      have hb := abs_nonneg b
      have ha1 := le_abs_self a
      have ha2 := neg_le_abs a
      have hb1 := le_abs_self b
      have hb2 := neg_le_abs b
      interval_cases i
      · rcases hbe.1 with e | e <;> simp [cornerL] at e <;> linarith [e.1, e.2]
      · rcases hbe.1 with e | e <;> simp [cornerL] at e <;> linarith [e.1, e.2]

/-- All hypotheses of `C37_invariant_partial` hold for it: the box below the level `2/3` is never left. -/
example : RoaInvariant cornerL (eye 2) 1 [0, 0] stretchRel (some (2/3)) := by
  refine C37_invariant_partial cornerL_ok cornerEq_ok stretch_enc stretch_run fun x xn hx hs => ?_
  obtain ⟨a, b, rfl, h1, h2, h3, h4⟩ := (corner_box x).1 hx
  rw [stretch_step] at hs
  subst hs
  by_cases c : -(2/3) ≤ a ∧ a ≤ 2/3
  · exact Or.inl ((corner_box _).2 ⟨_, _, rfl, by linarith [c.1], by linarith [c.2], by linarith, by linarith⟩)
  · refine Or.inr ⟨rfl, 0, by simp [cornerL], ?_, fun j hj hne => ?_⟩
    · rcases not_and_or.1 c with c | c
      · exact Or.inr ⟨by simp; linarith, by simp [cornerL]; linarith⟩
      · exact Or.inl ⟨by simp [cornerL]; linarith, by simp; linarith⟩
    · have : j < 2 := hj
      interval_cases j
      · exact absurd rfl hne
      · simp [cornerL]
        constructor <;> linarith

end NNL.Props
