import Verif.Lemmas.Feedback
import Verif.Lemmas.ExampleSystems
import Verif.Model.UnicycleFeedback
import Verif.Spec.UnicycleFeedback
import Verif.Props.Feedback
import Verif.Props.ExampleSystems2

/-!
# C80: the controller of `UnicycleFeedbackSystem`
-/

set_option linter.unusedSectionVars false

namespace NNL.Props

open NNL NNL.Model NNL.Spec

variable {K : Type*} [Field K] [LinearOrder K] [IsStrictOrderedRing K]

/-- The assertions of the constructors, ordered state bounds, admissible limits. -/
structure UniOk (U : UniFeedback K) : Prop where
  fb : U.fb.Ok 3 2
  R : HasCols U.R 2
  acc : U.Accepted

/-! ## `compute_u` -/

theorem uni_len {U : UniFeedback K} (h : UniOk U) (x : Vec K) : (U.preSat x).length = 2 := by
  simp [UniFeedback.preSat, h.fb.out]

theorem uni_abs_sum {R : Mat K} (hR : HasCols R 2) {x : Vec K} (hx : x.length = 3) :
    ((matVec R (seg x 0 2)).map fun a => |a|) = R.map fun r => |r.getD 0 0 * x.getD 0 0 + r.getD 1 0 * x.getD 1 0| := by
  obtain ⟨a, b, c, rfl⟩ := length3 hx
  simp only [matVec, List.map_map]
  refine List.map_congr_left fun r hr => ?_
  obtain ⟨p, q, rfl⟩ := length2 (hR r hr)
  simp [seg, dot]

theorem uni_pre {U : UniFeedback K} (h : UniOk U) (x : Vec K) :
    (U.preSat x).getD 0 0 = (U.fb.ctrl.eval x).getD 0 0 - (U.fb.ctrl.eval [0, 0, 0]).getD 0 0 +
        U.lam * ((matVec U.R (seg x 0 2)).map fun a => |a|).sum ∧
      (U.preSat x).getD 1 0 = (U.fb.ctrl.eval x).getD 1 0 - (U.fb.ctrl.eval [0, 0, 0]).getD 1 0 := by
  have e : (zeros 3 : Vec K) = [0, 0, 0] := rfl
  unfold UniFeedback.preSat
  rw [e, getD_vadd _ _ _ (by simp [h.fb.out]), getD_vadd _ _ _ (by simp [h.fb.out]),
    getD_vsub _ _ _ (by simp [h.fb.out]), getD_vsub _ _ _ (by simp [h.fb.out])]
  simp

theorem uni_law {U : UniFeedback K} (h : UniOk U) (x : Vec K) :
    ∃ w, finVec (U.computeU x) = some w ∧ w.length = 2 ∧ (∀ i, i < 2 →
      Saturated (U.fb.uLower.getD i ⊥) (U.fb.uUpper.getD i ⊤) ((U.preSat x).getD i 0) (w.getD i 0)) ∧
      U.computeU x = w.map Ext.fin := by
  have lp := uni_len h x
  refine sat_list (fun l h q => max (min q h) l) (fun hl q u => sat_ext hl q u) (U.computeU x)
    (by simp [UniFeedback.computeU, lp, h.fb.lower, h.fb.upper]) (fun i hi => ?_) h.fb.limits
  simp [UniFeedback.computeU, List.getD, lp, h.fb.lower, h.fb.upper, hi]

theorem uni_iff {U : UniFeedback K} (h : UniOk U) (x w : Vec K) :
    finVec (U.computeU x) = some w ↔ w.length = 2 ∧ ∀ i, i < 2 →
      Saturated (U.fb.uLower.getD i ⊥) (U.fb.uUpper.getD i ⊤) ((U.preSat x).getD i 0) (w.getD i 0) := by
  obtain ⟨w', h1, h2, h3, -⟩ := uni_law h x
  constructor
  · intro hw
    rw [h1] at hw
    cases hw
    exact ⟨h2, h3⟩
  · rintro ⟨l, hs⟩
    rw [h1]
    congr 1
    exact vec_ext (by rw [h2, l]) fun i hi => sat_unique (h3 i (by omega)) (hs i (by omega))

/-- C80. `compute_u` is finite and is the documented control law, for one state and for every state of a batch. -/
theorem C80_compute_u {U : UniFeedback K} (h : UniOk U) {x : Vec K} (hx : x.length = 3) :
    (∃ u, finVec (U.computeU x) = some u) ∧
    (∀ u, finVec (U.computeU x) = some u ↔ UniControl U.fb.ctrl.eval U.lam U.R U.fb.uLower U.fb.uUpper x u) ∧
    ∀ X : Mat K, U.computeUBatch X = X.map U.computeU := by
  refine ⟨?_, fun u => ?_, fun X => rfl⟩
  · obtain ⟨w, hw, -⟩ := uni_law h x
    exact ⟨w, hw⟩
  · rw [uni_iff h, UniControl, ← uni_abs_sum h.R hx, ← (uni_pre h x).1, ← (uni_pre h x).2]
    refine and_congr Iff.rfl ⟨fun hs => ⟨hs 0 (by omega), hs 1 (by omega)⟩, fun hs i hi => ?_⟩
    interval_cases i
    · exact hs.1
    · exact hs.2

/-- C80. The velocity is never negative, and it is positive where the control before saturation and the upper limit
are. -/
theorem C80_velocity {U : UniFeedback K} (h : UniOk U) {x u : Vec K} (hu : finVec (U.computeU x) = some u) :
    0 ≤ u.getD 0 0 ∧ (0 < u.getD 0 0 ↔ 0 < (U.preSat x).getD 0 0 ∧ Ext.fin 0 < U.fb.uUpper.getD 0 ⊤) := by
  have hs := ((uni_iff h x u).1 hu).2 0 (by omega)
  have h0 := h.acc.2.2.1
  have hl := h.fb.limits 0 (by omega)
  rw [h0] at hs hl
  rcases hl with ⟨h1, -⟩ | ⟨a, b, h1, h2, hab⟩
  · cases h1
  rcases hs with ⟨h3, -⟩ | ⟨a', b', h3, h4, e⟩
  · cases h3
  cases h1
  cases h3
  rw [h2] at h4 ⊢
  cases h4
  have e' : u.getD 0 0 = max 0 (min ((U.preSat x).getD 0 0) b) := e
  have e2 : Ext.fin (0 : K) < Ext.fin b ↔ 0 < b := by simp [Ext.fin]
  rw [e', e2]
  refine ⟨le_max_left _ _, ?_⟩
  rw [lt_max_iff, lt_min_iff]
  simp

/-! ## The program -/

theorem uniAbs_enc (x : List ℕ) (lx : x.length = 2) (N : ℕ) (hx : ∀ i ∈ x, i < N) :
    ∀ (R : Mat K) (lb ub : Vec K) (m : Mip K), m.WF → N ≤ m.n → HasCols R 2 →
      lb.length = R.length → ub.length = R.length → (∀ i, i < R.length → lb.getD i 0 ≤ ub.getD i 0) →
      ∃ m' s, uniAbsLoop x R lb ub m = some (m', s) ∧
        s.length = R.length ∧ (∀ i ∈ s, m.n ≤ i ∧ i < m'.n) ∧
        Enc m m' (fun v => ∀ i, i < R.length →
            lb.getD i 0 ≤ dot (R.getD i []) (x.map v) ∧ dot (R.getD i []) (x.map v) ≤ ub.getD i 0) fun v =>
          ∀ i, i < R.length → v (s.getD i 0) = |dot (R.getD i []) (x.map v)| := by
  intro R
  induction R with
  | nil =>
    intro lb ub m hw hN _ h1 h2 _
    refine ⟨m, [], by cases lb <;> cases ub <;> simp_all [uniAbsLoop], rfl, by simp, ?_⟩
    exact ⟨hw, le_rfl, rfl, fun v hv => ⟨hv, by simp⟩, fun v hv _ => ⟨v, fun _ _ => rfl, hv⟩⟩
  | cons r R ih =>
    intro lb ub m hw hN hR h1 h2 hlu
    cases lb with
    | nil => simp at h1
    | cons l lb => cases ub with
      | nil => simp at h2
      | cons u ub =>
        have hx' : ∀ i ∈ x, i < m.n := fun i hi => lt_of_lt_of_le (hx i hi) hN
        obtain ⟨c, c', m1, e1, e2, e3, n1, enc1⟩ := absT_enc m hw x hx' r (zeros 2) l u false
          (by simpa using hlu 0 (by simp)) (by rw [lx]; exact hR r (by simp))
        obtain ⟨m', s, e4, ls, hs, enc2⟩ := ih lb ub m1 enc1.wf (hN.trans enc1.n)
          (fun q hq => hR q (by simp [hq])) (by simpa using h1) (by simpa using h2)
          (fun i hi => by simpa using hlu (i + 1) (by simpa using hi))
        have d0 : dot (vneg r) (zeros 2) = 0 := dot_zeros_right _ _
        have d1 : dot r (zeros 2) = 0 := dot_zeros_right _ _
        rw [d0, lx] at e2
        simp only [d1, sub_zero] at enc1
        have hpos : m.n < m1.n := by rw [n1]; omega
        refine ⟨m', m.n :: s, ?_, by simp [ls], ?_, ?_⟩
        · simp [uniAbsLoop, e1, e2, e3, e4]
        · intro i hi
          rcases List.mem_cons.1 hi with rfl | hi
          · exact ⟨le_rfl, lt_of_lt_of_le hpos enc2.n⟩
          · exact ⟨enc1.n.trans (hs i hi).1, (hs i hi).2⟩
        · have key := (enc1.weaken (D2 := fun v => ∀ i, i < (r :: R).length →
              (l :: lb).getD i 0 ≤ dot ((r :: R).getD i []) (x.map v) ∧
              dot ((r :: R).getD i []) (x.map v) ≤ (u :: ub).getD i 0)
            (fun v _ h => by simpa using h 0 (by simp)) (fun v _ h => h)).trans enc2 (by
              intro v v' hv hD _ _ i hi
              have hm : x.map v' = x.map v := List.map_congr_left fun j hj => hv j (hx' j hj)
              rw [hm]
              simpa using hD (i + 1) (by simpa using hi))
          refine key.weaken (fun v _ h => h) ?_
          rintro v _ ⟨⟨_, a2, _, _⟩, b1⟩
          intro i hi
          cases i with
          | zero => simpa using a2
          | succ i => simpa using b1 i (by simpa using hi)

theorem absBounds_sound {l u a : K} (h1 : l ≤ a) (h2 : a ≤ u) :
    (absBounds l u).1 ≤ |a| ∧ |a| ≤ (absBounds l u).2 := by
  unfold absBounds
  split_ifs with c1 c2 c3
  · refine ⟨abs_nonneg _, ?_⟩
    rcases abs_cases a with ⟨e, -⟩ | ⟨e, -⟩
    · rw [e]; exact h2.trans (le_max_right _ _)
    · rw [e]; exact (neg_le_neg h1).trans (le_max_left _ _)
  · rw [abs_of_nonneg (c2.trans h1)]
    exact ⟨h1, h2⟩
  · rw [abs_of_nonpos (h2.trans c3)]
    exact ⟨neg_le_neg h2, neg_le_neg h1⟩
  · exfalso
    exact c1 ⟨not_le.1 c2, not_le.1 c3⟩

theorem sum_bounds : ∀ {a b c : Vec K}, InBox a b c → a.sum ≤ c.sum ∧ c.sum ≤ b.sum
  | [], [], [], _ => ⟨le_rfl, le_rfl⟩
  | [], _ :: _, [], h => by simp [InBox] at h
  | _ :: _, _, [], h => by simp [InBox] at h
  | [], _, _ :: _, h => by simp [InBox] at h
  | _ :: _, [], _ :: _, h => by simp [InBox] at h
  | x :: a, y :: b, z :: c, ⟨h1, h2, h3⟩ => by
    have := sum_bounds (a := a) (b := b) (c := c) ⟨by simpa using h1, by simpa using h2, fun i hi => by
      simpa using h3 (i + 1) (by simpa using hi)⟩
    have h0 := h3 0 (by simp)
    simp at h0
    simp only [List.sum_cons]
    constructor <;> linarith [this.1, this.2]

theorem abs_box {a b c : Vec K} (h : InBox a b c) :
    InBox ((List.zipWith absBounds a b).map Prod.fst) ((List.zipWith absBounds a b).map Prod.snd)
      (c.map fun a => |a|) := by
  obtain ⟨h1, h2, h3⟩ := h
  refine ⟨by simp; omega, by simp; omega, fun i hi => ?_⟩
  have hi : i < c.length := by simpa using hi
  have := absBounds_sound (h3 i hi).1 (h3 i hi).2
  have hia : i < a.length := by omega
  have hib : i < b.length := by omega
  simpa [List.getD, hi, hia, hib] using this

/-- C80. The program of the controller network: it is built, its bounds of the input hold for the control of every
state of the box, and it is satisfiable exactly by the states of the box with their control. -/
theorem C80_program {U : UniFeedback K} (h : UniOk U) {N : Net K} {method : Method K} (hc : U.fb.ctrl = .net N method)
    (m : Mip K) (hw : m.WF) (x u : List ℕ) (lx : x.length = 3) (lu : u.length = 2) (hx : ∀ i ∈ x, i < m.n)
    (hu : ∀ i ∈ u, i < m.n) :
    ∃ m' s g lo up, U.addCtrl m x u = some (m', s, g, lo, up) ∧ lo.length = 2 ∧ up.length = 2 ∧
      (∀ y w, InBox U.fb.xLo U.fb.xUp y → finVec (U.computeU y) = some w → InBox lo up w) ∧
      Enc m m' (fun v => InBox U.fb.xLo U.fb.xUp (x.map v) ∧ finVec (U.computeU (x.map v)) = some (u.map v)) fun v =>
        InBox U.fb.xLo U.fb.xUp (x.map v) ∧ finVec (U.computeU (x.map v)) = some (u.map v) := by
  obtain ⟨hN, hW, hM, hr⟩ := h.fb.net N method hc
  obtain ⟨r, hr⟩ := Option.isSome_iff_exists.1 hr
  have hev : U.fb.ctrl.eval = N.eval := by rw [hc]; rfl
  have ln : ∀ x, (N.eval x).length = 2 := fun x => by rw [← hev, h.fb.out]
  have nb := netBlock_of hr hN hM h.fb.lo h.fb.up
  have lseg : (seg x 0 2).length = 2 := by simp [seg, lx]
  have hseg : ∀ i ∈ seg x 0 2, i < m.n := fun i hi => hx i (by
    have := List.mem_of_mem_take hi
    exact List.mem_of_mem_drop this)
  have smap : ∀ v : ℕ → K, (seg x 0 2).map v = seg (x.map v) 0 2 := fun v => by simp [seg]
  -- the network
  obtain ⟨m1, hm1, hn1, e1⟩ := mic_enc m hw r.mic x (by rw [lx]; exact nb.ready) hx
  set sl := List.range' m.n r.mic.numSlack with hsl
  set bi := List.range' (m.n + r.mic.numSlack) r.mic.numBinary with hbi
  -- the absolute values
  have segbox : ∀ y : Vec K, InBox U.fb.xLo U.fb.xUp y → InBox (seg U.fb.xLo 0 2) (seg U.fb.xUp 0 2) (seg y 0 2) := by
    intro y hy
    have ly : y.length = 3 := by rw [hy.1, h.fb.lo]
    rw [seg_box h.fb.lo h.fb.up ly 0 2 (by omega)]
    intro i _ hi
    exact hy.2.2 i (by omega)
  have hlo : InBox U.fb.xLo U.fb.xUp U.fb.xLo :=
    ⟨rfl, by rw [h.fb.lo, h.fb.up], fun i hi => ⟨le_rfl, h.fb.le i (by rw [← h.fb.lo]; exact hi)⟩⟩
  obtain ⟨⟨ol, ou⟩, hb⟩ := Option.isSome_iff_exists.1 ((C08_ia_accepts 2 U.R (zeros U.R.length) (seg U.fb.xLo 0 2)
    (seg U.fb.xUp 0 2)).2 ⟨by simp, by simp [seg, h.fb.lo], by simp [seg, h.fb.up]⟩)
  have rng : ∀ y : Vec K, InBox U.fb.xLo U.fb.xUp y → InBox ol ou (matVec U.R (seg y 0 2)) := by
    intro y hy
    have := C08_ia_sound hb (segbox y hy)
    have e : vadd (matVec U.R (seg y 0 2)) (zeros U.R.length) = matVec U.R (seg y 0 2) := by
      refine vec_ext (by simp) fun i hi => ?_
      rw [getD_vadd _ _ _ (by simp)]
      simp
    rwa [e] at this
  have r0 := rng _ hlo
  have ll : ol.length = U.R.length := by have := r0.1; simpa using this.symm
  have lu' : ou.length = U.R.length := by have := r0.2.1; simpa using this.symm
  obtain ⟨m2, ss, hm2, ls, hss, e2⟩ := uniAbs_enc (seg x 0 2) lseg m.n hseg U.R ol ou m1 e1.wf e1.n h.R ll lu'
    (fun i hi => by
      have := r0.2.2 i (by simpa using hi)
      exact this.1.trans this.2)
  have dotR : ∀ (y : Vec K) i, i < U.R.length → (matVec U.R y).getD i 0 = dot (U.R.getD i []) y := by
    intro y i hi
    rw [getD_matVec]
  -- the control before saturation
  obtain ⟨m3, hm3, s3⟩ := free_addVars m2 e2.wf 2
  set pre := List.range' m2.n 2 with hpre
  have lpre : pre.length = 2 := by simp [hpre]
  have lsl : sl.length = (netOut N).cols := by simp [hsl, nb.cols]
  have n3 : m3.n = m2.n + 2 := s3.n
  set e := N.eval (zeros 3) with he
  set T : Tensor2 K := ⟨U.R.length, [List.replicate U.R.length 1, zeros U.R.length].map (vsmul (-U.lam))⟩ with hT
  have lbe : (vsub N.last.b e).length = 2 := by simp [nb.lenb, hW, he, ln]
  obtain ⟨m4, hm4, s4⟩ := mconstr_step m3 s3.wf [(⟨2, eye 2⟩, pre), (⟨(netOut N).cols, (netOut N).rows.map vneg⟩, sl),
      (T, ss)] .eq (vsub N.last.b e) (by simp) (by
    rw [lbe]
    intro p hp
    simp only [List.mem_cons, List.not_mem_nil, or_false] at hp
    rcases hp with rfl | rfl | rfl
    · refine ⟨by simp [eye], lpre.symm, ?_, fun i hi => ?_⟩
      · intro q hq
        simp only [eye, List.mem_map] at hq
        obtain ⟨i, -, rfl⟩ := hq
        simp
      · have := (List.mem_range'_1.1 (hpre ▸ hi)).2
        omega
    · refine ⟨by simp [nb.rows, hW], lsl.symm, ?_, fun i hi => ?_⟩
      · intro q hq
        obtain ⟨q', hq', rfl⟩ := List.mem_map.1 hq
        simpa using nb.okA q' hq'
      · have := (List.mem_range'_1.1 (hsl ▸ hi)).2
        have := e2.n
        omega
    · refine ⟨rfl, ls.symm, ?_, fun i hi => ?_⟩
      · intro q hq
        simp only [hT, List.map_cons, List.map_nil, List.mem_cons, List.not_mem_nil, or_false] at hq
        rcases hq with rfl | rfl <;> simp [hT]
      · have := (hss i hi).2
        omega)
  have n4 : m4.n = m2.n + 2 := by rw [s4.n, n3]
  -- the meaning of the rows
  have rowsum : ∀ (w : Vec K), w.length = U.R.length → dot (T.rows.getD 0 []) w = -(U.lam * w.sum) ∧
      dot (T.rows.getD 1 []) w = 0 := by
    intro w hw
    have e1 : T.rows.getD 0 [] = vsmul (-U.lam) (List.replicate U.R.length 1) := rfl
    have e2 : T.rows.getD 1 [] = vsmul (-U.lam) (zeros U.R.length) := rfl
    rw [e1, e2, dot_vsmul_left, dot_vsmul_left, dot_zeros_left, dot_ones _ _ hw.le]
    constructor <;> ring
  have e34 : Enc m2 m4 (fun _ => True) fun v => ∀ i, i < 2 → (pre.map v).getD i 0 =
      dot ((netOut N).rows.getD i []) (sl.map v) + N.last.b.getD i 0 - e.getD i 0 +
        if i = 0 then U.lam * (ss.map v).sum else 0 := by
    have rowv : ∀ v : ℕ → K, (∀ i, i < (vsub N.last.b e).length → Sense.eq.Rel
        ([(⟨2, eye 2⟩, pre), (⟨(netOut N).cols, (netOut N).rows.map vneg⟩, sl), (T, ss)].map
          fun p : Tensor2 K × List ℕ => dot (p.1.rows.getD i []) (p.2.map v)).sum ((vsub N.last.b e).getD i 0)) ↔
        ∀ i, i < 2 → (pre.map v).getD i 0 = dot ((netOut N).rows.getD i []) (sl.map v) + N.last.b.getD i 0 -
          e.getD i 0 + if i = 0 then U.lam * (ss.map v).sum else 0 := by
      intro v
      rw [lbe]
      refine forall_congr' fun i => forall_congr' fun hi => ?_
      have q1 : dot ((eye 2 : Mat K).getD i []) (pre.map v) = (pre.map v).getD i 0 := by
        have : (eye 2 : Mat K).getD i [] = eyeRow 2 i := by simp [eye, List.getD, hi]
        rw [this, dot_eyeRow _ _ _ hi]
      have q2 : dot (((netOut N).rows.map vneg).getD i []) (sl.map v) = - dot ((netOut N).rows.getD i []) (sl.map v) := by
        have : ((netOut N).rows.map vneg).getD i [] = vneg ((netOut N).rows.getD i []) := by
          have hi' : i < (netOut N).rows.length := by rw [nb.rows, hW]; exact hi
          simp [List.getD, hi']
        rw [this, dot_vneg_left]
      have q3 := rowsum (ss.map v) (by simpa using ls)
      have q4 : dot (T.rows.getD i []) (ss.map v) = -(if i = 0 then U.lam * (ss.map v).sum else 0) := by
        interval_cases i
        · simpa using q3.1
        · simpa using q3.2
      simp only [List.map_cons, List.map_nil, List.sum_cons, List.sum_nil, Sense.Rel, q1, q2, q4]
      rw [getD_vsub _ _ _ (by rw [nb.lenb, hW, he, ln])]
      constructor <;> intro h <;> linarith
    refine ((s3.trans s4).congr (l := 2) (by simp) fun v => Iff.rfl).enc e2.wf ?_ ?_
    · rintro v ⟨-, hv⟩
      exact (rowv v).1 hv
    · rintro v - -
      refine ⟨(List.range 2).map fun i => dot ((netOut N).rows.getD i []) (sl.map v) + N.last.b.getD i 0 -
          e.getD i 0 + if i = 0 then U.lam * (ss.map v).sum else 0, by simp, trivial, ?_⟩
      rw [rowv]
      intro i hi
      rw [map_upd _ _ _ _ (by simp), map_upd_lt _ _ _ _ (fun j hj => by
          have := (List.mem_range'_1.1 (hsl ▸ hj)).2
          have := e2.n
          omega), map_upd_lt _ _ _ _ (fun j hj => (hss j hj).2)]
      simp [List.getD, hi]
  -- all together
  set D : (ℕ → K) → Prop := fun v => InBox U.fb.xLo U.fb.xUp (x.map v) ∧
    finVec (U.computeU (x.map v)) = some (u.map v) with hD
  have dep : DepsBelow m.n D := by
    intro v w hvw hv
    have q1 : x.map w = x.map v := List.map_congr_left fun i hi => (hvw i (hx i hi)).symm
    have q2 : u.map w = u.map v := List.map_congr_left fun i hi => (hvw i (hu i hi)).symm
    simp only [hD, q1, q2]
    exact hv
  have e1' : Enc m m1 D fun v => r.mic.Feas (x.map v) (sl.map v) (bi.map v) :=
    e1.weaken (fun v _ hv => (nb.exact _ (by simpa using lx)).2 hv.1) (fun _ _ h => h)
  have e12 := e1'.seq e2 dep fun v hv _ i hi => by
    have := (rng _ hv.1).2.2 i (by simpa using hi)
    rw [dotR _ i hi] at this
    rw [smap]
    exact this
  have e14 := e12.seq e34 dep fun _ _ _ => trivial
  have hR : ∀ v : ℕ → K, (r.mic.Feas (x.map v) (sl.map v) (bi.map v) ∧
      ∀ i, i < U.R.length → v (ss.getD i 0) = |dot (U.R.getD i []) ((seg x 0 2).map v)|) →
      (∀ i, i < 2 → (pre.map v).getD i 0 = dot ((netOut N).rows.getD i []) (sl.map v) + N.last.b.getD i 0 -
        e.getD i 0 + if i = 0 then U.lam * (ss.map v).sum else 0) → pre.map v = U.preSat (x.map v) := by
    rintro v ⟨hf, hs⟩ hp
    have es : ss.map v = (matVec U.R (seg (x.map v) 0 2)).map fun a => |a| := by
      refine vec_ext (by simp [ls]) fun i hi => ?_
      have hi : i < U.R.length := by simpa [ls] using hi
      have := hs i hi
      rw [smap, ← dotR _ i hi] at this
      have g1 : (ss.map v).getD i 0 = v (ss.getD i 0) := by simp [List.getD, ls, hi]
      rw [g1, this]
      simp [List.getD, matVec, hi]
    refine vec_ext (by rw [uni_len h]; simp [lpre]) fun i hi => ?_
    have hi : i < 2 := by simpa [lpre] using hi
    rw [hp i hi, nb.out _ _ _ (by simpa using lx) hf i (by rw [hW]; exact hi), es]
    obtain ⟨p0, p1⟩ := uni_pre h (x.map v)
    have hz : (zeros 3 : Vec K) = [0, 0, 0] := rfl
    interval_cases i
    · rw [p0, hev, he, hz]; simp
    · rw [p1, hev, he, hz]; simp
  -- saturation
  set a := vadd (vsub r.nnOutputLo e) [U.lam * ((List.zipWith absBounds ol ou).map Prod.fst).sum, 0] with ha
  set b := vadd (vsub r.nnOutputUp e) [U.lam * ((List.zipWith absBounds ol ou).map Prod.snd).sum, 0] with hbb
  have hab : ∀ y, InBox U.fb.xLo U.fb.xUp y → InBox a b (U.preSat y) := by
    intro y hy
    have ho := (C11_bounds_sound hr hN hM hy).2.2
    have l1 : r.nnOutputLo.length = 2 := by rw [← ho.1, ln]
    have l2 : r.nnOutputUp.length = 2 := by rw [← ho.2.1, ln]
    have hsum := sum_bounds (abs_box (rng y hy))
    refine ⟨by rw [uni_len h]; simp [ha, l1, he, ln], by rw [uni_len h]; simp [hbb, l2, he, ln], fun i hi => ?_⟩
    rw [uni_len h] at hi
    obtain ⟨p0, p1⟩ := uni_pre h y
    have hz : (zeros 3 : Vec K) = [0, 0, 0] := rfl
    have hlam := h.acc.2.2.2
    have oi := ho.2.2 i (by rw [ln]; exact hi)
    rw [ha, hbb, getD_vadd _ _ _ (by simp [l1, he, ln]), getD_vadd _ _ _ (by simp [l2, he, ln]),
      getD_vsub _ _ _ (by simp [l1, he, ln]), getD_vsub _ _ _ (by simp [l2, he, ln]), he, hz]
    interval_cases i
    · rw [p0, hev]
      have m1 := mul_le_mul_of_nonneg_left hsum.1 hlam.le
      have m2 := mul_le_mul_of_nonneg_left hsum.2 hlam.le
      simp only [List.getD_cons_zero]
      constructor
      · linarith [oi.1]
      · linarith [oi.2]
    · rw [p1, hev]
      simp only [List.getD_cons_zero, List.getD_cons_succ]
      constructor
      · linarith [oi.1]
      · linarith [oi.2]
  have hb0 := hab _ hlo
  have mem : ∀ (l : List ℕ), l.length = 2 → ∀ i, i < 2 → l.getD i 0 ∈ l := by
    intro l hl i hi
    rw [List.getD, List.getElem?_eq_getElem (by omega)]
    exact List.getElem_mem _
  have gm : ∀ (l : List ℕ) (v : ℕ → K), l.length = 2 → ∀ i, i < 2 → (l.map v).getD i 0 = v (l.getD i 0) := by
    intro l v hl i hi
    simp [List.getD, hl, hi]
  obtain ⟨m', lo, up, t, l1, l2, hbd, e5⟩ := addInputSat_enc m4 e14.wf 2 u pre U.fb.uLower U.fb.uUpper a b lu lpre
    h.fb.lower h.fb.upper (by rw [← hb0.1, uni_len h]) (by rw [← hb0.2.1, uni_len h])
    (fun i hi => (hu i hi).trans_le e14.n)
    (fun i hi => by
      have := (List.mem_range'_1.1 (hpre ▸ hi)).2
      omega)
    (fun i hi heq => by
      have h1 : m2.n ≤ pre.getD i 0 := by
        have hmem := mem pre lpre i hi
        rw [hpre] at hmem ⊢
        exact (List.mem_range'_1.1 hmem).1
      have h2 := hu _ (mem u lu i hi)
      have := e2.n
      have := e1.n
      omega) h.fb.limits
    (fun i hi => by
      have := hb0.2.2 i (by rw [uni_len h]; exact hi)
      exact this.1.trans this.2)
  refine ⟨m', sl, bi, lo, up, ?_, l1, l2, fun y w hy hw => ?_, ?_⟩
  · unfold UniFeedback.addCtrl
    rw [hc]
    simp only
    unfold UniFeedback.addNetCtrl
    rw [h.fb.lo, hr]
    simp only [Option.bind_eq_bind, Option.bind_some, hm1, hb, hm2, h.fb.udim, hm3, nb.A, nb.C, ← he]
    simp only [List.map_cons, List.map_nil] at hm4 ⊢
    rw [hT] at hm4
    simp only [List.map_cons, List.map_nil] at hm4
    rw [hm4]
    simp only [Option.bind_some]
    rw [← ha, ← hbb, t]
    rfl
  · obtain ⟨lw, hs⟩ := (uni_iff h y w).1 hw
    refine ⟨by omega, by omega, fun i hi => ?_⟩
    have := (hab y hy).2.2 i (by rw [uni_len h]; omega)
    exact hbd i (by omega) _ _ this.1 this.2 (hs i (by omega))
  · refine (e14.seq e5 dep ?_).weaken (fun _ _ h => h) ?_
    · rintro v ⟨hv1, hv2⟩ ⟨hr1, hr2⟩ i hi
      have hpre := hR v hr1 hr2
      have q := (hab _ hv1).2.2 i (by rw [uni_len h]; exact hi)
      rw [← gm pre v lpre i hi, ← gm u v lu i hi, hpre]
      exact ⟨q.1, q.2, ((uni_iff h _ _).1 hv2).2 i hi⟩
    · rintro v - ⟨⟨hr1, hr2⟩, hs⟩
      have hv1 : InBox U.fb.xLo U.fb.xUp (x.map v) := (nb.exact _ (by simpa using lx)).1 ⟨_, _, hr1.1⟩
      refine ⟨hv1, (uni_iff h _ _).2 ⟨by simpa using lu, fun i hi => ?_⟩⟩
      have hpre := hR v hr1 hr2
      have q := (hab _ hv1).2.2 i (by rw [uni_len h]; exact hi)
      have := hs i hi
      rw [← gm pre v lpre i hi, ← gm u v lu i hi, hpre] at this
      exact this q.1 q.2

/-! ## A concrete controller, and what the documentation claims in vain -/

/-- The controller `c` with state bounds `[-1, 1]³`, limits `[0, 3] × [-1, 1]`, `λ = 1/2`. -/
def exUni (c : Controller ℚ) (R : Mat ℚ) : UniFeedback ℚ :=
  ⟨⟨c, [-1, -1, -1], [1, 1, 1], 2, zeros 3, zeros 2, [Ext.fin 0, Ext.fin (-1)], [Ext.fin 3, Ext.fin 1]⟩, 1 / 2, R⟩

theorem exUni_ok {c : Controller ℚ} {R : Mat ℚ} (hR : HasCols R 2) (out : ∀ x, (c.eval x).length = 2)
    (net : ∀ N method, c = .net N method → method = .ia ∧ N.Ok 3 ∧ N.last.W.length = 2 ∧ N.hidden ≠ [])
    (lin : ∀ l, c = .lin l → l.Ok ∧ l.inF = 3 ∧ l.W.length = 2) : UniOk (exUni c R) where
  fb := {
    lo := rfl
    up := rfl
    le := fun i hi => by interval_cases i <;> norm_num [exUni]
    udim := rfl
    eq := rfl
    ueq := rfl
    lower := rfl
    upper := rfl
    limits := fun i hi => by
      interval_cases i
      · exact Or.inr ⟨0, 3, rfl, rfl, by norm_num⟩
      · exact Or.inr ⟨-1, 1, rfl, rfl, by norm_num⟩
    out := out
    net := fun N method h => by
      obtain ⟨rfl, h1, h2, h3⟩ := net N method h
      refine ⟨h1, h2, trivial, ?_⟩
      obtain ⟨r, hr⟩ := outputConstraint_isSome .ia h1 h3 (lo := [-1, -1, -1]) (up := [1, 1, 1]) rfl rfl
        (fun i hi => by interval_cases i <;> norm_num)
      exact Option.isSome_iff_exists.2 ⟨r, hr⟩
    lin := lin }
  R := hR
  acc := ⟨rfl, rfl, rfl, by norm_num [exUni]⟩

theorem exUni_net (R : Mat ℚ) (hR : HasCols R 2) : UniOk (exUni (.net (exNetP 3 2) .ia) R) :=
  exUni_ok hR (ex_len (exSysP_ok 3 2 3 2)) (by
    rintro N method h
    cases h
    exact ⟨rfl, (exSysP_ok 3 2 3 2).net, rfl, (exSysP_ok 3 2 3 2).hidden⟩) (fun l h => nomatch h)

example : UniOk (exUni (.net (exNetP 3 2) .ia) [[1, 0], [1, 2]]) :=
  exUni_net _ (by intro r hr; simp only [List.mem_cons, List.not_mem_nil, or_false] at hr; rcases hr with rfl | rfl <;> rfl)

/-- A controller network with the velocity `-5 |p_x| - 5 |p_y|`. -/
def exDown : Net ℚ :=
  ⟨[(⟨3, [[1, 0, 0], [-1, 0, 0], [0, 1, 0], [0, -1, 0]], none⟩, .relu)],
    ⟨4, [[-5, -5, -5, -5], [0, 0, 0, 0]], none⟩⟩

theorem exDown_ok : exDown.Ok 3 := by
  refine ⟨⟨rfl, ⟨?_, rfl⟩, rfl⟩, ?_, rfl⟩
  · intro r hr
    simp only [List.mem_cons, List.not_mem_nil, or_false] at hr
    rcases hr with rfl | rfl | rfl | rfl <;> rfl
  · intro r hr
    simp only [exDown, List.mem_cons, List.not_mem_nil, or_false] at hr
    rcases hr with rfl | rfl <;> rfl

theorem exDown_eval (a b c : ℚ) :
    exDown.eval [a, b, c] = [-5 * max a 0 + -5 * max (-a) 0 + -5 * max b 0 + -5 * max (-b) 0, 0] := by
  simp [exDown, Net.eval, hiddenOut, Lin.eval, Lin.b, Act.f, Spec.relu, matVec, dot, vadd, zeros]
  ring

/-- C80 (the documented guarantee does not hold): a system accepted by the constructors, with the identity for `Ru`,
whose velocity is zero at every state although the limits allow a positive velocity. -/
theorem C80_velocity_not_positive : ∃ U : UniFeedback ℚ, UniOk U ∧ U.R = eye 2 ∧ Ext.fin 0 < U.fb.uUpper.getD 0 ⊤ ∧
    ∀ x : Vec ℚ, x.length = 3 → ∃ u, finVec (U.computeU x) = some u ∧ u.getD 0 0 = 0 := by
  have hok : UniOk (exUni (.net exDown .ia) (eye 2)) := by
    refine exUni_ok (by intro r hr; simp [eye, eyeRow, List.range_succ] at hr; rcases hr with rfl | rfl <;> rfl)
      (fun x => net_len exDown_ok x) ?_ (fun l h => nomatch h)
    rintro N method h
    cases h
    exact ⟨rfl, exDown_ok, rfl, by simp [exDown]⟩
  refine ⟨_, hok, rfl, by simp [exUni, Ext.fin], fun x hx => ?_⟩
  obtain ⟨⟨u, hu⟩, -, -⟩ := C80_compute_u hok hx
  refine ⟨u, hu, ?_⟩
  obtain ⟨h1, h2⟩ := C80_velocity hok hu
  refine le_antisymm (not_lt.1 fun hlt => ?_) h1
  have hp := (h2.1 hlt).1
  rw [(uni_pre hok x).1, uni_abs_sum hok.R hx] at hp
  obtain ⟨a, b, c, rfl⟩ := length3 hx
  have e0 : (exUni (.net exDown .ia) (eye 2)).fb.ctrl.eval = exDown.eval := rfl
  rw [e0, exDown_eval, exDown_eval] at hp
  have eR : (exUni (.net exDown .ia) (eye 2)).R = [[1, 0], [0, 1]] := by simp [exUni, eye, eyeRow, List.range_succ]
  rw [eR] at hp
  have el : (exUni (.net exDown .ia) (eye 2)).lam = 1 / 2 := rfl
  rw [el] at hp
  simp at hp
  have ha : |a| = max a 0 + max (-a) 0 := by
    rcases le_total 0 a with h | h
    · rw [abs_of_nonneg h, max_eq_left h, max_eq_right (by linarith)]; ring
    · rw [abs_of_nonpos h, max_eq_right h, max_eq_left (by linarith)]; ring
  have hb : |b| = max b 0 + max (-b) 0 := by
    rcases le_total 0 b with h | h
    · rw [abs_of_nonneg h, max_eq_left h, max_eq_right (by linarith)]; ring
    · rw [abs_of_nonpos h, max_eq_right h, max_eq_left (by linarith)]; ring
  rw [ha, hb] at hp
  have := le_max_right a 0
  have := le_max_right b 0
  have := le_max_right (-a) 0
  have := le_max_right (-b) 0
  linarith

/-- C80 (a linear controller): the constructors accept a single linear layer, but its program lacks the term
`λ |R p|₁`: it has a solution whose input is not that of `compute_u`. -/
theorem C80_linear_controller : ∃ (U : UniFeedback ℚ) (m m' : Mip ℚ) (s g : List ℕ) (lo up : Vec ℚ) (v : ℕ → ℚ),
    UniOk U ∧ U.addCtrl m [0, 1, 2] [3, 4] = some (m', s, g, lo, up) ∧ m'.Feas v ∧
      InBox U.fb.xLo U.fb.xUp [v 0, v 1, v 2] ∧ finVec (U.computeU [v 0, v 1, v 2]) ≠ some [v 3, v 4] := by
  have hl : (⟨3, [[0, 0, 0], [0, 0, 0]], none⟩ : Lin ℚ).Ok := ⟨by
    intro r hr
    simp only [List.mem_cons, List.not_mem_nil, or_false] at hr
    rcases hr with rfl | rfl <;> rfl, rfl⟩
  have hok : UniOk (exUni (.lin ⟨3, [[0, 0, 0], [0, 0, 0]], none⟩) [[1, 0]]) := by
    refine exUni_ok (by intro r hr; simp only [List.mem_cons, List.not_mem_nil, or_false] at hr; subst hr; rfl)
      (fun x => by simp [Controller.eval, Lin.eval, Lin.b]) (fun N method h => nomatch h) ?_
    rintro l h
    cases h
    exact ⟨hl, rfl, rfl⟩
  obtain ⟨m, hm, st⟩ := free_addVars (Mip.empty : Mip ℚ) Mip.WF.empty 5
  have hn : m.n = 5 := by rw [st.n]; rfl
  have hlt : ∀ i, i < 5 → i < m.n := fun i hi => by omega
  obtain ⟨m', s, g, lo, up, e, -, -, -, enc⟩ := addCtrl_fb hok.fb m st.wf [0, 1, 2] [3, 4] rfl rfl
    (by intro i hi; apply hlt; revert i; decide) (by intro i hi; apply hlt; revert i; decide)
  have ez : ∀ x : Vec ℚ, (exUni (.lin ⟨3, [[0, 0, 0], [0, 0, 0]], none⟩) [[1, 0]]).fb.ctrl.eval x = [0, 0] := by
    intro x
    have h0 : dot ([0, 0, 0] : Vec ℚ) x = 0 := dot_zeros_left 3 x
    simp [exUni, Controller.eval, Lin.eval, Lin.b, matVec, h0, zeros, vadd]
  obtain ⟨v, hv, hf⟩ := enc.complete (fun i => if i = 0 then 1 else 0)
    (by
      rw [st.feas]
      exact ⟨feas_empty _, by simp⟩)
    (by
      refine ⟨⟨rfl, rfl, fun i hi => ?_⟩, ?_⟩
      · have : i < 3 := hi
        interval_cases i <;> norm_num [exUni]
      · rw [computeU_iff hok.fb]
        refine ⟨rfl, fun i hi => ?_⟩
        rw [getD_preSat hok.fb, ez, ez]
        interval_cases i
        · exact Or.inr ⟨0, 3, rfl, rfl, by norm_num [exUni, clamp, zeros]⟩
        · exact Or.inr ⟨-1, 1, rfl, rfl, by norm_num [exUni, clamp, zeros]⟩)
  refine ⟨_, m, m', s, g, lo, up, v, hok, e, hf, ?_, ?_⟩
  · rw [hv 0 (by omega), hv 1 (by omega), hv 2 (by omega)]
    refine ⟨rfl, rfl, fun i hi => ?_⟩
    have : i < 3 := hi
    interval_cases i <;> norm_num [exUni]
  · rw [hv 0 (by omega), hv 1 (by omega), hv 2 (by omega), hv 3 (by omega), hv 4 (by omega)]
    intro hu
    have := ((C80_velocity hok hu).2.2 ⟨by
      rw [(uni_pre hok _).1, ez, ez, uni_abs_sum hok.R rfl]
      norm_num [exUni], by simp [exUni, Ext.fin]⟩)
    norm_num at this

end NNL.Props
