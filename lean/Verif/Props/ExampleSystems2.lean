import Verif.Props.ExampleSystems

/-!
# C76 (car with acceleration), C77 (pole, quadrotors)
-/

set_option linter.unusedSectionVars false

namespace NNL.Props

open NNL NNL.Model NNL.Spec

variable {K : Type*} [Field K] [LinearOrder K] [IsStrictOrderedRing K]

theorem length4 {α : Type*} {l : List α} (h : l.length = 4) : ∃ a b c d, l = [a, b, c, d] := by
  match l, h with
  | [a, b, c, d], _ => exact ⟨a, b, c, d, rfl⟩

theorem length7 {α : Type*} {l : List α} (h : l.length = 7) : ∃ a b c d e f g, l = [a, b, c, d, e, f, g] := by
  match l, h with
  | [a, b, c, d, e, f, g], _ => exact ⟨a, b, c, d, e, f, g, rfl⟩

theorem seg_box {xLo xUp x : Vec K} {n : ℕ} (h1 : xLo.length = n) (h2 : xUp.length = n) (h3 : x.length = n)
    (a b : ℕ) (hb : b ≤ n) : InBox (seg xLo a b) (seg xUp a b) (seg x a b) ↔
      ∀ i, a ≤ i → i < b → InXAt xLo xUp x i := by
  have l1 := length_seg xLo a b (by omega)
  have l2 := length_seg xUp a b (by omega)
  have l3 := length_seg x a b (by omega)
  constructor
  · rintro ⟨-, -, h⟩ i hi hib
    have := h (i - a) (by omega)
    rw [getD_seg _ _ _ _ _ (by omega), getD_seg _ _ _ _ _ (by omega), getD_seg _ _ _ _ _ (by omega)] at this
    have e : a + (i - a) = i := by omega
    rw [e] at this
    exact this
  · intro h
    refine ⟨by omega, by omega, fun i hi => ?_⟩
    rw [getD_seg _ _ _ _ _ (by omega), getD_seg _ _ _ _ _ (by omega), getD_seg _ _ _ _ _ (by omega)]
    exact h (a + i) (by omega) (by omega)

theorem inBox_le {lo up x : Vec K} (h : InBox lo up x) : ∀ i, i < x.length → lo.getD i 0 ≤ up.getD i 0 :=
  fun i hi => (h.2.2 i hi).1.trans (h.2.2 i hi).2

theorem seg_le {xLo xUp : Vec K} {n : ℕ} (h1 : xLo.length = n) (h2 : xUp.length = n)
    (hle : ∀ i, i < n → xLo.getD i 0 ≤ xUp.getD i 0) (a b : ℕ) (hb : b ≤ n) :
    InBox (seg xLo a b) (seg xUp a b) (seg xLo a b) :=
  (seg_box h1 h2 h1 a b hb).2 fun i _ hi => ⟨le_rfl, hle i (by omega)⟩

/-! ## C76: the car with acceleration -/

/-- C76. `AccelerationCarReLUModel.step_forward`: the documented next state. -/
theorem C76_acceleration_car_step {S : ExSys K} (h : ExOk S 4 2 4 2) {x u : Vec K} (hx : x.length = 4)
    (hu : u.length = 2) (y : Vec K) : S.carStep x u = y ↔ CarNext S.net.eval S.dt x u y := by
  obtain ⟨a, b, c, d, rfl⟩ := length4 hx
  obtain ⟨w, o, rfl⟩ := length2 hu
  obtain ⟨p, q, e1⟩ := length2 (ex_len h [c, d, w, o])
  obtain ⟨r, s, e2⟩ := length2 (ex_len h [0, 0, 0, 0])
  have e3 : (seg (zeros 4) 2 4 ++ zeros 2 : Vec K) = [0, 0, 0, 0] := rfl
  unfold ExSys.carStep CarNext
  simp only [List.getD_cons_zero, List.getD_cons_succ, e3, e1, e2]
  constructor
  · rintro rfl
    refine ⟨by simp [seg, vadd, vsub], fun i hi => ?_, by simp [seg, vadd, vsub], by simp [seg, vadd, vsub]⟩
    interval_cases i <;> simp [seg, vadd, vsub]
  · rintro ⟨ly, h1, h2, h3⟩
    obtain ⟨y0, y1, y2, y3, rfl⟩ := length4 ly
    have g0 := h1 0 (by omega)
    have g1 := h1 1 (by omega)
    simp at g0 g1 h2 h3
    simp [seg, vadd, vsub, g0, g1, h2, h3]

/-- The network inputs of the car. -/
def carIn (x u : Vec K) : Vec K := [x.getD 2 0, x.getD 3 0, u.getD 0 0, u.getD 1 0]

/-- C76. The program of `AccelerationCarReLUModel.add_dynamics_constraint` (all bound methods): exactly `step_forward`,
for heading and velocity within their bounds and inputs within all bounds. -/
theorem C76_acceleration_car {S : ExSys K} (h : ExOk S 4 2 4 2) :
    CtrlEncD S.carAdd 4 2 (UsableEx S carIn) fun aLo aUp x u y =>
      InXAt S.xLo S.xUp x 2 ∧ InXAt S.xLo S.xUp x 3 ∧ InU S.uLo S.uUp aLo aUp u ∧ S.carStep x u = y := by
  intro m x xn u aLo aUp hw lx lxn lu hnd hx hxn hu hP
  obtain ⟨lo, up, h1, h2, l1, l2, hle, hat⟩ := tightenU_at h.ulo h.uup hP.1
  have hmv := hP.2 lo up h1 h2
  obtain ⟨a, b, c, d, rfl⟩ := length4 lx
  obtain ⟨an, bn, cn, dn, rfl⟩ := length4 lxn
  obtain ⟨w, o, rfl⟩ := length2 lu
  have b1 : (carIn S.xLo lo).length = 4 := rfl
  have b2 : (carIn S.xUp up).length = 4 := rfl
  obtain ⟨r, hr⟩ := outputConstraint_isSome S.method h.net h.hidden b1 b2 (by
    have q2 := h.le 2 (by omega)
    have q3 := h.le 3 (by omega)
    have q0 := hle 0 (by omega)
    have q1 := hle 1 (by omega)
    intro i hi
    interval_cases i
    · exact q2
    · exact q3
    · exact q0
    · exact q1)
  have hb := netBlock_of hr h.net hmv b1 b2
  have xc := hx c (by simp)
  have xd := hx d (by simp)
  have uw := hu w (by simp)
  have uo := hu o (by simp)
  obtain ⟨m1, m2, sl, bi, hm1, hm2, e2⟩ := net_rows hb m hw [c, d, w, o] rfl
    (by
      intro i hi
      simp at hi
      rcases hi with rfl | rfl | rfl | rfl <;> assumption)
    (incBlocks 2 [an, bn] [a, b]) (S.net.eval (zeros 4)) (by rw [ex_len h, h.out])
    (by
      rw [h.out]
      exact inc_ok rfl rfl (fun i hi => hxn i (by simp at hi ⊢; tauto)) fun i hi => hx i (by simp at hi ⊢; tauto))
  have nd1 : [cn, c, w].Nodup := by
    simp at hnd ⊢
    aesop
  have nd2 : [dn, d, o].Nodup := by
    simp at hnd ⊢
    aesop
  obtain ⟨m3, hm3, e3⟩ := lrow_enc m2 e2.wf S.dt cn c w nd1 ((hxn cn (by simp)).trans_le e2.n) (xc.trans_le e2.n)
    (uw.trans_le e2.n)
  obtain ⟨m4, hm4, e4⟩ := lrow_enc m3 e3.wf S.dt dn d o nd2 ((hxn dn (by simp)).trans_le (e2.n.trans e3.n))
    (xd.trans_le (e2.n.trans e3.n)) (uo.trans_le (e2.n.trans e3.n))
  refine ⟨m4, sl, bi, ?_, ?_⟩
  · unfold ExSys.carAdd
    rw [h1, h2]
    simp only [Option.bind_eq_bind, Option.bind_some]
    have hr' : outputConstraint S.net 4 [S.xLo.getD 2 0, S.xLo.getD 3 0, lo.getD 0 0, lo.getD 1 0]
      [S.xUp.getD 2 0, S.xUp.getD 3 0, up.getD 0 0, up.getD 1 0] S.method = some r := hr
    rw [hr']
    simp only [Option.bind_some]
    have hm1' : m.addMIC r.mic [[a, b, c, d].getD 2 0, [a, b, c, d].getD 3 0, [w, o].getD 0 0, [w, o].getD 1 0] none
      .fresh .binary = some (m1, sl, bi) := hm1
    rw [hm1']
    simp only [Option.bind_some, hb.A, hb.C]
    have hm2' : m1.addMConstr (incRows 2 (netOut S.net)) [seg [an, bn, cn, dn] 0 2, seg [a, b, c, d] 0 2, sl] .eq
      (vsub S.net.last.b (S.net.eval (zeros 4))) = some m2 := hm2
    rw [hm2']
    simp only [Option.bind_some]
    have hm3' : m2.addLConstr [[1, -1, -S.dt]] [[[an, bn, cn, dn].getD 2 0, [a, b, c, d].getD 2 0, [w, o].getD 0 0]]
      .eq 0 = some m3 := hm3
    rw [hm3']
    simp only [Option.bind_some]
    have hm4' : m3.addLConstr [[1, -1, -S.dt]] [[[an, bn, cn, dn].getD 3 0, [a, b, c, d].getD 3 0, [w, o].getD 1 0]]
      .eq 0 = some m4 := hm4
    rw [hm4']
    rfl
  · have dep := depsBelow_rel hx hu hxn (K := K) fun x u y => InXAt S.xLo S.xUp x 2 ∧ InXAt S.xLo S.xUp x 3 ∧
      InU S.uLo S.uUp aLo aUp u ∧ S.carStep x u = y
    refine enc_pair e2 (enc_pair (D := fun v => v cn = v c + v w * S.dt ∧ v dn = v d + v o * S.dt) e3 e4 ?_
      fun _ => Iff.rfl) dep fun v => ?_
    · intro v v' hvv hv
      have n1 := e2.n
      rw [← hvv cn ((hxn cn (by simp)).trans_le n1), ← hvv dn ((hxn dn (by simp)).trans_le n1),
        ← hvv c (xc.trans_le n1), ← hvv d (xd.trans_le n1), ← hvv w (uw.trans_le n1), ← hvv o (uo.trans_le n1)]
      exact hv
    · beta_reduce
      rw [C76_acceleration_car_step h (by rfl) (by rfl), inU_iff h.ulo h.uup (by rfl), h.out]
      have box : InBox (carIn S.xLo lo) (carIn S.xUp up) ([c, d, w, o].map v) ↔
          InXAt S.xLo S.xUp ([a, b, c, d].map v) 2 ∧ InXAt S.xLo S.xUp ([a, b, c, d].map v) 3 ∧
            ∀ i, i < 2 → InUAt S.uLo S.uUp aLo aUp ([w, o].map v) i := by
        constructor
        · rintro ⟨-, -, hh⟩
          refine ⟨hh 0 (by simp), hh 1 (by simp), fun i hi => ?_⟩
          rw [← hat _ i hi]
          interval_cases i
          · exact hh 2 (by simp)
          · exact hh 3 (by simp)
        · rintro ⟨g1, g2, g3⟩
          refine ⟨rfl, rfl, fun i hi => ?_⟩
          simp only [List.length_map, List.length_cons, List.length_nil] at hi
          interval_cases i
          · exact g1
          · exact g2
          · exact (hat _ 0 (by omega)).2 (g3 0 (by omega))
          · exact (hat _ 1 (by omega)).2 (g3 1 (by omega))
      have rows : (∀ i, i < 2 → ((incBlocks 2 [an, bn] [a, b]).map fun p =>
            dot (p.1.rows.getD i []) (p.2.map v)).sum =
              (S.net.eval ([c, d, w, o].map v)).getD i 0 - (S.net.eval (zeros 4)).getD i 0) ↔
          ∀ i, i < 2 → ([an, bn, cn, dn].map v).getD i 0 = ([a, b, c, d].map v).getD i 0 +
            ((S.net.eval [v c, v d, v w, v o]).getD i 0 - (S.net.eval [0, 0, 0, 0]).getD i 0) := by
        refine forall_congr' fun i => forall_congr' fun hi => ?_
        rw [inc_sum _ _ _ _ _ hi]
        interval_cases i <;> simp only [List.map_cons, List.map_nil, List.getD_cons_zero, List.getD_cons_succ, zeros,
          List.replicate] <;> constructor <;> intro hh <;> linarith
      rw [box, rows]
      unfold CarNext
      simp only [List.map_cons, List.map_nil, List.length_cons, List.length_nil, true_and, List.getD_cons_zero,
        List.getD_cons_succ]
      tauto

example := C76_acceleration_car (exSysP_ok 4 2 4 2)
example : UsableEx (exSysP 4 2 4 2) carIn (some [1, 1]) none ∧
    CarNext (exNetP 4 2).eval (1 / 10) [0, 0, 1, 1] [1, 2] ((exSysP 4 2 4 2).carStep [0, 0, 1, 1] [1, 2]) :=
  ⟨exSysP_usable 4 2 4 2 _ _ (by rintro l ⟨⟩; rfl),
    (C76_acceleration_car_step (exSysP_ok 4 2 4 2) rfl rfl _).1 rfl⟩

/-! ## C77: the pole -/

/-- C77. `PoleReluSystem.step_forward`: the documented next state. -/
theorem C77_pole_step {S : ExSys K} (h : ExOk S 7 3 7 5) {x u : Vec K} (hx : x.length = 7) (y : Vec K) :
    S.poleStep x u = y ↔ PoleNext S.net.eval S.dt S.uEq x u y := by
  obtain ⟨x0, x1, x2, x3, x4, x5, x6, rfl⟩ := length7 hx
  have e1 : seg [x0, x1, x2, x3, x4, x5, x6] 0 2 ++ seg [x0, x1, x2, x3, x4, x5, x6] 5 7 = [x0, x1, x5, x6] := rfl
  have e2 : (seg (zeros 7) 0 2 ++ seg (zeros 7) 5 7 : Vec K) = [0, 0, 0, 0] := rfl
  unfold ExSys.poleStep PoleNext
  simp only [List.getD_cons_zero, List.getD_cons_succ, e1, e2]
  set f := S.net.eval ([x0, x1, x5, x6] ++ u) with hf
  set g := S.net.eval ([0, 0, 0, 0] ++ S.uEq) with hg
  obtain ⟨f0, f1, f2, f3, f4, ef⟩ : ∃ a b c d e, f = [a, b, c, d, e] := by
    have := ex_len h ([x0, x1, x5, x6] ++ u)
    rw [← hf] at this
    match f, this with
    | [a, b, c, d, e], _ => exact ⟨a, b, c, d, e, rfl⟩
  obtain ⟨g0, g1, g2, g3, g4, eg⟩ : ∃ a b c d e, g = [a, b, c, d, e] := by
    have := ex_len h ([0, 0, 0, 0] ++ S.uEq)
    rw [← hg] at this
    match g, this with
    | [a, b, c, d, e], _ => exact ⟨a, b, c, d, e, rfl⟩
  rw [ef, eg]
  constructor
  · rintro rfl
    refine ⟨by simp [seg, vadd, vsub, vsmul], fun i hi => ?_, fun i hi => ?_⟩
    · interval_cases i <;> simp [seg, vadd, vsub, vsmul] <;> ring
    · interval_cases i <;> simp [seg, vadd, vsub, vsmul]
  · rintro ⟨ly, h1, h2⟩
    obtain ⟨y0, y1, y2, y3, y4, y5, y6, rfl⟩ := length7 ly
    have a0 := h1 0 (by omega)
    have a1 := h1 1 (by omega)
    have a2 := h1 2 (by omega)
    have a3 := h1 3 (by omega)
    have a4 := h1 4 (by omega)
    have c0 := h2 0 (by omega)
    have c1 := h2 1 (by omega)
    simp at a0 a1 a2 a3 a4 c0 c1
    simp [seg, vadd, vsub, vsmul, a0, a1, a2, a3, a4, c0, c1]
    refine ⟨?_, ?_, ?_, ?_, ?_, ?_, ?_⟩ <;> first | (left; ring) | ring

theorem pole_in {x : Vec K} (h : x.length = 7) :
    seg x 0 2 ++ seg x 5 7 = [x.getD 0 0, x.getD 1 0, x.getD 5 0, x.getD 6 0] := by
  obtain ⟨x0, x1, x2, x3, x4, x5, x6, rfl⟩ := length7 h
  rfl

/-- The network inputs of the pole. -/
def poleIn (x u : Vec K) : Vec K := seg x 0 2 ++ seg x 5 7 ++ u

theorem drop_last2 {α : Type*} {x : List α} (h : x.length = 7) : x.drop (x.length - 2) = seg x 5 7 := by
  rw [h]
  simp [seg, h]

/-- C77. The program of `PoleReluSystem.add_dynamics_constraint` (all bound methods): exactly `step_forward`, for the
four positions and velocities fed to the network within their bounds and inputs within all bounds. -/
theorem C77_pole {S : ExSys K} (h : ExOk S 7 3 7 5) :
    CtrlEnc S.poleAdd 7 3 (UsableEx S poleIn) fun aLo aUp x u y =>
      (∀ i ∈ [0, 1, 5, 6], InXAt S.xLo S.xUp x i) ∧ InU S.uLo S.uUp aLo aUp u ∧ S.poleStep x u = y := by
  intro m x xn u aLo aUp hw lx lxn lu hx hxn hu hP
  obtain ⟨lo, up, h1, h2, l1, l2, hle, hat⟩ := tightenU_exact h.ulo h.uup hP.1
  have hmv := hP.2 lo up h1 h2
  have b1 : (poleIn S.xLo lo).length = 7 := by simp [poleIn, length_seg, h.lo, l1]
  have b2 : (poleIn S.xUp up).length = 7 := by simp [poleIn, length_seg, h.up, l2]
  have box : ∀ x u : Vec K, x.length = 7 → u.length = 3 → (InBox (poleIn S.xLo lo) (poleIn S.xUp up) (poleIn x u) ↔
      (∀ i ∈ [0, 1, 5, 6], InXAt S.xLo S.xUp x i) ∧ InBox lo up u) := by
    intro x u lx lu
    unfold poleIn
    rw [InBox_append (by simp [length_seg, lx, h.lo]) (by simp [length_seg, lx, h.up]) (by omega) (by omega),
      InBox_append (by simp [length_seg, lx, h.lo]) (by simp [length_seg, lx, h.up])
        (by simp [length_seg, lx, h.lo]) (by simp [length_seg, lx, h.up]), seg_box h.lo h.up lx _ _ (by omega),
      seg_box h.lo h.up lx _ _ (by omega)]
    refine and_congr ?_ Iff.rfl
    constructor
    · rintro ⟨g1, g2⟩ i hi
      simp at hi
      rcases hi with rfl | rfl | rfl | rfl
      · exact g1 0 (by omega) (by omega)
      · exact g1 1 (by omega) (by omega)
      · exact g2 5 (by omega) (by omega)
      · exact g2 6 (by omega) (by omega)
    · intro g
      refine ⟨fun i _ hi => ?_, fun i hi' hi => ?_⟩ <;> interval_cases i <;> exact g _ (by simp)
  obtain ⟨r, hr⟩ := outputConstraint_isSome S.method h.net h.hidden b1 b2 (by
    have := inBox_le ((box S.xLo lo h.lo l1).2 ⟨fun i hi => ⟨le_rfl, h.le i (by simp at hi; omega)⟩,
      by omega, by omega, fun i hi => ⟨le_rfl, hle i (by omega)⟩⟩)
    rwa [b1] at this)
  have hb := netBlock_of hr h.net hmv b1 b2
  set zs := seg x 0 2 ++ seg x 5 7 ++ u with hzs
  have s1 : ∀ i ∈ xn.drop 2, i < m.n := fun i hi => hxn i (List.mem_of_mem_drop hi)
  have s2 : ∀ i ∈ x.drop 2, i < m.n := fun i hi => hx i (List.mem_of_mem_drop hi)
  have en : (seg (zeros 7) 0 2 ++ (zeros 7 : Vec K).drop ((zeros 7 : Vec K).length - 2) : Vec K) = [0, 0, 0, 0] := rfl
  obtain ⟨m1, m2, sl, bi, hm1, hm2, e2⟩ := net_rows hb m hw zs (by simp [hzs, length_seg, lx, lu])
    (by
      intro i hi
      simp only [hzs, List.mem_append] at hi
      rcases hi with (hi | hi) | hi
      · exact hx i (mem_of_seg hi)
      · exact hx i (mem_of_seg hi)
      · exact hu i hi)
    (incBlocks 5 (xn.drop 2) (x.drop 2)) (S.net.eval ([0, 0, 0, 0] ++ S.uEq)) (by rw [ex_len h, h.out])
    (by
      rw [h.out]
      exact inc_ok (by simp [lxn]) (by simp [lx]) s1 s2)
  obtain ⟨m3, hm3, e3⟩ := trap_enc m2 e2.wf 2 S.dt (seg xn 0 2) (seg x 0 2) (seg xn 5 7) (seg x 5 7)
    (by simp [length_seg, lxn]) (by simp [length_seg, lx]) (by simp [length_seg, lxn]) (by simp [length_seg, lx])
    (fun i hi => (hxn i (mem_of_seg hi)).trans_le e2.n) (fun i hi => (hx i (mem_of_seg hi)).trans_le e2.n)
    (fun i hi => (hxn i (mem_of_seg hi)).trans_le e2.n) (fun i hi => (hx i (mem_of_seg hi)).trans_le e2.n)
  refine ⟨m3, sl, bi, ?_, ?_⟩
  · unfold ExSys.poleAdd
    rw [h1, h2]
    simp only [Option.bind_eq_bind, Option.bind_some, drop_last2 h.lo, drop_last2 h.up, drop_last2 lx, drop_last2 lxn,
      en]
    have hr' : outputConstraint S.net 7 (seg S.xLo 0 2 ++ seg S.xLo 5 7 ++ lo) (seg S.xUp 0 2 ++ seg S.xUp 5 7 ++ up)
      S.method = some r := hr
    rw [hr']
    rw [Option.bind_some, hm1]
    simp only [Option.bind_some, hb.A, hb.C]
    have hm2' : m1.addMConstr (incRows 5 (netOut S.net)) [xn.drop 2, x.drop 2, sl] .eq
      (vsub S.net.last.b (S.net.eval ([0, 0, 0, 0] ++ S.uEq))) = some m2 := hm2
    rw [hm2']
    simp only [Option.bind_some]
    have hm3' : m2.addMConstr (trapRows 2 S.dt) [seg xn 0 2, seg x 0 2, seg xn 5 7, seg x 5 7] .eq [0, 0] = some m3 := hm3
    rw [hm3']
    rfl
  · have dep := depsBelow_rel hx hu hxn (K := K) fun x u y => (∀ i ∈ [0, 1, 5, 6], InXAt S.xLo S.xUp x i) ∧
      InU S.uLo S.uUp aLo aUp u ∧ S.poleStep x u = y
    refine enc_pair e2 e3 dep fun v => ?_
    beta_reduce
    have lxv : (x.map v).length = 7 := by simp [lx]
    have ez : zs.map v = poleIn (x.map v) (u.map v) := by simp [hzs, poleIn, map_seg]
    rw [C77_pole_step h lxv, ez, box _ _ lxv (by simp [lu]), hat _ (by simp [lu]), h.out]
    have rows : (∀ i, i < 5 → ((incBlocks 5 (xn.drop 2) (x.drop 2)).map fun p =>
          dot (p.1.rows.getD i []) (p.2.map v)).sum = (S.net.eval (poleIn (x.map v) (u.map v))).getD i 0 -
            (S.net.eval ([0, 0, 0, 0] ++ S.uEq)).getD i 0) ↔
        ∀ i, i < 5 → (xn.map v).getD (2 + i) 0 = (x.map v).getD (2 + i) 0 +
          ((S.net.eval (poleIn (x.map v) (u.map v))).getD i 0 - (S.net.eval ([0, 0, 0, 0] ++ S.uEq)).getD i 0) := by
      refine forall_congr' fun i => forall_congr' fun hi => ?_
      rw [inc_sum _ _ _ _ _ hi, List.map_drop, List.map_drop, getD_drop, getD_drop]
      constructor <;> intro hh <;> linarith
    have trap : (∀ i, i < 2 → ((seg xn 0 2).map v).getD i 0 = ((seg x 0 2).map v).getD i 0 +
          S.dt / 2 * (((seg xn 5 7).map v).getD i 0 + ((seg x 5 7).map v).getD i 0)) ↔
        ∀ i, i < 2 → (xn.map v).getD i 0 = (x.map v).getD i 0 +
          S.dt / 2 * ((xn.map v).getD (5 + i) 0 + (x.map v).getD (5 + i) 0) := by
      refine forall_congr' fun i => forall_congr' fun hi => ?_
      rw [map_seg, map_seg, map_seg, map_seg, getD_seg _ _ _ _ _ hi, getD_seg _ _ _ _ _ hi,
        getD_seg _ _ _ _ _ hi, getD_seg _ _ _ _ _ hi, Nat.zero_add]
    rw [rows, trap]
    unfold PoleNext poleIn
    rw [pole_in lxv]
    simp only [List.length_map, lxn, true_and]
    tauto

example := C77_pole (exSysP_ok 7 3 7 5)
example : UsableEx (exSysP 7 3 7 5) poleIn (some [1, 1, 1]) none ∧
    PoleNext (exNetP 7 5).eval (1 / 10) [1 / 2, 1 / 2, 1 / 2] [0, 0, 1, 1, 0, 1, 0] [1, 2, 1]
      ((exSysP 7 3 7 5).poleStep [0, 0, 1, 1, 0, 1, 0] [1, 2, 1]) :=
  ⟨exSysP_usable 7 3 7 5 _ _ (by rintro l ⟨⟩; rfl),
    (C77_pole_step (exSysP_ok 7 3 7 5) rfl _).1 rfl⟩

end NNL.Props
