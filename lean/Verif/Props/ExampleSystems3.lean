import Verif.Props.ExampleSystems2

/-!
# C77 (quadrotors)
-/

set_option linter.unusedSectionVars false

namespace NNL.Props

open NNL NNL.Model NNL.Spec

variable {K : Type*} [Field K] [LinearOrder K] [IsStrictOrderedRing K]

theorem length6 {α : Type*} {l : List α} (h : l.length = 6) : ∃ a b c d e f, l = [a, b, c, d, e, f] := by
  match l, h with
  | [a, b, c, d, e, f], _ => exact ⟨a, b, c, d, e, f, rfl⟩

theorem length9 {α : Type*} {l : List α} (h : l.length = 9) :
    ∃ a b c d e f g p q, l = [a, b, c, d, e, f, g, p, q] := by
  match l, h with
  | [a, b, c, d, e, f, g, p, q], _ => exact ⟨a, b, c, d, e, f, g, p, q, rfl⟩

theorem length12 {α : Type*} {l : List α} (h : l.length = 12) :
    ∃ a b c d e f g p q r s t, l = [a, b, c, d, e, f, g, p, q, r, s, t] := by
  match l, h with
  | [a, b, c, d, e, f, g, p, q, r, s, t], _ => exact ⟨a, b, c, d, e, f, g, p, q, r, s, t, rfl⟩

theorem eq_of_getD {a b : Vec K} {n : ℕ} (h1 : a.length = n) (h2 : b.length = n)
    (h : ∀ i, i < n → a.getD i 0 = b.getD i 0) : a = b := by
  apply List.ext_getElem (by omega)
  intro i hi hi'
  have := h i (by omega)
  simpa [List.getD, hi, hi'] using this

/-! ## The quadrotor with Pixhawk -/

/-- C77. `QuadrotorWithPixhawkReLUSystem.step_forward`: the documented next state. -/
theorem C77_pixhawk_step {S : ExSys K} (h : ExOk S 9 4 7 6) {x u : Vec K} (hx : x.length = 9) (y : Vec K) :
    S.pixStep x u = y ↔ PixNext S.net.eval S.dt S.uEq x u y := by
  have fw : PixNext S.net.eval S.dt S.uEq x u (S.pixStep x u) := by
    obtain ⟨x0, x1, x2, x3, x4, x5, x6, x7, x8, rfl⟩ := length9 hx
    have e1 : seg [x0, x1, x2, x3, x4, x5, x6, x7, x8] 3 6 = [x3, x4, x5] := rfl
    have e2 : (zeros 3 : Vec K) = [0, 0, 0] := rfl
    unfold ExSys.pixStep PixNext
    simp only [List.getD_cons_zero, List.getD_cons_succ, e1, e2]
    obtain ⟨f0, f1, f2, f3, f4, f5, ef⟩ := length6 (ex_len h ([x3, x4, x5] ++ u))
    obtain ⟨g0, g1, g2, g3, g4, g5, eg⟩ := length6 (ex_len h ([0, 0, 0] ++ S.uEq))
    rw [ef, eg]
    refine ⟨by simp [seg, vadd, vsub, vsmul], fun i hi => ?_⟩
    interval_cases i <;> simp [seg, vadd, vsub, vsmul] <;> ring
  constructor
  · rintro rfl
    exact fw
  · rintro ⟨ly, hy⟩
    obtain ⟨lz, hz⟩ := fw
    have b : ∀ i, i < 3 → (S.pixStep x u).getD (6 + i) 0 = y.getD (6 + i) 0 := fun i hi => by
      rw [(hz i hi).2.2, (hy i hi).2.2]
    refine eq_of_getD lz ly fun i hi => ?_
    rcases Nat.lt_or_ge i 3 with h3 | h3
    · rw [(hz i h3).1, (hy i h3).1, b i h3]
    · rcases Nat.lt_or_ge i 6 with h6 | h6
      · obtain ⟨j, rfl⟩ := Nat.exists_eq_add_of_le h3
        rw [(hz j (by omega)).2.1, (hy j (by omega)).2.1]
      · obtain ⟨j, rfl⟩ := Nat.exists_eq_add_of_le h6
        exact b j (by omega)

theorem pix_in {x : Vec K} (h : x.length = 9) : seg x 3 6 = [x.getD 3 0, x.getD 4 0, x.getD 5 0] := by
  obtain ⟨x0, x1, x2, x3, x4, x5, x6, x7, x8, rfl⟩ := length9 h
  rfl

/-- C77. The program of `QuadrotorWithPixhawkReLUSystem.add_dynamics_constraint`: exactly `step_forward`, for angles
within their bounds and inputs within all bounds. -/
theorem C77_pixhawk {S : ExSys K} (h : ExOk S 9 4 7 6) :
    CtrlEnc S.pixAdd 9 4 (UsableU S.uLo S.uUp) fun aLo aUp x u y =>
      (∀ i ∈ [3, 4, 5], InXAt S.xLo S.xUp x i) ∧ InU S.uLo S.uUp aLo aUp u ∧ S.pixStep x u = y := by
  intro m x xn u aLo aUp hw lx lxn lu hx hxn hu hP
  obtain ⟨lo, up, h1, h2, l1, l2, hle, hat⟩ := tightenU_exact h.ulo h.uup hP
  have b1 : (seg S.xLo 3 6 ++ lo).length = 7 := by simp [length_seg, h.lo, l1]
  have b2 : (seg S.xUp 3 6 ++ up).length = 7 := by simp [length_seg, h.up, l2]
  have box : ∀ x u : Vec K, x.length = 9 → u.length = 4 → (InBox (seg S.xLo 3 6 ++ lo) (seg S.xUp 3 6 ++ up)
      (seg x 3 6 ++ u) ↔ (∀ i ∈ [3, 4, 5], InXAt S.xLo S.xUp x i) ∧ InBox lo up u) := by
    intro x u lx lu
    rw [InBox_append (by simp [length_seg, lx, h.lo]) (by simp [length_seg, lx, h.up]) (by omega) (by omega),
      seg_box h.lo h.up lx _ _ (by omega)]
    refine and_congr ?_ Iff.rfl
    constructor
    · intro g i hi
      simp at hi
      exact g i (by omega) (by omega)
    · intro g i hi' hi
      exact g i (by simp; omega)
  obtain ⟨r, hr⟩ := outputConstraint_isSome .ia h.net h.hidden b1 b2 (by
    have := inBox_le ((box S.xLo lo h.lo l1).2 ⟨fun i hi => ⟨le_rfl, h.le i (by simp at hi; omega)⟩,
      by omega, by omega, fun i hi => ⟨le_rfl, hle i (by omega)⟩⟩)
    rwa [b1] at this)
  have hb := netBlock_of hr h.net trivial b1 b2
  have en : (zeros 3 : Vec K) = [0, 0, 0] := rfl
  have lseg : ∀ (l : List ℕ) (a : ℕ), l.length = 9 → a + 3 ≤ 9 → (seg l a (a + 3)).length = 3 := by
    intro l a hl ha
    rw [length_seg _ _ _ (by omega)]
    omega
  obtain ⟨m1, m2, sl, bi, hm1, hm2, e2⟩ := net_rows hb m hw (seg x 3 6 ++ u) (by simp [length_seg, lx, lu])
    (by
      intro i hi
      rcases List.mem_append.1 hi with hi | hi
      · exact hx i (mem_of_seg hi)
      · exact hu i hi)
    (incBlocks 6 (seg xn 6 9 ++ seg xn 3 6) (seg x 6 9 ++ seg x 3 6)) (S.net.eval (zeros 3 ++ S.uEq))
    (by rw [ex_len h, h.out])
    (by
      rw [h.out]
      refine inc_ok (by simp [length_seg, lxn]) (by simp [length_seg, lx]) ?_ ?_
      · intro i hi
        rcases List.mem_append.1 hi with hi | hi <;> exact hxn i (mem_of_seg hi)
      · intro i hi
        rcases List.mem_append.1 hi with hi | hi <;> exact hx i (mem_of_seg hi))
  obtain ⟨m3, hm3, e3⟩ := trap_enc m2 e2.wf 3 S.dt (seg xn 0 3) (seg x 0 3) (seg xn 6 9) (seg x 6 9)
    (by simp [length_seg, lxn]) (by simp [length_seg, lx]) (by simp [length_seg, lxn]) (by simp [length_seg, lx])
    (fun i hi => (hxn i (mem_of_seg hi)).trans_le e2.n) (fun i hi => (hx i (mem_of_seg hi)).trans_le e2.n)
    (fun i hi => (hxn i (mem_of_seg hi)).trans_le e2.n) (fun i hi => (hx i (mem_of_seg hi)).trans_le e2.n)
  refine ⟨m3, sl, bi, ?_, ?_⟩
  · unfold ExSys.pixAdd
    rw [h1, h2]
    simp only [Option.bind_eq_bind, Option.bind_some]
    rw [hr, Option.bind_some, hm1]
    simp only [Option.bind_some, hb.A, hb.C]
    have hm2' : m1.addMConstr (incRows 6 (netOut S.net)) [seg xn 6 9 ++ seg xn 3 6, seg x 6 9 ++ seg x 3 6, sl] .eq
      (vsub S.net.last.b (S.net.eval (zeros 3 ++ S.uEq))) = some m2 := hm2
    rw [hm2']
    simp only [Option.bind_some]
    rw [hm3]
    rfl
  · have dep := depsBelow_rel hx hu hxn (K := K) fun x u y => (∀ i ∈ [3, 4, 5], InXAt S.xLo S.xUp x i) ∧
      InU S.uLo S.uUp aLo aUp u ∧ S.pixStep x u = y
    refine enc_pair e2 e3 dep fun v => ?_
    beta_reduce
    have lxv : (x.map v).length = 9 := by simp [lx]
    have lxnv : (xn.map v).length = 9 := by simp [lxn]
    have ez : (seg x 3 6 ++ u).map v = seg (x.map v) 3 6 ++ u.map v := by simp [map_seg]
    rw [C77_pixhawk_step h lxv, ez, box _ _ lxv (by simp [lu]), hat _ (by simp [lu]), h.out]
    set φ := S.net.eval (seg (x.map v) 3 6 ++ u.map v) with hφ
    set ψ := S.net.eval (zeros 3 ++ S.uEq) with hψ
    have rows : (∀ i, i < 6 → ((incBlocks 6 (seg xn 6 9 ++ seg xn 3 6) (seg x 6 9 ++ seg x 3 6)).map fun p =>
          dot (p.1.rows.getD i []) (p.2.map v)).sum = φ.getD i 0 - ψ.getD i 0) ↔
        ∀ i, i < 3 → (xn.map v).getD (3 + i) 0 = (x.map v).getD (3 + i) 0 + (φ.getD (3 + i) 0 - ψ.getD (3 + i) 0) ∧
          (xn.map v).getD (6 + i) 0 = (x.map v).getD (6 + i) 0 + (φ.getD i 0 - ψ.getD i 0) := by
      have s : ∀ i, i < 6 → ((incBlocks 6 (seg xn 6 9 ++ seg xn 3 6) (seg x 6 9 ++ seg x 3 6)).map fun p =>
          dot (p.1.rows.getD i []) (p.2.map v)).sum = (seg (xn.map v) 6 9 ++ seg (xn.map v) 3 6).getD i 0 -
            (seg (x.map v) 6 9 ++ seg (x.map v) 3 6).getD i 0 := by
        intro i hi
        rw [inc_sum _ _ _ _ _ hi, List.map_append, List.map_append]
        simp only [map_seg]
      obtain ⟨a0, a1, a2, a3, a4, a5, a6, a7, a8, ea⟩ := length9 lxv
      obtain ⟨c0, c1, c2, c3, c4, c5, c6, c7, c8, ec⟩ := length9 lxnv
      constructor
      · intro g i hi
        have g1 := g i (by omega)
        have g2 := g (3 + i) (by omega)
        rw [s i (by omega)] at g1
        rw [s (3 + i) (by omega)] at g2
        rw [ea, ec] at g1 g2 ⊢
        interval_cases i <;> simp [seg] at g1 g2 ⊢ <;> constructor <;> linarith
      · intro g i hi
        rw [s i hi]
        have g0 := g 0 (by omega)
        have g1 := g 1 (by omega)
        have g2 := g 2 (by omega)
        rw [ea, ec] at g0 g1 g2 ⊢
        interval_cases i <;> simp [seg] at g0 g1 g2 ⊢ <;> linarith
    have trap : (∀ i, i < 3 → ((seg xn 0 3).map v).getD i 0 = ((seg x 0 3).map v).getD i 0 +
          S.dt / 2 * (((seg xn 6 9).map v).getD i 0 + ((seg x 6 9).map v).getD i 0)) ↔
        ∀ i, i < 3 → (xn.map v).getD i 0 = (x.map v).getD i 0 +
          S.dt / 2 * ((xn.map v).getD (6 + i) 0 + (x.map v).getD (6 + i) 0) := by
      refine forall_congr' fun i => forall_congr' fun hi => ?_
      rw [map_seg, map_seg, map_seg, map_seg, getD_seg _ _ _ _ _ hi, getD_seg _ _ _ _ _ hi,
        getD_seg _ _ _ _ _ hi, getD_seg _ _ _ _ _ hi, Nat.zero_add]
    rw [rows, trap]
    unfold PixNext
    rw [← pix_in lxv]
    simp only [lxnv, true_and]
    rw [← hφ, ← en, ← hψ]
    constructor
    · rintro ⟨g1, g2, g3⟩
      exact ⟨⟨⟨g1, g2⟩, fun i hi => (g3 i hi).2⟩, fun i hi => (g3 i hi).1⟩
    · rintro ⟨⟨⟨g1, g2⟩, g3⟩, g4⟩
      exact ⟨g1, g2, fun i hi => ⟨g4 i hi, g3 i hi⟩⟩

example := C77_pixhawk (exSysP_ok 9 4 7 6)
example : UsableU (exSysP 9 4 7 6).uLo (exSysP 9 4 7 6).uUp (some [1, 1, 1, 1]) none ∧
    PixNext (exNetP 7 6).eval (1 / 10) [1 / 2, 1 / 2, 1 / 2, 1 / 2] [0, 0, 1, 1, 0, 1, 0, 1, 1] [1, 2, 1, 0]
      ((exSysP 9 4 7 6).pixStep [0, 0, 1, 1, 0, 1, 0, 1, 1] [1, 2, 1, 0]) :=
  ⟨(exSysP_usable 9 4 7 6 (fun x _ => x) _ (by rintro l ⟨⟩; rfl)).1,
    (C77_pixhawk_step (exSysP_ok 9 4 7 6) rfl _).1 rfl⟩

/-! ## The quadrotor -/

/-- C77. `QuadrotorReLUSystem.step_forward`: the documented next state. -/
theorem C77_quadrotor_step {S : ExSys K} (h : ExOk S 12 4 10 9) {x u : Vec K} (hx : x.length = 12) (y : Vec K) :
    S.quadStep x u = y ↔ QuadNext S.net.eval S.dt S.uEq x u y := by
  have fw : QuadNext S.net.eval S.dt S.uEq x u (S.quadStep x u) := by
    obtain ⟨x0, x1, x2, x3, x4, x5, x6, x7, x8, x9, xa, xb, rfl⟩ := length12 hx
    have e1 : seg [x0, x1, x2, x3, x4, x5, x6, x7, x8, x9, xa, xb] 3 6 ++
      seg [x0, x1, x2, x3, x4, x5, x6, x7, x8, x9, xa, xb] 9 12 = [x3, x4, x5, x9, xa, xb] := rfl
    have e2 : (seg (zeros 12) 3 6 ++ seg (zeros 12) 9 12 : Vec K) = [0, 0, 0, 0, 0, 0] := rfl
    unfold ExSys.quadStep QuadNext
    simp only [List.getD_cons_zero, List.getD_cons_succ, e1, e2]
    obtain ⟨f0, f1, f2, f3, f4, f5, f6, f7, f8, ef⟩ := length9 (ex_len h ([x3, x4, x5, x9, xa, xb] ++ u))
    obtain ⟨g0, g1, g2, g3, g4, g5, g6, g7, g8, eg⟩ := length9 (ex_len h ([0, 0, 0, 0, 0, 0] ++ S.uEq))
    rw [ef, eg]
    refine ⟨by simp [seg, vadd, vsub, vsmul], fun i hi => ?_⟩
    interval_cases i <;> simp [seg, vadd, vsub, vsmul] <;> ring
  constructor
  · rintro rfl
    exact fw
  · rintro ⟨ly, hy⟩
    obtain ⟨lz, hz⟩ := fw
    have b : ∀ i, i < 3 → (S.quadStep x u).getD (6 + i) 0 = y.getD (6 + i) 0 := fun i hi => by
      rw [(hz i hi).2.2.1, (hy i hi).2.2.1]
    refine eq_of_getD lz ly fun i hi => ?_
    rcases Nat.lt_or_ge i 3 with h3 | h3
    · rw [(hz i h3).1, (hy i h3).1, b i h3]
    · rcases Nat.lt_or_ge i 6 with h6 | h6
      · obtain ⟨j, rfl⟩ := Nat.exists_eq_add_of_le h3
        rw [(hz j (by omega)).2.1, (hy j (by omega)).2.1]
      · rcases Nat.lt_or_ge i 9 with h9 | h9
        · obtain ⟨j, rfl⟩ := Nat.exists_eq_add_of_le h6
          exact b j (by omega)
        · obtain ⟨j, rfl⟩ := Nat.exists_eq_add_of_le h9
          rw [(hz j (by omega)).2.2.2, (hy j (by omega)).2.2.2]

/-- The network inputs of the quadrotor. -/
def quadIn (x u : Vec K) : Vec K := seg x 3 6 ++ seg x 9 12 ++ u

theorem quad_in {x : Vec K} (h : x.length = 12) : seg x 3 6 ++ seg x 9 12 =
    [x.getD 3 0, x.getD 4 0, x.getD 5 0, x.getD 9 0, x.getD 10 0, x.getD 11 0] := by
  obtain ⟨x0, x1, x2, x3, x4, x5, x6, x7, x8, x9, xa, xb, rfl⟩ := length12 h
  rfl

/-- The blocks of the next state and the current velocity. -/
def quadBlocks (a b : List ℕ) : List (Tensor2 K × List ℕ) := [(⟨9, eye 9⟩, a), (posdotCoeff, b)]

theorem posdot_row (i : ℕ) (hi : i < 9) (z : Vec K) (hz : z.length = 3) :
    dot ((posdotCoeff (K := K)).rows.getD i []) z = if 3 ≤ i ∧ i < 6 then -z.getD (i - 3) 0 else 0 := by
  obtain ⟨a, b, c, rfl⟩ := length3 hz
  interval_cases i <;> simp [posdotCoeff, zerosM, zeros, eye, eyeRow, vneg, List.range_succ, dot]

theorem quad_sum (a b : List ℕ) (v : ℕ → K) (i : ℕ) (hi : i < 9) (hb : b.length = 3) :
    ((quadBlocks a b).map fun q => dot (q.1.rows.getD i []) (q.2.map v)).sum =
      (a.map v).getD i 0 + if 3 ≤ i ∧ i < 6 then -(b.map v).getD (i - 3) 0 else 0 := by
  simp only [quadBlocks, List.map_cons, List.map_nil, List.sum_cons, List.sum_nil]
  rw [posdot_row i hi _ (by simp [hb]), getD_eye 9 i hi, dot_eyeRow _ _ _ hi, add_zero]

theorem quad_box {S : ExSys K} (h : ExOk S 12 4 10 9) {lo up x u : Vec K} (l1 : lo.length = 4) (l2 : up.length = 4)
    (lx : x.length = 12) (lu : u.length = 4) : InBox (quadIn S.xLo lo) (quadIn S.xUp up) (quadIn x u) ↔
      (∀ i ∈ [3, 4, 5, 9, 10, 11], InXAt S.xLo S.xUp x i) ∧ InBox lo up u := by
  unfold quadIn
  rw [InBox_append (by simp [length_seg, lx, h.lo]) (by simp [length_seg, lx, h.up]) (by omega) (by omega),
    InBox_append (by simp [length_seg, lx, h.lo]) (by simp [length_seg, lx, h.up])
      (by simp [length_seg, lx, h.lo]) (by simp [length_seg, lx, h.up]), seg_box h.lo h.up lx _ _ (by omega),
    seg_box h.lo h.up lx _ _ (by omega)]
  refine and_congr ?_ Iff.rfl
  constructor
  · rintro ⟨g1, g2⟩ i hi
    simp at hi
    rcases Nat.lt_or_ge i 6 with hh | hh
    · exact g1 i (by omega) hh
    · exact g2 i (by omega) (by omega)
  · intro g
    refine ⟨fun i hi' hi => g i ?_, fun i hi' hi => g i ?_⟩ <;> (simp; omega)

theorem enc_pair_on {m m1 m2 : Mip K} {D G A B : (ℕ → K) → Prop} (e1 : Enc m m1 (fun v => A v ∧ G v) A) (e2 : Enc m1 m2 B B)
    (dep : DepsBelow m.n fun v => D v ∧ G v) (key : ∀ v, D v ↔ A v ∧ B v) : Enc m m2 (fun v => D v ∧ G v) D :=
  ((e1.weaken (fun v _ hv => ⟨((key v).1 hv.1).1, hv.2⟩) (fun _ _ h => h)).seq e2 dep
    fun v hv _ => ((key v).1 hv.1).2).weaken (fun _ _ h => h) fun v _ hv => (key v).2 hv

/-- The program of `QuadrotorReLUSystem.add_dynamics_constraint` with some bounds `B` of the units: its solutions follow
`step_forward`, and it admits the transitions at which the bounds are valid. -/
theorem quad_enc_on {S : ExSys K} (h : ExOk S 12 4 10 9) (bound : Vec K → Vec K → Option (LayerBounds K)) (m : Mip K)
    (x xn u : List ℕ) (aLo aUp : Option (Vec K)) (hw : m.WF) (lx : x.length = 12) (lxn : xn.length = 12)
    (lu : u.length = 4) (hx : ∀ i ∈ x, i < m.n) (hxn : ∀ i ∈ xn, i < m.n) (hu : ∀ i ∈ u, i < m.n)
    (hP : UsableU S.uLo S.uUp aLo aUp) {lo up : Vec K} (h1 : tightenU max S.uLo aLo = some lo)
    (h2 : tightenU min S.uUp aUp = some up) {B : LayerBounds K}
    (hB : bound (quadIn S.xLo lo) (quadIn S.xUp up) = some B) :
    ∃ m' s g, S.quadAddB bound m x xn u aLo aUp = some (m', s, g) ∧
      Enc m m' (fun v => ((∀ i ∈ [3, 4, 5, 9, 10, 11], InXAt S.xLo S.xUp (x.map v) i) ∧
          InU S.uLo S.uUp aLo aUp (u.map v) ∧ S.quadStep (x.map v) (u.map v) = xn.map v) ∧
          InBox B.preLo B.preUp (preacts S.net.hidden (quadIn (x.map v) (u.map v))).flatten)
        fun v => (∀ i ∈ [3, 4, 5, 9, 10, 11], InXAt S.xLo S.xUp (x.map v) i) ∧
          InU S.uLo S.uUp aLo aUp (u.map v) ∧ S.quadStep (x.map v) (u.map v) = xn.map v := by
  obtain ⟨lo', up', h1', h2', l1, l2, hle, hat⟩ := tightenU_exact h.ulo h.uup hP
  obtain rfl : lo = lo' := by rw [h1] at h1'; simpa using h1'
  obtain rfl : up = up' := by rw [h2] at h2'; simpa using h2'
  have b1 : (quadIn S.xLo lo).length = 10 := by simp [quadIn, length_seg, h.lo, l1]
  have b2 : (quadIn S.xUp up).length = 10 := by simp [quadIn, length_seg, h.up, l2]
  have box := fun (x u : Vec K) (lx : x.length = 12) (lu : u.length = 4) => quad_box h l1 l2 lx lu
  obtain ⟨c, hc⟩ := outputCons_isSome S.net 10 B.preLo B.preUp (quadIn S.xLo lo) (quadIn S.xUp up) h.hidden
  have hb := netBlockOn_given hc h.net b1 b2
  set zs := seg x 3 6 ++ seg x 9 12 ++ u with hzs
  have en : (seg (zeros 12) 3 6 ++ seg (zeros 12) 9 12 : Vec K) = [0, 0, 0, 0, 0, 0] := rfl
  obtain ⟨m1, m2, sl, bi, hm1, hm2, e2⟩ := net_rows_on hb m hw zs (by simp [hzs, length_seg, lx, lu])
    (by
      intro i hi
      simp only [hzs, List.mem_append] at hi
      rcases hi with (hi | hi) | hi
      · exact hx i (mem_of_seg hi)
      · exact hx i (mem_of_seg hi)
      · exact hu i hi)
    (quadBlocks (seg xn 3 12) (seg x 6 9)) (S.net.eval (seg (zeros 12) 3 6 ++ seg (zeros 12) 9 12 ++ S.uEq))
    (by rw [ex_len h, h.out])
    (by
      rw [h.out]
      intro q hq
      simp only [quadBlocks, List.mem_cons, List.not_mem_nil, or_false] at hq
      rcases hq with rfl | rfl
      · exact ⟨by simp, by simp [length_seg, lxn], tensor_eye_ok 9, fun i hi => hxn i (mem_of_seg hi)⟩
      · refine ⟨by simp [posdotCoeff, zerosM], by simp [length_seg, lx, posdotCoeff], ?_,
          fun i hi => hx i (mem_of_seg hi)⟩
        intro r hr
        simp only [posdotCoeff, List.mem_append] at hr
        rcases hr with (hr | hr) | hr
        · simp [zerosM] at hr
          simp [hr, posdotCoeff]
        · exact tensor_eye_map_ok 3 _ (by simp) r hr
        · simp [zerosM] at hr
          simp [hr, posdotCoeff])
  obtain ⟨m3, hm3, e3⟩ := trap_enc m2 e2.wf 3 S.dt (seg xn 0 3) (seg x 0 3) (seg xn 6 9) (seg x 6 9)
    (by simp [length_seg, lxn]) (by simp [length_seg, lx]) (by simp [length_seg, lxn]) (by simp [length_seg, lx])
    (fun i hi => (hxn i (mem_of_seg hi)).trans_le e2.n) (fun i hi => (hx i (mem_of_seg hi)).trans_le e2.n)
    (fun i hi => (hxn i (mem_of_seg hi)).trans_le e2.n) (fun i hi => (hx i (mem_of_seg hi)).trans_le e2.n)
  refine ⟨m3, sl, bi, ?_, ?_⟩
  · unfold ExSys.quadAddB
    rw [h1, h2]
    simp only [Option.bind_eq_bind, Option.bind_some]
    have hB' : bound (seg S.xLo 3 6 ++ seg S.xLo 9 12 ++ lo)
      (seg S.xUp 3 6 ++ seg S.xUp 9 12 ++ up) = some B := hB
    have hc' : outputConsGivenBounds S.net 10 B.preLo B.preUp (seg S.xLo 3 6 ++ seg S.xLo 9 12 ++ lo)
      (seg S.xUp 3 6 ++ seg S.xUp 9 12 ++ up) = some c := hc
    rw [hB', Option.bind_some, hc', Option.bind_some, hm1]
    simp only [Option.bind_some, hb.A, hb.C]
    have hm2' : m1.addMConstr [⟨9, eye 9⟩, posdotCoeff, ⟨(netOut S.net).cols, (netOut S.net).rows.map vneg⟩]
      [seg xn 3 12, seg x 6 9, sl] .eq
      (vsub S.net.last.b (S.net.eval (seg (zeros 12) 3 6 ++ seg (zeros 12) 9 12 ++ S.uEq))) = some m2 := hm2
    rw [hm2']
    simp only [Option.bind_some]
    rw [hm3]
    rfl
  · have dep := depsBelow_rel hx hu hxn (K := K) fun x u y =>
      ((∀ i ∈ [3, 4, 5, 9, 10, 11], InXAt S.xLo S.xUp x i) ∧ InU S.uLo S.uUp aLo aUp u ∧ S.quadStep x u = y) ∧
        InBox B.preLo B.preUp (preacts S.net.hidden (quadIn x u)).flatten
    have ez' : ∀ v : ℕ → K, zs.map v = quadIn (x.map v) (u.map v) := fun v => by simp [hzs, quadIn, map_seg]
    simp only [ez'] at e2
    refine enc_pair_on e2 e3 dep fun v => ?_
    beta_reduce
    have lxv : (x.map v).length = 12 := by simp [lx]
    have lxnv : (xn.map v).length = 12 := by simp [lxn]
    rw [C77_quadrotor_step h lxv, box _ _ lxv (by simp [lu]), hat _ (by simp [lu]), h.out]
    set φ := S.net.eval (quadIn (x.map v) (u.map v)) with hφ
    set ψ := S.net.eval (seg (zeros 12) 3 6 ++ seg (zeros 12) 9 12 ++ S.uEq) with hψ
    have rows : (∀ i, i < 9 → ((quadBlocks (seg xn 3 12) (seg x 6 9)).map fun p =>
          dot (p.1.rows.getD i []) (p.2.map v)).sum = φ.getD i 0 - ψ.getD i 0) ↔
        ∀ i, i < 3 → (xn.map v).getD (3 + i) 0 = φ.getD i 0 - ψ.getD i 0 ∧
          (xn.map v).getD (6 + i) 0 = (x.map v).getD (6 + i) 0 + (φ.getD (3 + i) 0 - ψ.getD (3 + i) 0) ∧
          (xn.map v).getD (9 + i) 0 = φ.getD (6 + i) 0 - ψ.getD (6 + i) 0 := by
      have s : ∀ i, i < 9 → ((quadBlocks (seg xn 3 12) (seg x 6 9)).map fun p =>
          dot (p.1.rows.getD i []) (p.2.map v)).sum = (xn.map v).getD (3 + i) 0 +
            if 3 ≤ i ∧ i < 6 then -(x.map v).getD (3 + i) 0 else 0 := by
        intro i hi
        rw [quad_sum _ _ _ _ hi (by simp [length_seg, lx]), map_seg, map_seg, getD_seg _ _ _ _ _ (by omega)]
        split_ifs with h3
        · rw [getD_seg _ _ _ _ _ (by omega)]
          congr 3
          omega
        · rfl
      constructor
      · intro g i hi
        have g1 := g i (by omega)
        have g2 := g (3 + i) (by omega)
        have g3 := g (6 + i) (by omega)
        rw [s i (by omega), if_neg (by omega)] at g1
        rw [s (3 + i) (by omega), if_pos (by omega), ← Nat.add_assoc] at g2
        rw [s (6 + i) (by omega), if_neg (by omega), ← Nat.add_assoc] at g3
        simp only [Nat.reduceAdd, add_zero] at g1 g2 g3
        exact ⟨g1, by linarith, g3⟩
      · intro g i hi
        rw [s i hi]
        rcases Nat.lt_or_ge i 3 with h3 | h3
        · rw [if_neg (by omega), (g i h3).1, add_zero]
        · rcases Nat.lt_or_ge i 6 with h6 | h6
          · obtain ⟨j, rfl⟩ := Nat.exists_eq_add_of_le h3
            have := (g j (by omega)).2.1
            rw [if_pos ⟨h3, h6⟩, ← Nat.add_assoc]
            simp only [Nat.reduceAdd]
            linarith
          · obtain ⟨j, rfl⟩ := Nat.exists_eq_add_of_le h6
            have := (g j (by omega)).2.2
            rw [if_neg (by omega), ← Nat.add_assoc, add_zero]
            exact this
    have trap : (∀ i, i < 3 → ((seg xn 0 3).map v).getD i 0 = ((seg x 0 3).map v).getD i 0 +
          S.dt / 2 * (((seg xn 6 9).map v).getD i 0 + ((seg x 6 9).map v).getD i 0)) ↔
        ∀ i, i < 3 → (xn.map v).getD i 0 = (x.map v).getD i 0 +
          S.dt / 2 * ((xn.map v).getD (6 + i) 0 + (x.map v).getD (6 + i) 0) := by
      refine forall_congr' fun i => forall_congr' fun hi => ?_
      rw [map_seg, map_seg, map_seg, map_seg, getD_seg _ _ _ _ _ hi, getD_seg _ _ _ _ _ hi,
        getD_seg _ _ _ _ _ hi, getD_seg _ _ _ _ _ hi, Nat.zero_add]
    rw [rows, trap]
    unfold QuadNext
    rw [← quad_in lxv, ← en]
    simp only [lxnv, true_and]
    rw [← hψ]
    have hφ' : φ = S.net.eval (seg (x.map v) 3 6 ++ seg (x.map v) 9 12 ++ u.map v) := hφ
    rw [← hφ']
    constructor
    · rintro ⟨g1, g2, g3⟩
      exact ⟨⟨⟨g1, g2⟩, fun i hi => (g3 i hi).2⟩, fun i hi => (g3 i hi).1⟩
    · rintro ⟨⟨⟨g1, g2⟩, g3⟩, g4⟩
      exact ⟨g1, g2, fun i hi => ⟨g4 i hi, g3 i hi⟩⟩

/-- C77. The program of `QuadrotorReLUSystem.add_dynamics_constraint` (all bound methods): exactly `step_forward`, for
angles and rates within their bounds and inputs within all bounds. -/
theorem C77_quadrotor {S : ExSys K} (h : ExOk S 12 4 10 9) :
    CtrlEnc S.quadAdd 12 4 (UsableEx S quadIn) fun aLo aUp x u y =>
      (∀ i ∈ [3, 4, 5, 9, 10, 11], InXAt S.xLo S.xUp x i) ∧ InU S.uLo S.uUp aLo aUp u ∧ S.quadStep x u = y := by
  intro m x xn u aLo aUp hw lx lxn lu hx hxn hu hP
  obtain ⟨lo, up, h1, h2, l1, l2, hle, hat⟩ := tightenU_exact h.ulo h.uup hP.1
  have b1 : (quadIn S.xLo lo).length = 10 := by simp [quadIn, length_seg, h.lo, l1]
  have b2 : (quadIn S.xUp up).length = 10 := by simp [quadIn, length_seg, h.up, l2]
  obtain ⟨B, hB, -⟩ := layerBound_isSome S.method h.net b1 b2
  obtain ⟨m', s, g, e1, e2⟩ := quad_enc_on h (layerBound S.method S.net.hidden) m x xn u aLo aUp hw lx lxn lu hx hxn hu
    hP.1 h1 h2 hB
  refine ⟨m', s, g, e1, e2.weaken (fun v _ hv => ⟨hv, ?_⟩) fun _ _ hv => hv⟩
  refine (layerBound_sound h.net (hP.2 lo up h1 h2) hB ?_).1
  exact (quad_box h l1 l2 (by simp [lx]) (by simp [lu])).2 ⟨hv.1, (hat _ (by simp [lu])).2 hv.2.1⟩

example := C77_quadrotor (exSysP_ok 12 4 10 9)
example : UsableEx (exSysP 12 4 10 9) quadIn (some [1, 1, 1, 1]) none ∧
    QuadNext (exNetP 10 9).eval (1 / 10) [1 / 2, 1 / 2, 1 / 2, 1 / 2] [0, 0, 1, 1, 0, 1, 0, 1, 1, 1, 0, 1] [1, 2, 1, 0]
      ((exSysP 12 4 10 9).quadStep [0, 0, 1, 1, 0, 1, 0, 1, 1, 1, 0, 1] [1, 2, 1, 0]) :=
  ⟨exSysP_usable 12 4 10 9 _ _ (by rintro l ⟨⟩; rfl),
    (C77_quadrotor_step (exSysP_ok 12 4 10 9) rfl _).1 rfl⟩

end NNL.Props
