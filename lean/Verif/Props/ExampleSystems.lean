import Verif.Lemmas.ExampleSystems
import Verif.Spec.ExampleSystems

/-!
# C76, C77: network models of cars, the pole and quadrotors
-/

set_option linter.unusedSectionVars false

namespace NNL.Props

open NNL NNL.Model NNL.Spec

variable {K : Type*} [Field K] [LinearOrder K] [IsStrictOrderedRing K]

/-- What the constructors assert: `n` states, `k` inputs, a network with `p` inputs and `q` outputs; further ordered
state bounds and a hidden layer. -/
structure ExOk (S : ExSys K) (n k p q : ℕ) : Prop where
  lo : S.xLo.length = n
  up : S.xUp.length = n
  le : ∀ i, i < n → S.xLo.getD i 0 ≤ S.xUp.getD i 0
  ulo : S.uLo.length = k
  uup : S.uUp.length = k
  ueq : S.uEq.length = k
  net : S.net.Ok p
  out : S.net.last.W.length = q
  hidden : S.net.hidden ≠ []

/-- Additional bounds that leave some input, and, when the bounds of the units come from a solver, a solver whose
values are bounds on the box of the network inputs (`f xLo uLo`, `f xUp uUp`). -/
def UsableEx (S : ExSys K) (f : Vec K → Vec K → Vec K) (aLo aUp : Option (Vec K)) : Prop :=
  UsableU S.uLo S.uUp aLo aUp ∧ ∀ lo up, tightenU max S.uLo aLo = some lo → tightenU min S.uUp aUp = some up →
    MethodValid S.net (f S.xLo lo) (f S.xUp up) S.method

theorem ex_len {S : ExSys K} {n k p q : ℕ} (h : ExOk S n k p q) (z : Vec K) : (S.net.eval z).length = q := by
  rw [net_len h.net, h.out]

/-- A network with `p` inputs, two hidden units (ReLU and then leaky ReLU layers) and `q` outputs. -/
def exNetP (p q : ℕ) : Net ℚ :=
  ⟨[(⟨p, [List.replicate p 1, List.replicate p (-1)], some [1, -1 / 2]⟩, .relu),
    (⟨2, [[1, 2]], none⟩, .leaky (1 / 10))], ⟨1, List.replicate q [3], some (List.replicate q 1)⟩⟩

/-- A system with `n` states in `[-1, 1]`, `k` inputs in `[-2, 2]` and the network `exNetP p q`. -/
def exSysP (n k p q : ℕ) : ExSys ℚ :=
  ⟨List.replicate n (-1), List.replicate n 1, List.replicate k (-2), List.replicate k 2, exNetP p q,
    List.replicate k (1 / 2), 1 / 10, .ia⟩

theorem exSysP_ok (n k p q : ℕ) : ExOk (exSysP n k p q) n k p q where
  lo := by simp [exSysP]
  up := by simp [exSysP]
  le := fun i hi => by
    have : ∀ c : ℚ, (List.replicate n c).getD i 0 = c := fun c => by simp [List.getD, hi]
    simp only [exSysP, this]
    norm_num
  ulo := by simp [exSysP]
  uup := by simp [exSysP]
  ueq := by simp [exSysP]
  net := by
    refine ⟨⟨rfl, ⟨?_, rfl⟩, rfl, ⟨?_, rfl⟩, rfl⟩, ?_, ?_⟩
    · intro r hr
      simp only [List.mem_cons, List.not_mem_nil, or_false] at hr
      rcases hr with rfl | rfl <;> simp
    · intro r hr
      simp only [List.mem_cons, List.not_mem_nil, or_false] at hr
      subst hr
      rfl
    · intro r hr
      obtain ⟨-, rfl⟩ := List.mem_replicate.1 hr
      rfl
    · simp [exSysP, exNetP, Lin.b]
  out := by simp [exSysP, exNetP]
  hidden := by simp [exSysP, exNetP]

theorem exSysP_usable (n k p q : ℕ) (f : Vec ℚ → Vec ℚ → Vec ℚ) (lo : Option (Vec ℚ))
    (hl : ∀ l, lo = some l → l = List.replicate k 1) : UsableEx (exSysP n k p q) f lo none := by
  refine ⟨⟨fun l h => ?_, by simp, List.replicate k 1, ⟨by simp [exSysP], by simp [exSysP], fun i hi => ?_⟩, fun l h i hi => ?_,
    by simp⟩, fun _ _ _ _ => trivial⟩
  · rw [hl l h]; simp [exSysP]
  · simp only [List.length_replicate] at hi
    have : ∀ c : ℚ, (List.replicate k c).getD i 0 = c := fun c => by simp [List.getD, hi]
    simp only [exSysP, this]
    norm_num
  · rw [hl l h]

/-- The bounds of the inputs, one by one. -/
theorem tightenU_at {uLo uUp : Vec K} {aLo aUp : Option (Vec K)} {k : ℕ} (l1 : uLo.length = k) (l2 : uUp.length = k)
    (h : UsableU uLo uUp aLo aUp) :
    ∃ lo up, tightenU max uLo aLo = some lo ∧ tightenU min uUp aUp = some up ∧ lo.length = k ∧ up.length = k ∧
      (∀ i, i < k → lo.getD i 0 ≤ up.getD i 0) ∧ ∀ u i, i < k →
        (lo.getD i 0 ≤ u.getD i 0 ∧ u.getD i 0 ≤ up.getD i 0 ↔ InUAt uLo uUp aLo aUp u i) := by
  obtain ⟨lo, up, h1, h2, h3, h4, h5, -⟩ := tightenU_exact l1 l2 h
  refine ⟨lo, up, h1, h2, h3, h4, h5, fun u i hi => ?_⟩
  obtain ⟨ha, hb, -⟩ := h
  have e1 : lo.getD i 0 ≤ u.getD i 0 ↔ uLo.getD i 0 ≤ u.getD i 0 ∧ ∀ l, aLo = some l → l.getD i 0 ≤ u.getD i 0 := by
    cases aLo with
    | none => cases h1; simp
    | some a =>
      have la := ha a rfl
      simp only [tightenU, la, if_true, Option.some.injEq] at h1
      subst h1
      have : (List.zipWith max uLo a).getD i 0 = max (uLo.getD i 0) (a.getD i 0) := by
        simp [List.getD, l1, la, hi]
      rw [this, max_le_iff]
      simp
  have e2 : u.getD i 0 ≤ up.getD i 0 ↔ u.getD i 0 ≤ uUp.getD i 0 ∧ ∀ l, aUp = some l → u.getD i 0 ≤ l.getD i 0 := by
    cases aUp with
    | none => cases h2; simp
    | some a =>
      have la := hb a rfl
      simp only [tightenU, la, if_true, Option.some.injEq] at h2
      subst h2
      have : (List.zipWith min uUp a).getD i 0 = min (uUp.getD i 0) (a.getD i 0) := by
        simp [List.getD, l2, la, hi]
      rw [this, le_min_iff]
      simp
  rw [e1, e2]
  unfold InUAt
  tauto

theorem inU_iff {uLo uUp : Vec K} {aLo aUp : Option (Vec K)} {k : ℕ} (l1 : uLo.length = k) (l2 : uUp.length = k)
    {u : Vec K} (lu : u.length = k) : InU uLo uUp aLo aUp u ↔ ∀ i, i < k → InUAt uLo uUp aLo aUp u i := by
  constructor
  · rintro ⟨⟨-, -, h1⟩, h2, h3⟩ i hi
    exact ⟨(h1 i (by omega)).1, (h1 i (by omega)).2, fun l hl => h2 l hl i (by omega), fun l hl => h3 l hl i (by omega)⟩
  · intro h
    exact ⟨⟨by omega, by omega, fun i hi => ⟨(h i (by omega)).1, (h i (by omega)).2.1⟩⟩,
      fun l hl i hi => (h i (by omega)).2.2.1 l hl, fun l hl i hi => (h i (by omega)).2.2.2 l hl⟩

theorem length3 {α : Type*} {l : List α} (h : l.length = 3) : ∃ a b c, l = [a, b, c] := List.length_eq_three.1 h

theorem length2 {α : Type*} {l : List α} (h : l.length = 2) : ∃ a b, l = [a, b] := List.length_eq_two.1 h

/-- The input is within the limits, as asserted by `step_forward`. -/
theorem inLimits_iff {uLo uUp u : Vec K} {k : ℕ} (l1 : uLo.length = k) (l2 : uUp.length = k) (lu : u.length = k) :
    inLimits uLo uUp u ↔ InBox uLo uUp u := by
  have zip_le : ∀ (x y : Vec K), x.length = k → y.length = k →
      ((∀ p ∈ List.zip x y, p.1 ≤ p.2) ↔ ∀ i, i < k → x.getD i 0 ≤ y.getD i 0) := by
    intro x y lx ly
    constructor
    · intro h i hi
      have := h (x[i], y[i]) (by
        rw [List.mem_iff_getElem]
        exact ⟨i, by simp [lx, ly, hi], by simp⟩)
      simpa [List.getD, lx, ly, hi] using this
    · intro h p hp
      obtain ⟨i, hi, rfl⟩ := List.getElem_of_mem hp
      have hi' : i < k := by simp [lx, ly] at hi; exact hi
      have := h i hi'
      simpa [List.getD, lx, ly, hi'] using this
  have sw : (∀ p ∈ List.zip u uLo, p.2 ≤ p.1) ↔ ∀ p ∈ List.zip uLo u, p.1 ≤ p.2 := by
    rw [← List.zip_swap uLo u]
    constructor
    · intro h p hp
      exact h p.swap (List.mem_map.2 ⟨p, hp, rfl⟩)
    · intro h p hp
      obtain ⟨q, hq, rfl⟩ := List.mem_map.1 hp
      exact h q hq
  unfold inLimits
  rw [zip_le _ _ lu l2, sw, zip_le _ _ l1 lu]
  constructor
  · rintro ⟨h1, h2⟩
    exact ⟨by omega, by omega, fun i hi => ⟨h2 i (by omega), h1 i (by omega)⟩⟩
  · rintro ⟨-, -, h⟩
    exact ⟨fun i hi => (h i (by omega)).2, fun i hi => (h i (by omega)).1⟩

theorem enc_pair {m m1 m2 : Mip K} {D A B : (ℕ → K) → Prop} (e1 : Enc m m1 A A) (e2 : Enc m1 m2 B B)
    (dep : DepsBelow m.n D) (key : ∀ v, D v ↔ A v ∧ B v) : Enc m m2 D D :=
  ((e1.weaken (fun v _ hv => ((key v).1 hv).1) (fun _ _ h => h)).seq e2 dep fun v hv _ => ((key v).1 hv).2).weaken
    (fun _ _ h => h) fun v _ hv => (key v).2 hv

/-! ## C76: cars -/

/-- C76. `UnicycleReLUModel.step_forward` returns exactly for inputs within the limits, and then the documented next
state. -/
theorem C76_unicycle_step {S : ExSys K} {flag : Bool} (h : ExOk S 3 2 (uniSize flag) 2) {x u : Vec K}
    (hx : x.length = 3) (hu : u.length = 2) (y : Vec K) :
    S.uniStep flag x u = some y ↔ InBox S.uLo S.uUp u ∧ UniNext S.net.eval flag S.dt x u y := by
  unfold ExSys.uniStep
  rw [← inLimits_iff h.ulo h.uup hu]
  by_cases hl : inLimits S.uLo S.uUp u
  · rw [if_pos hl]
    simp only [hl, true_and, Option.some.injEq]
    obtain ⟨a, b, c, rfl⟩ := length3 hx
    obtain ⟨w, o, rfl⟩ := length2 hu
    cases flag <;>
    · obtain ⟨p, q, e1⟩ := length2 (ex_len h (uniIn 0 _ [a, b, c] [w, o]))
      obtain ⟨r, s, e2⟩ := length2 (ex_len h (zeros (uniSize _)))
      rw [e1, e2]
      simp only [uniIn, uniSize, zeros, List.replicate, List.getD_cons_zero, List.getD_cons_succ, if_true,
        Bool.false_eq_true, if_false] at e1 e2
      constructor
      · rintro rfl
        refine ⟨by simp [seg, vadd, vsub], fun i hi => ?_, by simp [seg, vadd, vsub]⟩
        interval_cases i <;> simp [seg, vadd, vsub, e1, e2]
      · rintro ⟨ly, h1, h2⟩
        obtain ⟨y0, y1, y2, rfl⟩ := length3 ly
        have g0 := h1 0 (by omega)
        have g1 := h1 1 (by omega)
        simp [e1, e2] at g0 g1 h2
        simp [seg, vadd, vsub, g0, g1, h2]
  · rw [if_neg hl]
    simp [hl]

/-- C76 for a concrete system: the step is the documented one, and it raises outside of the limits. -/
example : (∃ y, (exSysP 3 2 3 2).uniStep true [0, 0, 1 / 2] [1, -1] = some y ∧
      UniNext (exNetP 3 2).eval true (1 / 10) [0, 0, 1 / 2] [1, -1] y) ∧
    (exSysP 3 2 3 2).uniStep true [0, 0, 1 / 2] [3, -1] = none := by
  have hl : InBox (exSysP 3 2 3 2).uLo (exSysP 3 2 3 2).uUp [1, -1] := ⟨rfl, rfl, fun i hi => by
    have : i < 2 := hi
    interval_cases i <;> norm_num [exSysP]⟩
  constructor
  · have h1 : inLimits (exSysP 3 2 3 2).uLo (exSysP 3 2 3 2).uUp [1, -1] := (inLimits_iff (k := 2) rfl rfl rfl).2 hl
    have h2 : ∃ y, (exSysP 3 2 3 2).uniStep true [0, 0, 1 / 2] [1, -1] = some y := by
      unfold ExSys.uniStep
      rw [if_pos h1]
      exact ⟨_, rfl⟩
    obtain ⟨y, hy⟩ := h2
    exact ⟨y, hy, ((C76_unicycle_step (exSysP_ok 3 2 3 2) (flag := true) rfl rfl y).1 hy).2⟩
  · refine Option.eq_none_iff_forall_not_mem.2 fun y hy => ?_
    have := ((C76_unicycle_step (exSysP_ok 3 2 3 2) (flag := true) rfl rfl y).1 hy).1.2.2 0 (by simp)
    norm_num [exSysP] at this

theorem uniIn_box {flag : Bool} {S : ExSys K} {lo up : Vec K} {aLo aUp : Option (Vec K)}
    (hat : ∀ u i, i < 2 → (lo.getD i 0 ≤ u.getD i 0 ∧ u.getD i 0 ≤ up.getD i 0 ↔ InUAt S.uLo S.uUp aLo aUp u i))
    (x u : Vec K) : InBox (uniIn 0 flag S.xLo lo) (uniIn 0 flag S.xUp up) (uniIn 0 flag x u) ↔
      InXAt S.xLo S.xUp x 2 ∧ InUAt S.uLo S.uUp aLo aUp u 0 ∧ (flag = true → InUAt S.uLo S.uUp aLo aUp u 1) := by
  rw [← hat u 0 (by omega), ← hat u 1 (by omega)]
  unfold InXAt
  constructor
  · rintro ⟨-, -, h⟩
    refine ⟨?_, ?_, ?_⟩
    · have := h 0 (by cases flag <;> simp [uniIn])
      cases flag <;> simpa [uniIn] using this
    · have := h 1 (by cases flag <;> simp [uniIn])
      cases flag <;> simpa [uniIn] using this
    · rintro rfl
      simpa [uniIn] using h 2 (by simp [uniIn])
  · rintro ⟨h1, h2, h3⟩
    refine ⟨by cases flag <;> rfl, by cases flag <;> rfl, fun i hi => ?_⟩
    cases flag
    · simp only [uniIn, Bool.false_eq_true, if_false, List.length_cons, List.length_nil] at hi ⊢
      interval_cases i
      · exact h1
      · exact h2
    · simp only [uniIn, if_true, List.length_cons, List.length_nil] at hi ⊢
      interval_cases i
      · exact h1
      · exact h2
      · exact h3 rfl

/-- C76. The program of `UnicycleReLUModel.add_dynamics_constraint` (all bound methods): exactly the documented next
state, for a heading within its bounds and for the network inputs within all bounds. Without `thetadot_as_input` the
second input is not restricted. -/
theorem C76_unicycle {S : ExSys K} {flag : Bool} (h : ExOk S 3 2 (uniSize flag) 2) :
    CtrlEncD (S.uniAdd flag) 3 2 (UsableEx S (uniIn 0 flag)) fun aLo aUp x u y =>
      InXAt S.xLo S.xUp x 2 ∧ InUAt S.uLo S.uUp aLo aUp u 0 ∧ (flag = true → InUAt S.uLo S.uUp aLo aUp u 1) ∧
        UniNext S.net.eval flag S.dt x u y := by
  intro m x xn u aLo aUp hw lx lxn lu hnd hx hxn hu hP
  obtain ⟨lo, up, h1, h2, l1, l2, hle, hat⟩ := tightenU_at h.ulo h.uup hP.1
  have hmv := hP.2 lo up h1 h2
  obtain ⟨a, b, c, rfl⟩ := length3 lx
  obtain ⟨an, bn, cn, rfl⟩ := length3 lxn
  obtain ⟨w, o, rfl⟩ := length2 lu
  have b1 : (uniIn 0 flag S.xLo lo).length = uniSize flag := by cases flag <;> rfl
  have b2 : (uniIn 0 flag S.xUp up).length = uniSize flag := by cases flag <;> rfl
  have lz : (uniIn 0 flag [a, b, c] [w, o]).length = uniSize flag := by cases flag <;> rfl
  obtain ⟨r, hr⟩ := outputConstraint_isSome S.method h.net h.hidden b1 b2 (by
    have q2 := h.le 2 (by omega)
    have q0 := hle 0 (by omega)
    have q1 := hle 1 (by omega)
    intro i hi
    cases flag <;> simp only [uniSize, if_true, Bool.false_eq_true, if_false] at hi <;> interval_cases i <;>
      simpa [uniIn] using by assumption)
  have hb := netBlock_of hr h.net hmv b1 b2
  obtain ⟨m1, m2, sl, bi, hm1, hm2, e2⟩ := net_rows hb m hw (uniIn 0 flag [a, b, c] [w, o]) lz
    (by
      intro i hi
      have q1 := hx c (by simp)
      have q2 := hu w (by simp)
      have q3 := hu o (by simp)
      cases flag <;> simp [uniIn] at hi <;> aesop)
    (incBlocks 2 [an, bn] [a, b]) (S.net.eval (zeros (uniSize flag))) (by rw [ex_len h, h.out])
    (by
      rw [h.out]
      exact inc_ok rfl rfl (fun i hi => hxn i (by simp at hi ⊢; tauto)) fun i hi => hx i (by simp at hi ⊢; tauto))
  obtain ⟨m3, hm3, e3⟩ := lrow_enc m2 e2.wf S.dt cn c o (by
      simp at hnd ⊢
      obtain ⟨⟨-, -, -, -, -, n1⟩, ⟨-, -, -, n2⟩, n3⟩ := hnd
      aesop) ((hxn cn (by simp)).trans_le e2.n) ((hx c (by simp)).trans_le e2.n) ((hu o (by simp)).trans_le e2.n)
  refine ⟨m3, sl, bi, ?_, ?_⟩
  · unfold ExSys.uniAdd
    rw [h1, h2]
    simp only [Option.bind_eq_bind, Option.bind_some, hr, hb.A, hb.C, hm1]
    have hm2' : m1.addMConstr (incRows 2 (netOut S.net)) [seg [an, bn, cn] 0 2, seg [a, b, c] 0 2, sl] .eq
      (vsub S.net.last.b (S.net.eval (zeros (uniSize flag)))) = some m2 := hm2
    rw [hm2']
    simp only [Option.bind_some]
    have hm3' : m2.addLConstr [[1, -1, -S.dt]] [[[an, bn, cn].getD 2 0, [a, b, c].getD 2 0, [w, o].getD 1 0]] .eq 0 =
      some m3 := hm3
    rw [hm3']
    rfl
  · have key : ∀ v : ℕ → K, (InXAt S.xLo S.xUp ([a, b, c].map v) 2 ∧ InUAt S.uLo S.uUp aLo aUp ([w, o].map v) 0 ∧
          (flag = true → InUAt S.uLo S.uUp aLo aUp ([w, o].map v) 1) ∧
          UniNext S.net.eval flag S.dt ([a, b, c].map v) ([w, o].map v) ([an, bn, cn].map v)) ↔
        (InBox (uniIn 0 flag S.xLo lo) (uniIn 0 flag S.xUp up) ((uniIn 0 flag [a, b, c] [w, o]).map v) ∧
          ∀ i, i < S.net.last.W.length → ((incBlocks 2 [an, bn] [a, b]).map fun p =>
            dot (p.1.rows.getD i []) (p.2.map v)).sum =
              (S.net.eval ((uniIn 0 flag [a, b, c] [w, o]).map v)).getD i 0 -
                (S.net.eval (zeros (uniSize flag))).getD i 0) ∧ v cn = v c + v o * S.dt := by
      intro v
      have e : (uniIn 0 flag [a, b, c] [w, o]).map v = uniIn 0 flag ([a, b, c].map v) ([w, o].map v) := by
        cases flag <;> rfl
      rw [e, uniIn_box hat, h.out]
      have rows : (∀ i, i < 2 → ((incBlocks 2 [an, bn] [a, b]).map fun p =>
            dot (p.1.rows.getD i []) (p.2.map v)).sum =
              (S.net.eval (uniIn 0 flag ([a, b, c].map v) ([w, o].map v))).getD i 0 -
                (S.net.eval (zeros (uniSize flag))).getD i 0) ↔
          ∀ i, i < 2 → [v an, v bn].getD i 0 - [v a, v b].getD i 0 =
            (S.net.eval (uniIn 0 flag ([a, b, c].map v) ([w, o].map v))).getD i 0 -
                (S.net.eval (zeros (uniSize flag))).getD i 0 := by
        refine forall_congr' fun i => forall_congr' fun hi => ?_
        rw [inc_sum _ _ _ _ _ hi]
        rfl
      rw [rows]
      unfold UniNext
      have : (∀ i, i < 2 → [v an, v bn].getD i 0 - [v a, v b].getD i 0 =
            (S.net.eval (uniIn 0 flag ([a, b, c].map v) ([w, o].map v))).getD i 0 -
                (S.net.eval (zeros (uniSize flag))).getD i 0) ↔
          ∀ i, i < 2 → ([an, bn, cn].map v).getD i 0 = ([a, b, c].map v).getD i 0 +
      if flag then (S.net.eval [([a, b, c].map v).getD 2 0, ([w, o].map v).getD 0 0, ([w, o].map v).getD 1 0]).getD i 0 -
        (S.net.eval [0, 0, 0]).getD i 0
      else (S.net.eval [([a, b, c].map v).getD 2 0, ([w, o].map v).getD 0 0]).getD i 0 -
        (S.net.eval [0, 0]).getD i 0 := by
        refine forall_congr' fun i => forall_congr' fun hi => ?_
        interval_cases i <;> cases flag <;>
          simp only [uniIn, uniSize, zeros, List.replicate, if_true, Bool.false_eq_true, if_false, List.map_cons,
            List.map_nil, List.getD_cons_zero, List.getD_cons_succ] <;>
          constructor <;> intro hh <;> linarith
      rw [this]
      simp only [List.map_cons, List.map_nil, List.length_cons, List.length_nil, true_and, List.getD_cons_zero,
        List.getD_cons_succ]
      tauto
    have dep := depsBelow_rel hx hu hxn (K := K) fun x u y => InXAt S.xLo S.xUp x 2 ∧
      InUAt S.uLo S.uUp aLo aUp u 0 ∧ (flag = true → InUAt S.uLo S.uUp aLo aUp u 1) ∧ UniNext S.net.eval flag S.dt x u y
    exact enc_pair e2 e3 dep key

/-- C76 with additional lower bounds, with and without `θ̇` as an input of the network. -/
example := C76_unicycle (flag := true) (exSysP_ok 3 2 3 2)
example := C76_unicycle (flag := false) (exSysP_ok 3 2 2 2)
example : UsableEx (exSysP 3 2 3 2) (uniIn 0 true) (some [1, 1]) none :=
  exSysP_usable 3 2 3 2 _ _ (by rintro l ⟨⟩; rfl)

/-- C76 (the program is not as documented): without `thetadot_as_input` the program of a system has a solution whose
input is outside of the limits of the system, at which `step_forward` raises. -/
theorem C76_thetadot_not_limited : ∃ (S : ExSys ℚ) (m m' : Mip ℚ) (s g : List ℕ) (v : ℕ → ℚ),
    ExOk S 3 2 (uniSize false) 2 ∧ S.uniAdd false m [0, 1, 2] [3, 4, 5] [6, 7] none none = some (m', s, g) ∧
      m'.Feas v ∧ S.uUp.getD 1 0 < v 7 ∧ S.uniStep false [v 0, v 1, v 2] [v 6, v 7] = none := by
  obtain ⟨m, hm, st⟩ := free_addVars (Mip.empty : Mip ℚ) Mip.WF.empty 8
  have hn : m.n = 8 := by rw [st.n]; rfl
  have hP : UsableEx (exSysP 3 2 2 2) (uniIn 0 false) none none := exSysP_usable 3 2 2 2 _ _ (by simp)
  have hlt : ∀ i, i < 8 → i < m.n := fun i hi => by omega
  obtain ⟨m', s, g, e, enc⟩ := C76_unicycle (flag := false) (exSysP_ok 3 2 2 2) m [0, 1, 2] [3, 4, 5] [6, 7] none none
    st.wf rfl rfl rfl (by decide) (by intro i hi; apply hlt; revert i; decide)
    (by intro i hi; apply hlt; revert i; decide) (by intro i hi; apply hlt; revert i; decide) hP
  obtain ⟨v', hv, hf⟩ := enc.complete (fun i => if i = 5 then 1 / 2 else if i = 7 then 5 else 0)
    (by
      rw [st.feas]
      exact ⟨feas_empty _, by simp⟩)
    (by
      refine ⟨?_, ?_, by simp, rfl, fun i hi => ?_, ?_⟩
      · norm_num [InXAt, exSysP]
      · refine ⟨?_, ?_, fun l hl => (nomatch hl), fun l hl => (nomatch hl)⟩ <;> norm_num [exSysP]
      · interval_cases i <;> simp
      · norm_num [exSysP])
  refine ⟨exSysP 3 2 2 2, m, m', s, g, v', exSysP_ok 3 2 2 2, e, hf, ?_, ?_⟩
  · rw [hv 7 (by omega)]
    norm_num [exSysP]
  · rw [hv 0 (by omega), hv 1 (by omega), hv 2 (by omega), hv 6 (by omega), hv 7 (by omega)]
    refine Option.eq_none_iff_forall_not_mem.2 fun y hy => ?_
    have := ((C76_unicycle_step (exSysP_ok 3 2 2 2) (flag := false) rfl rfl y).1 hy).1.2.2 1 (by simp)
    norm_num [exSysP] at this

/-- C76. `UnicycleReLUZeroVelModel.step_forward` returns exactly for inputs within the limits, and then the documented
next state. -/
theorem C76_zero_velocity_step {S : ExSys K} {flag : Bool} (h : ExOk S 3 2 (uniSize flag) 2) {x u : Vec K}
    (hx : x.length = 3) (hu : u.length = 2) (y : Vec K) :
    S.zeroStep flag x u = some y ↔ InBox S.uLo S.uUp u ∧ ZeroNext S.net.eval flag S.dt x u y := by
  unfold ExSys.zeroStep
  rw [← inLimits_iff h.ulo h.uup hu]
  by_cases hl : inLimits S.uLo S.uUp u
  · rw [if_pos hl]
    simp only [hl, true_and, Option.some.injEq]
    obtain ⟨a, b, c, rfl⟩ := length3 hx
    obtain ⟨w, o, rfl⟩ := length2 hu
    cases flag <;>
    · obtain ⟨p, q, e1⟩ := length2 (ex_len h (uniIn 0 _ [a, b, c] [w, o]))
      obtain ⟨r, s, e2⟩ := length2 (ex_len h (uniIn0 0 0 _ [a, b, c] [w, o]))
      rw [e1, e2]
      simp only [uniIn, uniIn0, List.getD_cons_zero, List.getD_cons_succ, if_true,
        Bool.false_eq_true, if_false] at e1 e2
      constructor
      · rintro rfl
        refine ⟨by simp [seg, vadd, vsub], fun i hi => ?_, by simp [seg, vadd, vsub]⟩
        interval_cases i <;> simp [seg, vadd, vsub, e1, e2]
      · rintro ⟨ly, h1, h2⟩
        obtain ⟨y0, y1, y2, rfl⟩ := length3 ly
        have g0 := h1 0 (by omega)
        have g1 := h1 1 (by omega)
        simp [e1, e2] at g0 g1 h2
        simp [seg, vadd, vsub, g0, g1, h2]
  · rw [if_neg hl]
    simp [hl]

/-- C76. With no velocity the position does not change, for every network. -/
theorem C76_zero_velocity {S : ExSys K} {flag : Bool} (h : ExOk S 3 2 (uniSize flag) 2) {x u y : Vec K}
    (hx : x.length = 3) (hu : u.length = 2) (h0 : u.getD 0 0 = 0) (hy : S.zeroStep flag x u = some y) :
    ∀ i, i < 2 → y.getD i 0 = x.getD i 0 := by
  obtain ⟨-, -, h1, -⟩ := (C76_zero_velocity_step h hx hu y).1 hy
  intro i hi
  rw [h1 i hi, h0]
  cases flag <;> simp

/-- C76 for a concrete system at zero velocity. -/
example {y : Vec ℚ} (hy : (exSysP 3 2 3 2).zeroStep true [1, 2, 1 / 2] [0, 1] = some y) : y.getD 0 0 = 1 :=
  C76_zero_velocity (flag := true) (exSysP_ok 3 2 3 2) rfl rfl rfl hy 0 (by omega)

example : ((exSysP 3 2 3 2).zeroStep true [1, 2, 1 / 2] [0, 1]).isSome := by
  unfold ExSys.zeroStep
  rw [if_pos]
  · rfl
  · refine (inLimits_iff (k := 2) rfl rfl rfl).2 ⟨rfl, rfl, fun i hi => ?_⟩
    have : i < 2 := hi
    interval_cases i <;> norm_num [exSysP]

theorem uniIn0_box {flag : Bool} {S : ExSys K} {lo up : Vec K} {aLo aUp : Option (Vec K)}
    (hat : ∀ u i, i < 2 → (lo.getD i 0 ≤ u.getD i 0 ∧ u.getD i 0 ≤ up.getD i 0 ↔ InUAt S.uLo S.uUp aLo aUp u i))
    (x u : Vec K) : InBox (uniIn0 0 0 flag S.xLo lo) (uniIn0 0 0 flag S.xUp up) (uniIn0 0 0 flag x u) ↔
      InXAt S.xLo S.xUp x 2 ∧ (flag = true → InUAt S.uLo S.uUp aLo aUp u 1) := by
  rw [← hat u 1 (by omega)]
  unfold InXAt
  constructor
  · rintro ⟨-, -, h⟩
    refine ⟨?_, ?_⟩
    · have := h 0 (by cases flag <;> simp [uniIn0])
      cases flag <;> simpa [uniIn0] using this
    · rintro rfl
      simpa [uniIn0] using h 2 (by simp [uniIn0])
  · rintro ⟨h1, h3⟩
    refine ⟨by cases flag <;> rfl, by cases flag <;> rfl, fun i hi => ?_⟩
    cases flag
    · simp only [uniIn0, Bool.false_eq_true, if_false, List.length_cons, List.length_nil] at hi ⊢
      interval_cases i
      · exact h1
      · simp
    · simp only [uniIn0, if_true, List.length_cons, List.length_nil] at hi ⊢
      interval_cases i
      · exact h1
      · simp
      · exact h3 rfl

/-- C76. The program of `UnicycleReLUZeroVelModel.add_dynamics_constraint` (all bound methods): exactly the documented
next state, for a heading within its bounds and for the network inputs within all bounds. -/
theorem C76_zero_velocity_program {S : ExSys K} {flag : Bool} (h : ExOk S 3 2 (uniSize flag) 2) :
    CtrlEncD (S.zeroAdd flag) 3 2 (fun aLo aUp => UsableEx S (uniIn 0 flag) aLo aUp ∧
        UsableEx S (uniIn0 0 0 flag) aLo aUp) fun aLo aUp x u y =>
      InXAt S.xLo S.xUp x 2 ∧ InUAt S.uLo S.uUp aLo aUp u 0 ∧ (flag = true → InUAt S.uLo S.uUp aLo aUp u 1) ∧
        ZeroNext S.net.eval flag S.dt x u y := by
  intro m x xn u aLo aUp hw lx lxn lu hnd hx hxn hu ⟨hP, hP0⟩
  obtain ⟨lo, up, h1, h2, l1, l2, hle, hat⟩ := tightenU_at h.ulo h.uup hP.1
  have hmv := hP.2 lo up h1 h2
  have hmv0 := hP0.2 lo up h1 h2
  obtain ⟨a, b, c, rfl⟩ := length3 lx
  obtain ⟨an, bn, cn, rfl⟩ := length3 lxn
  obtain ⟨w, o, rfl⟩ := length2 lu
  have b1 : (uniIn 0 flag S.xLo lo).length = uniSize flag := by cases flag <;> rfl
  have b2 : (uniIn 0 flag S.xUp up).length = uniSize flag := by cases flag <;> rfl
  have b3 : (uniIn0 0 0 flag S.xLo lo).length = uniSize flag := by cases flag <;> rfl
  have b4 : (uniIn0 0 0 flag S.xUp up).length = uniSize flag := by cases flag <;> rfl
  have q2 := h.le 2 (by omega)
  have q0 := hle 0 (by omega)
  have q1 := hle 1 (by omega)
  obtain ⟨r, hr⟩ := outputConstraint_isSome S.method h.net h.hidden b1 b2 (by
    intro i hi
    cases flag <;> simp only [uniSize, if_true, Bool.false_eq_true, if_false] at hi <;> interval_cases i <;>
      simpa [uniIn] using by assumption)
  obtain ⟨r0, hr0⟩ := outputConstraint_isSome S.method h.net h.hidden b3 b4 (by
    intro i hi
    cases flag <;> simp only [uniSize, if_true, Bool.false_eq_true, if_false] at hi <;> interval_cases i <;>
      first | exact le_rfl | exact q2 | exact q1)
  have hb := netBlock_of hr h.net hmv b1 b2
  have hb0 := netBlock_of hr0 h.net hmv0 b3 b4
  obtain ⟨mz, hmz, sz⟩ := box_addVars m hw [0] [0] rfl
  have nz : mz.n = m.n + 1 := sz.n
  have ez : Enc m mz (fun _ => True) fun v => v m.n = 0 := by
    refine (sz.congr (Q := fun v => v m.n = 0) rfl fun v => ?_).enc hw (fun _ h => h) fun v _ _ =>
      ⟨[0], rfl, by simp [upd]⟩
    constructor
    · rintro ⟨-, -, h⟩
      have := h 0 (by simp)
      simp at this
      exact le_antisymm this.2 this.1
    · intro hv
      refine ⟨by simp, by simp, fun i hi => ?_⟩
      simp at hi
      subst hi
      simp [hv]
  set zs := uniIn 0 flag [a, b, c] [w, o] with hzs
  set zs0 := uniIn0 0 m.n flag [a, b, c] [w, o] with hzs0
  have lz : zs.length = uniSize flag := by cases flag <;> rfl
  have lz0 : zs0.length = uniSize flag := by cases flag <;> rfl
  have xc := hx c (by simp)
  have uw := hu w (by simp)
  have uo := hu o (by simp)
  obtain ⟨m1, hm1, hn1, e1⟩ := mic_enc mz sz.wf r.mic zs (by rw [lz]; exact hb.ready) (by
    intro i hi
    rw [nz]
    cases flag <;> simp [hzs, uniIn] at hi <;> rcases hi with rfl | hi <;> omega)
  obtain ⟨m2, hm2, hn2, e2⟩ := mic_enc m1 e1.wf r0.mic zs0 (by rw [lz0]; exact hb0.ready) (by
    intro i hi
    rw [hn1, nz]
    cases flag <;> simp [hzs0, uniIn0] at hi <;> rcases hi with rfl | hi <;> omega)
  set sl := List.range' mz.n r.mic.numSlack with hsl
  set bi := List.range' (mz.n + r.mic.numSlack) r.mic.numBinary with hbi
  set sl0 := List.range' m1.n r0.mic.numSlack with hsl0
  set bi0 := List.range' (m1.n + r0.mic.numSlack) r0.mic.numBinary with hbi0
  have lb : (vsub S.net.last.b S.net.last.b).length = 2 := by simp [hb.lenb, h.out]
  obtain ⟨m3, hm3, s3⟩ := mconstr_step m2 e2.wf [(⟨2, eye 2⟩, [an, bn]), (⟨2, (eye 2).map vneg⟩, [a, b]),
      (⟨(netOut S.net).cols, (netOut S.net).rows.map vneg⟩, sl), (netOut S.net, sl0)] .eq
      (vsub S.net.last.b S.net.last.b) (by simp) (by
      rw [lb]
      have := inc_ok (K := K) (n := m2.n) (p := 2) (a := [an, bn]) (b := [a, b]) rfl rfl
        (fun i hi => (hxn i (by simp at hi ⊢; tauto)).trans_le (by omega))
        (fun i hi => (hx i (by simp at hi ⊢; tauto)).trans_le (by omega))
      intro p hp
      simp only [List.mem_cons, List.not_mem_nil, or_false] at hp
      rcases hp with rfl | rfl | rfl | rfl
      · exact this _ (by simp [incBlocks])
      · exact this _ (by simp [incBlocks])
      · refine ⟨by simp [hb.rows, h.out], by simp [hsl, hb.cols], ?_, fun i hi => ?_⟩
        · intro r hr
          obtain ⟨r', hr', rfl⟩ := List.mem_map.1 hr
          simpa using hb.okA r' hr'
        · have := (List.mem_range'_1.1 (hsl ▸ hi)).2
          omega
      · refine ⟨by simp [hb.rows, h.out], by simp [hsl0, hb0.cols], hb.okA, fun i hi => ?_⟩
        have := (List.mem_range'_1.1 (hsl0 ▸ hi)).2
        omega)
  have g3 : ∀ v : ℕ → K, (∀ i, i < (vsub S.net.last.b S.net.last.b).length → Sense.eq.Rel
      (([((⟨2, eye 2⟩ : Tensor2 K), [an, bn]), (⟨2, (eye 2).map vneg⟩, [a, b]),
      (⟨(netOut S.net).cols, (netOut S.net).rows.map vneg⟩, sl), (netOut S.net, sl0)]).map
        fun p => dot (p.1.rows.getD i []) (p.2.map v)).sum ((vsub S.net.last.b S.net.last.b).getD i 0)) ↔
      ∀ i, i < 2 → ([an, bn].map v).getD i 0 = ([a, b].map v).getD i 0 +
        ((dot ((netOut S.net).rows.getD i []) (sl.map v) + S.net.last.b.getD i 0) -
        (dot ((netOut S.net).rows.getD i []) (sl0.map v) + S.net.last.b.getD i 0)) := by
    intro v
    rw [lb]
    refine forall_congr' fun i => forall_congr' fun hi' => ?_
    have hneg : ((netOut S.net).rows.map vneg).getD i [] = vneg ((netOut S.net).rows.getD i []) := by
      simp [List.getD, hb.rows, hi', h.out]
    have := inc_sum 2 [an, bn] [a, b] v i hi'
    simp only [incBlocks, List.map_cons, List.map_nil, List.sum_cons, List.sum_nil] at this
    simp only [List.map_cons, List.map_nil, List.sum_cons, List.sum_nil, Sense.Rel]
    rw [hneg, dot_vneg_left, getD_vsub _ _ _ rfl]
    constructor <;> intro hh' <;> linarith
  have e3 := (s3.congr rfl g3).enc0 e2.wf
  obtain ⟨m4, hm4, e4⟩ := lrow_enc m3 e3.wf S.dt cn c o (by
      simp at hnd ⊢
      obtain ⟨⟨-, -, -, -, -, n1⟩, ⟨-, -, -, n2⟩, n3⟩ := hnd
      aesop) ((hxn cn (by simp)).trans_le (by have := e3.n; omega)) (xc.trans_le (by have := e3.n; omega))
      (uo.trans_le (by have := e3.n; omega))
  refine ⟨m4, sl, bi, ?_, ?_⟩
  · unfold ExSys.zeroAdd
    rw [h1, h2]
    simp only [Option.bind_eq_bind, Option.bind_some, hr, hr0, hb.A, hb.C, hb0.A, hb0.C]
    have hmz' : m.addVars 1 [some 0] [some 0] .continuous = some (mz, [m.n]) := hmz
    rw [hmz']
    simp only [Option.bind_some]
    rw [hm1]
    simp only [Option.bind_some]
    have hm2' : m1.addMIC r0.mic (uniIn0 0 ([m.n].getD 0 0) flag [a, b, c] [w, o]) none .fresh .binary =
      some (m2, sl0, bi0) := hm2
    rw [hm2']
    simp only [Option.bind_some]
    have hm3' : m2.addMConstr (incRows 2 (netOut S.net) ++ [netOut S.net])
      [seg [an, bn, cn] 0 2, seg [a, b, c] 0 2, sl, sl0] .eq (vsub S.net.last.b S.net.last.b) = some m3 := hm3
    rw [hm3']
    simp only [Option.bind_some]
    have hm4' : m3.addLConstr [[1, -1, -S.dt]] [[[an, bn, cn].getD 2 0, [a, b, c].getD 2 0, [w, o].getD 1 0]] .eq 0 =
      some m4 := hm4
    rw [hm4']
    rfl
  · set D : (ℕ → K) → Prop := fun v => InXAt S.xLo S.xUp ([a, b, c].map v) 2 ∧
      InUAt S.uLo S.uUp aLo aUp ([w, o].map v) 0 ∧ (flag = true → InUAt S.uLo S.uUp aLo aUp ([w, o].map v) 1) ∧
      ZeroNext S.net.eval flag S.dt ([a, b, c].map v) ([w, o].map v) ([an, bn, cn].map v) with hD
    have dep : DepsBelow m.n D := depsBelow_rel hx hu hxn (K := K) fun x u y => InXAt S.xLo S.xUp x 2 ∧
      InUAt S.uLo S.uUp aLo aUp u 0 ∧ (flag = true → InUAt S.uLo S.uUp aLo aUp u 1) ∧
        ZeroNext S.net.eval flag S.dt x u y
    have ex : ∀ v : ℕ → K, zs.map v = uniIn 0 flag ([a, b, c].map v) ([w, o].map v) := by
      intro v; cases flag <;> rfl
    have ex0 : ∀ v : ℕ → K, v m.n = 0 → zs0.map v = uniIn0 0 0 flag ([a, b, c].map v) ([w, o].map v) := by
      intro v hv; cases flag <;> simp [hzs0, uniIn0, hv]
    have f1 : ∀ v : ℕ → K, (∃ s z, r.mic.Feas (zs.map v) s z) ↔ InXAt S.xLo S.xUp ([a, b, c].map v) 2 ∧
        InUAt S.uLo S.uUp aLo aUp ([w, o].map v) 0 ∧ (flag = true → InUAt S.uLo S.uUp aLo aUp ([w, o].map v) 1) := by
      intro v
      rw [hb.exact _ (by simp [lz]), ex, uniIn_box hat]
    have f2 : ∀ v : ℕ → K, v m.n = 0 → ((∃ s z, r0.mic.Feas (zs0.map v) s z) ↔
        InXAt S.xLo S.xUp ([a, b, c].map v) 2 ∧
        (flag = true → InUAt S.uLo S.uUp aLo aUp ([w, o].map v) 1)) := by
      intro v hv
      rw [hb0.exact _ (by simp [lz0]), ex0 v hv, uniIn0_box hat]
    have nx : ∀ v : ℕ → K, v m.n = 0 → r.mic.Feas (zs.map v) (sl.map v) (bi.map v) →
        r0.mic.Feas (zs0.map v) (sl0.map v) (bi0.map v) →
        (ZeroNext S.net.eval flag S.dt ([a, b, c].map v) ([w, o].map v) ([an, bn, cn].map v) ↔
          (∀ i, i < 2 → ([an, bn].map v).getD i 0 = ([a, b].map v).getD i 0 +
        ((dot ((netOut S.net).rows.getD i []) (sl.map v) + S.net.last.b.getD i 0) -
        (dot ((netOut S.net).rows.getD i []) (sl0.map v) + S.net.last.b.getD i 0))) ∧ v cn = v c + v o * S.dt) := by
      intro v hv hf hf0
      have o1 := fun i hi => hb.out _ _ _ (by simp [lz]) hf i (by rw [h.out]; exact hi)
      have o2 := fun i hi => hb0.out _ _ _ (by simp [lz0]) hf0 i (by rw [h.out]; exact hi)
      rw [ex] at o1
      rw [ex0 v hv] at o2
      have : (∀ i, i < 2 → ([an, bn].map v).getD i 0 = ([a, b].map v).getD i 0 +
        ((dot ((netOut S.net).rows.getD i []) (sl.map v) + S.net.last.b.getD i 0) -
        (dot ((netOut S.net).rows.getD i []) (sl0.map v) + S.net.last.b.getD i 0))) ↔
          ∀ i, i < 2 → ([an, bn].map v).getD i 0 = ([a, b].map v).getD i 0 +
        ((S.net.eval (uniIn 0 flag ([a, b, c].map v) ([w, o].map v))).getD i 0 -
          (S.net.eval (uniIn0 0 0 flag ([a, b, c].map v) ([w, o].map v))).getD i 0) := by
        refine forall_congr' fun i => forall_congr' fun hi => ?_
        rw [o1 i hi, o2 i hi]
      rw [this]
      unfold ZeroNext
      simp only [List.map_cons, List.map_nil, List.length_cons, List.length_nil, true_and, List.getD_cons_zero,
        List.getD_cons_succ]
      refine and_congr (forall_congr' fun i => forall_congr' fun hi => ?_) Iff.rfl
      interval_cases i <;> cases flag <;>
          simp [uniIn, uniIn0]
    have c0 := ez.weaken (D2 := D) (fun _ _ _ => trivial) (fun _ _ h => h)
    have c1 := c0.seq e1 dep fun v hv _ => (f1 v).2 ⟨hv.1, hv.2.1, hv.2.2.1⟩
    have c2 := c1.seq e2 dep fun v hv hz => (f2 v hz.1).2 ⟨hv.1, hv.2.2.1⟩
    have c3 := c2.seq e3 dep fun v hv hz => ((nx v hz.1.1 hz.1.2 hz.2).1 hv.2.2.2).1
    have c4 := c3.seq e4 dep fun v hv hz => ((nx v hz.1.1.1 hz.1.1.2 hz.1.2).1 hv.2.2.2).2
    refine c4.weaken (fun _ _ h => h) ?_
    rintro v - ⟨⟨⟨⟨z1, z2⟩, z3⟩, z4⟩, z5⟩
    obtain ⟨y1, y2, y3⟩ := (f1 v).1 ⟨_, _, z2⟩
    exact ⟨y1, y2, y3, (nx v z1 z2 z3).2 ⟨z4, z5⟩⟩

example := C76_zero_velocity_program (flag := true) (exSysP_ok 3 2 3 2)
example : UsableEx (exSysP 3 2 3 2) (uniIn0 0 0 true) (some [1, 1]) none :=
  exSysP_usable 3 2 3 2 _ _ (by rintro l ⟨⟩; rfl)

end NNL.Props
