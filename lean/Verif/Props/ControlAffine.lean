import Verif.Model.ControlAffine
import Verif.Lemmas.ReluSystem

/-!
# Control-affine systems: C51
-/

set_option linter.unusedSectionVars false

namespace NNL.Props

open NNL NNL.Spec NNL.Model

variable {K : Type*} [Field K] [LinearOrder K] [IsStrictOrderedRing K]

theorem getD_micOut (c : MIC K) (x s z : Vec K) (i : ℕ) (hi : i < c.numOut) : (c.out x s z).getD i 0 =
    dot (mrow c.Aout_input i) x + dot (mrow c.Aout_slack i) s + dot (mrow c.Aout_binary i) z +
      (c.Cout.getD []).getD i 0 := by
  simp [MIC.out, List.getD, hi]

@[simp] theorem length_micOut (c : MIC K) (x s z : Vec K) : (c.out x s z).length = c.numOut := by simp [MIC.out]

theorem mrow_zerosOver_lt (k : ℕ) (A : Option (Tensor2 K)) (i : ℕ) (hi : i < k) (y : Vec K) :
    dot (mrow (A.map (zerosOver k)) i) y = 0 := by
  cases A with
  | none => simp [mrow]
  | some A => simp [mrow, zerosOver, List.getD, List.getElem?_append, zerosM, hi]

theorem mrow_zerosOver_ge (k : ℕ) (A : Option (Tensor2 K)) (i : ℕ) :
    mrow (A.map (zerosOver k)) (k + i) = mrow A i := by
  cases A with
  | none => simp [mrow]
  | some A => simp [mrow, zerosOver, List.getD, List.getElem?_append, zerosM]

theorem cout_zeros_lt (k : ℕ) (C : Option (Vec K)) (i : ℕ) (hi : i < k) :
    ((C.map (zeros k ++ ·)).getD []).getD i 0 = 0 := by
  cases C with
  | none => simp
  | some C => simp [List.getD, List.getElem?_append, zeros, hi]

theorem cout_zeros_ge (k : ℕ) (C : Option (Vec K)) (i : ℕ) :
    ((C.map (zeros k ++ ·)).getD []).getD (k + i) 0 = (C.getD []).getD i 0 := by
  cases C with
  | none => simp
  | some C => simp [List.getD, List.getElem?_append, zeros]

/-- C51. The constraints `mip_cnstr_f`: same feasible points as those of `a`, with the output `[v; a]`. -/
theorem C51_f {nq : ℕ} {a c : MIC K} (h : stackF nq (nq + nq) a = some c) (ha : a.Shaped) (hn : a.numOut = nq)
    {x s z : Vec K} (hx : x.length = nq + nq) :
    (c.Feas x s z ↔ a.Feas x s z) ∧ c.out x s z = x.drop nq ++ a.out x s z := by
  simp only [stackF] at h
  split_ifs at h with hc
  simp only [Option.some.injEq] at h
  have hrows : (a.Aout_input.getD ⟨nq + nq, zerosM nq (nq + nq)⟩).rows.length = nq := by
    cases hA : a.Aout_input with
    | none => simp
    | some A =>
      have := (ha.aout_x A hA).1
      simp only [Option.getD_some]
      omega
  have hlow : ∀ i, i < nq → dot ((a.Aout_input.getD ⟨nq + nq, zerosM nq (nq + nq)⟩).rows.getD i []) x =
      dot (mrow a.Aout_input i) x := by
    intro i hi
    cases hA : a.Aout_input with
    | none => simp [mrow, zerosM, List.getD, hi]
    | some A => simp [mrow]
  constructor
  · have n1 : c.numSlack = a.numSlack := by
      subst h
      simp only [MIC.numSlack]
      cases a.Aout_slack <;> simp [numVar, zerosOver]
    have n2 : c.numBinary = a.numBinary := by
      subst h
      simp only [MIC.numBinary]
      cases a.Aout_binary <;> simp [numVar, zerosOver]
    have hH : c.Holds x s z ↔ a.Holds x s z := by subst h; exact Iff.rfl
    have hB : c.BoundsHold x s z ↔ a.BoundsHold x s z := by subst h; exact Iff.rfl
    constructor
    · intro hf
      exact ⟨by rw [← n1]; exact hf.1, by rw [← n2]; exact hf.2, hf.3, hH.1 hf.4, hB.1 hf.5⟩
    · intro hf
      exact ⟨by rw [n1]; exact hf.1, by rw [n2]; exact hf.2, hf.3, hH.2 hf.4, hB.2 hf.5⟩
  · have no : c.numOut = nq + nq := by
      subst h
      simp [MIC.numOut, hrows]
    refine vec_ext (by simp [no, hx, hn]) fun i hi => ?_
    have hi : i < nq + nq := by simpa [no] using hi
    rw [getD_micOut _ _ _ _ _ (by omega)]
    subst h
    simp only
    rcases Nat.lt_or_ge i nq with hq | hq
    · rw [mrow_zerosOver_lt _ _ _ hq, mrow_zerosOver_lt _ _ _ hq, cout_zeros_lt _ _ _ hq]
      have e : mrow (some (⟨nq + nq, (List.range nq).map (fun i => zeros nq ++ eyeRow nq i) ++
          (a.Aout_input.getD ⟨nq + nq, zerosM nq (nq + nq)⟩).rows⟩ : Tensor2 K)) i = zeros nq ++ eyeRow nq i := by
        simp [mrow, List.getD, List.getElem?_append, hq]
      rw [e, ← List.take_append_drop nq x, dot_append _ _ _ _ (by simp [hx]), dot_eyeRow _ _ _ hq]
      simp [List.getD, List.getElem?_append, hx, hq]
    · obtain ⟨j, rfl⟩ := Nat.exists_eq_add_of_le hq
      rw [mrow_zerosOver_ge, mrow_zerosOver_ge, cout_zeros_ge]
      have e : mrow (some (⟨nq + nq, (List.range nq).map (fun i => zeros nq ++ eyeRow nq i) ++
          (a.Aout_input.getD ⟨nq + nq, zerosM nq (nq + nq)⟩).rows⟩ : Tensor2 K)) (nq + j) =
          (a.Aout_input.getD ⟨nq + nq, zerosM nq (nq + nq)⟩).rows.getD j [] := by
        simp [mrow, List.getD, List.getElem?_append]
      rw [e, hlow j (by omega), ← getD_micOut _ _ _ _ _ (by omega)]
      simp [List.getD, List.getElem?_append, hx]

/-- C51. The constraints `mip_cnstr_G`: same feasible points as those of `b`, with the output `[0; b]` (flat). -/
theorem C51_G {nq uDim : ℕ} {b c : MIC K} (h : stackG nq uDim b = some c) (hA : b.Aout_input = none)
    (hne : 0 < b.numOut) {x s z : Vec K} :
    (c.Feas x s z ↔ b.Feas x s z) ∧ c.out x s z = zeros (nq * uDim) ++ b.out x s z := by
  simp only [stackG, hA, Option.some.injEq] at h
  constructor
  · have n1 : c.numSlack = b.numSlack := by
      subst h
      simp only [MIC.numSlack]
      cases b.Aout_slack <;> simp [numVar, zerosOver]
    have n2 : c.numBinary = b.numBinary := by
      subst h
      simp only [MIC.numBinary]
      cases b.Aout_binary <;> simp [numVar, zerosOver]
    have hH : c.Holds x s z ↔ b.Holds x s z := by subst h; simp [MIC.Holds, MIC.ineqRows, MIC.eqRows]
    have hB : c.BoundsHold x s z ↔ b.BoundsHold x s z := by subst h; exact Iff.rfl
    constructor
    · intro hf
      exact ⟨by rw [← n1]; exact hf.1, by rw [← n2]; exact hf.2, hf.3, hH.1 hf.4, hB.1 hf.5⟩
    · intro hf
      exact ⟨by rw [n1]; exact hf.1, by rw [n2]; exact hf.2, hf.3, hH.2 hf.4, hB.2 hf.5⟩
  · have no : c.numOut = nq * uDim + b.numOut := by
      subst h
      simp only [MIC.numOut, hA] at hne ⊢
      cases h1 : b.Aout_slack <;> cases h2 : b.Aout_binary <;> cases h3 : b.Cout <;>
        simp [zerosOver, h1, h2, h3] at hne ⊢
    refine vec_ext (by simp [no]) fun i hi => ?_
    have hi : i < nq * uDim + b.numOut := by simpa [no] using hi
    rw [getD_micOut _ _ _ _ _ (by omega)]
    subst h
    simp only
    have e0 : ∀ j, mrow ({ b with Aout_slack := b.Aout_slack.map (zerosOver (nq * uDim)), Aout_binary := b.Aout_binary.map (zerosOver (nq * uDim)), Cout := b.Cout.map (zeros (nq * uDim) ++ ·) } : MIC K).Aout_input j = [] := by
      intro j
      simp [hA, mrow]
    rcases Nat.lt_or_ge i (nq * uDim) with hq | hq
    · rw [mrow_zerosOver_lt _ _ _ hq, mrow_zerosOver_lt _ _ _ hq, cout_zeros_lt _ _ _ hq]
      simp [List.getD, List.getElem?_append, hq, hA, mrow, zeros]
    · obtain ⟨j, rfl⟩ := Nat.exists_eq_add_of_le hq
      rw [mrow_zerosOver_ge, mrow_zerosOver_ge, cout_zeros_ge]
      have : (zeros (nq * uDim) ++ b.out x s z).getD (nq * uDim + j) 0 = (b.out x s z).getD j 0 := by
        simp [List.getD, List.getElem?_append]
      rw [this, getD_micOut _ _ _ _ _ (by omega)]
      simp [hA, mrow]

/-- C51. The dynamics of a second-order system: `q̇ = v`, `v̇ = a(x) + b(x) clamp(u)`. -/
theorem C51_dynamics (nq uDim : ℕ) (a : Vec K → Vec K) (b : Vec K → Mat K) (uLo uUp x u : Vec K)
    (hx : x.length = nq + nq) (hb : (b x).length = nq) :
    affineDynamics (secondF nq a) (secondG nq uDim b) uLo uUp x u =
      x.drop nq ++ vadd (a x) (matVec (b x) (clampVec uLo uUp u)) := by
  have e : matVec (zerosM nq uDim) (clampVec uLo uUp u) = zeros nq := by
    rw [matVec, zerosM, List.map_replicate, dot_zeros_left, zeros]
  have e2 : vadd (x.drop nq) (zeros nq) = x.drop nq := by
    refine vec_ext (by simp [hx]) fun i hi => ?_
    rw [getD_vadd _ _ _ (by simp [hx])]
    simp [List.getD, zeros, List.getElem?_replicate]
    split <;> simp
  rw [affineDynamics, secondF, secondG, matVec, List.map_append]
  simp only [matVec] at e
  rw [e, vadd, List.zipWith_append (by simp [hx]), ← vadd, e2]
  rfl

/-- C51. The clamped input is within the limits, and an input within the limits is not changed. -/
theorem C51_clamp (lo up u : Vec K) (h1 : lo.length = u.length) (h2 : up.length = u.length)
    (h : ∀ i, i < u.length → lo.getD i 0 ≤ up.getD i 0) :
    InBox lo up (clampVec lo up u) ∧ (InBox lo up u → clampVec lo up u = u) := by
  have hl : (clampVec lo up u).length = u.length := by simp [clampVec, h1, h2]
  have e : ∀ i, i < u.length → (clampVec lo up u).getD i 0 = max (min (u.getD i 0) (up.getD i 0)) (lo.getD i 0) := by
    intro i hi
    simp [clampVec, List.getD, h1, h2, hi]
  refine ⟨⟨by omega, by omega, fun i hi => ?_⟩, fun hb => vec_ext hl fun i hi => ?_⟩
  · rw [e i (by omega)]
    exact ⟨le_max_right _ _, max_le (min_le_right _ _) (h i (by omega))⟩
  · have := hb.2.2 i (by omega)
    rw [e i (by omega), min_eq_left this.2, max_eq_left this.1]

/-- The shapes asserted for `ReluSecondOrderControlAffineSystem`, and valid bound methods. -/
structure ReluAffine.Ok (S : ReluAffine K) (nq : ℕ) : Prop where
  lo : S.xLo.length = nq + nq
  up : S.xUp.length = nq + nq
  a : S.phiA.Ok (nq + nq)
  b : S.phiB.Ok (nq + nq)
  outA : S.phiA.last.W.length = nq
  outB : S.phiB.last.W.length = S.uLo.length * nq
  methodA : MethodValid S.phiA S.xLo S.xUp S.method
  methodB : MethodValid S.phiB S.xLo S.xUp S.methodB

theorem flatten_reshapeRows (r c : ℕ) (v : Vec K) (h : v.length = c * r) : (reshapeRows r c v).flatten = v := by
  induction r generalizing v with
  | zero =>
    have : v = [] := List.length_eq_zero_iff.1 (by simpa using h)
    simp [reshapeRows, this]
  | succ r ih =>
    have := ih (v.drop c) (by rw [List.length_drop, h, Nat.mul_succ]; omega)
    rw [reshapeRows, List.range_succ_eq_map]
    simp only [List.map_cons, List.map_map, List.flatten_cons, Nat.zero_mul, List.drop_zero]
    have e : (List.map ((fun i => List.take c (List.drop (i * c) v)) ∘ Nat.succ) (List.range r)) =
        reshapeRows r c (v.drop c) := by
      simp only [reshapeRows, Function.comp_def, List.drop_drop]
      refine List.map_congr_left fun i _ => ?_
      rw [Nat.succ_mul, Nat.add_comm]
    rw [e, this, List.take_append_drop]

/-- C51. The constraints of a ReLU control-affine system: for every state of the box (and no other) they are feasible,
and every feasible point has the outputs `f(x)` and `G(x)` (row by row); these lie within the returned bounds. -/
theorem C51_relu {S : ReluAffine K} {nq : ℕ} (hS : ReluAffine.Ok S nq) (hpos : 0 < S.uLo.length * nq)
    {r : AffineRet K} (h : S.mic = some r) {x : Vec K} (hx : x.length = nq + nq) (y g : Vec K) :
    ((∃ s z, r.f.Feas x s z ∧ r.f.out x s z = y) ↔ InBox S.xLo S.xUp x ∧ y = secondF nq S.a x) ∧
      ((∃ s z, r.G.Feas x s z ∧ r.G.out x s z = g) ↔
        InBox S.xLo S.xUp x ∧ g = (secondG nq S.uLo.length S.b x).flatten) ∧
      (InBox S.xLo S.xUp x → InBox r.fLo r.fUp (secondF nq S.a x) ∧
        InBox r.gLo r.gUp (secondG nq S.uLo.length S.b x).flatten) := by
  have hnq : S.nq = nq := by
    rw [ReluAffine.nq, hS.lo]
    omega
  simp only [ReluAffine.mic, secondOrderMic, hnq, Option.bind_eq_bind, Option.bind_eq_some_iff, Option.some.injEq] at h
  obtain ⟨a, ha, b, hb, f, hf, G, hG, rfl⟩ := h
  rw [hS.lo] at ha hb hf
  obtain ⟨ra, na, -⟩ := relu_fields ha hS.a
  obtain ⟨rb, nb, -, -, ib, -⟩ := relu_fields hb hS.b
  have eA := fun y => C12_exact (y := y) ha hS.a hS.methodA hS.lo hS.up hx
  have eB := fun y => C12_exact (y := y) hb hS.b hS.methodB hS.lo hS.up hx
  have F := fun s z => C51_f hf ra.sized.shaped (by rw [na, hS.outA]) (s := s) (z := z) hx
  have H := fun s z => C51_G hG ib (by rw [nb, hS.outB]; exact hpos) (x := x) (s := s) (z := z)
  have hB : (S.b x).flatten = S.phiB.eval x := by
    rw [ReluAffine.b, hnq, flatten_reshapeRows]
    rw [Net.eval, Lin.eval]
    have := hS.b.2.2
    simp [hS.outB, this]
  have hflat : (secondG nq S.uLo.length S.b x).flatten = zeros (nq * S.uLo.length) ++ S.phiB.eval x := by
    rw [secondG, List.flatten_append, hB]
    simp [zerosM, zeros]
  have app : ∀ {l u l' u' p q : Vec K}, InBox l u p → InBox l' u' q → InBox (l ++ l') (u ++ u') (p ++ q) := by
    intro l u l' u' p q hp hq
    refine ⟨by simp [hp.1, hq.1], by simp [hp.2.1, hq.2.1], fun i hi => ?_⟩
    have e1 := hp.1
    have e2 := hp.2.1
    rcases Nat.lt_or_ge i p.length with hi' | hi'
    · have := hp.2.2 i hi'
      simpa [List.getD, List.getElem?_append, hi', e1 ▸ hi', e2 ▸ hi'] using this
    · obtain ⟨j, rfl⟩ := Nat.exists_eq_add_of_le hi'
      have := hq.2.2 j (by simp at hi; omega)
      simpa [List.getD, List.getElem?_append, ← e1, ← e2] using this
  refine ⟨?_, ?_, fun hbox => ⟨?_, ?_⟩⟩
  · simp only [(F _ _).1, (F _ _).2]
    rw [secondF]
    constructor
    · rintro ⟨s, z, h1, rfl⟩
      obtain ⟨h2, h3⟩ := (eA _).1 ⟨s, z, h1, rfl⟩
      exact ⟨h2, by rw [h3]; rfl⟩
    · rintro ⟨h1, rfl⟩
      obtain ⟨s, z, h2, h3⟩ := (eA _).2 ⟨h1, rfl⟩
      exact ⟨s, z, h2, by rw [h3]; rfl⟩
  · simp only [(H _ _).1, (H _ _).2, hflat]
    constructor
    · rintro ⟨s, z, h1, rfl⟩
      obtain ⟨h2, h3⟩ := (eB _).1 ⟨s, z, h1, rfl⟩
      exact ⟨h2, by rw [h3]⟩
    · rintro ⟨h1, rfl⟩
      obtain ⟨s, z, h2, h3⟩ := (eB _).2 ⟨h1, rfl⟩
      exact ⟨s, z, h2, by rw [h3]⟩
  · refine app ⟨by simp [hx, hS.lo], by simp [hx, hS.up], fun i hi => ?_⟩ (C11_bounds_sound ha hS.a hS.methodA hbox).2.2
    simp at hi
    have := hbox.2.2 (nq + i) (by omega)
    simpa [List.getD] using this
  · rw [hflat]
    exact app ⟨by simp, by simp, fun i hi => by simp⟩ (C11_bounds_sound hb hS.b hS.methodB hbox).2.2

/-- The call returns, with interval arithmetic, for networks with a hidden layer. -/
theorem C51_relu_accepts {S : ReluAffine K} {nq : ℕ} (hS : ReluAffine.Ok S nq) (h1 : S.method = .ia)
    (h2 : S.methodB = .ia) (ha : S.phiA.hidden ≠ []) (hb : S.phiB.hidden ≠ [])
    (hle : ∀ i, i < nq + nq → S.xLo.getD i 0 ≤ S.xUp.getD i 0) : S.mic.isSome := by
  have hnq : S.nq = nq := by
    rw [ReluAffine.nq, hS.lo]
    omega
  obtain ⟨a, ea⟩ := Option.isSome_iff_exists.1 ((C12_accepts S.phiA _ _ _ hS.a hS.lo hS.up hle).2 ha)
  obtain ⟨b, eb⟩ := Option.isSome_iff_exists.1 ((C12_accepts S.phiB _ _ _ hS.b hS.lo hS.up hle).2 hb)
  obtain ⟨-, -, -, -, ia, -⟩ := relu_fields ea hS.a
  obtain ⟨-, -, -, -, ib, -⟩ := relu_fields eb hS.b
  simp [ReluAffine.mic, h1, h2, hS.lo, ea, eb, secondOrderMic, stackF, stackG, ia, ib, hnq]

/-- C51. The linear system: `f = A x`, `G = B` for every state, with exact bounds of `f` over the box. -/
theorem C51_linear {S : LinSys K} {r : AffineRet K} (h : S.mic = some r) (hA : S.A.length = S.xLo.length)
    (hc : HasCols S.A S.xLo.length) (hB : 0 < S.B.flatten.length) (x s z : Vec K) :
    (r.f.Feas x s z ↔ s = [] ∧ z = []) ∧ (r.G.Feas x s z ↔ s = [] ∧ z = []) ∧
      r.f.out x s z = matVec S.A x ∧ r.G.out x s z = S.B.flatten ∧
      r.gLo = S.B.flatten ∧ r.gUp = S.B.flatten ∧ (InBox S.xLo S.xUp x → InBox r.fLo r.fUp (matVec S.A x)) := by
  simp only [LinSys.mic, Option.bind_eq_bind, Option.bind_eq_some_iff, Option.some.injEq] at h
  obtain ⟨b, hb, rfl⟩ := h
  have fe : ∀ c : MIC K, c.numSlack = 0 → c.numBinary = 0 → c.rhs_in = none → c.rhs_eq = none → c.input_lo = none →
      c.input_up = none → c.slack_lo = none → c.slack_up = none → c.binary_lo = none → c.binary_up = none →
      (c.Feas x s z ↔ s = [] ∧ z = []) := by
    intro c h1 h2 h3 h4 h5 h6 h7 h8 h9 h10
    constructor
    · intro hf
      exact ⟨List.length_eq_zero_iff.1 (by rw [hf.1, h1]), List.length_eq_zero_iff.1 (by rw [hf.2, h2])⟩
    · rintro ⟨rfl, rfl⟩
      refine ⟨by rw [h1]; rfl, by rw [h2]; rfl, by simp [IsBin], ?_, ?_⟩
      · simp [MIC.Holds, MIC.ineqRows, MIC.eqRows, blockRows, h3, h4]
      · simp [MIC.BoundsHold, LoOk, UpOk, h5, h6, h7, h8, h9, h10]
  refine ⟨fe _ rfl rfl rfl rfl rfl rfl rfl rfl rfl rfl, fe _ rfl rfl rfl rfl rfl rfl rfl rfl rfl rfl, ?_, ?_, rfl, rfl,
    fun hx => ?_⟩
  · refine vec_ext (by simp [MIC.numOut]) fun i hi => ?_
    have hi : i < S.A.length := by simpa [MIC.numOut] using hi
    rw [getD_micOut _ _ _ _ _ (by simpa [MIC.numOut] using hi)]
    simp [mrow, matVec, List.getD, hi]
  · refine vec_ext (by simp [MIC.numOut]) fun i hi => ?_
    rw [getD_micOut _ _ _ _ _ (by simpa using hi)]
    simp [mrow]
  · obtain ⟨b1, b2⟩ := b
    have := rangeIA_sound hb hx
    have e : vadd (matVec S.A x) (zeros S.xLo.length) = matVec S.A x := by
      refine vec_ext (by simp [hA]) fun i hi => ?_
      rw [getD_vadd _ _ _ (by simp [hA])]
      simp [List.getD, zeros, List.getElem?_replicate]
      split <;> simp
    rwa [e] at this

/-- Finding. If the constraints of `b(x)` depend directly on the state (`Aout_input` present, as for an affine `b`),
the stacking raises: the zero block has `nq` columns instead of `x_dim`. -/
theorem C51_affine_G_raises (nq uDim : ℕ) (b : MIC K) (A : Tensor2 K) (hA : b.Aout_input = some A)
    (hc : A.cols = nq + nq) (hq : 0 < nq) : stackG nq uDim b = none := by
  simp only [stackG, hA]
  rw [if_neg (by omega)]

/-! ## Example -/

def exReluAffine : ReluAffine ℚ :=
  ⟨[-1, -1], [1, 1], [-1], [1], ⟨exNet.hidden, ⟨1, [[-1]], some [1 / 2]⟩⟩, ⟨exNet.hidden, ⟨1, [[2]], none⟩⟩, .ia, .ia⟩

theorem exReluAffine_ok : ReluAffine.Ok exReluAffine 1 :=
  ⟨rfl, rfl, by simp [exReluAffine, exNet, Net.Ok, HidOk, Lin.Ok, HasCols, Lin.b, zeros],
    by simp [exReluAffine, exNet, Net.Ok, HidOk, Lin.Ok, HasCols, Lin.b, zeros], rfl, rfl, trivial, trivial⟩

example : exReluAffine.mic.isSome :=
  C51_relu_accepts exReluAffine_ok rfl rfl (by simp [exReluAffine, exNet]) (by simp [exReluAffine, exNet]) exBox

end NNL.Props
