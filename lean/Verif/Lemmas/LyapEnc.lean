import Verif.Lemmas.Ready
import Verif.Props.Mip
import Verif.Model.Lyapunov
import Verif.Spec.Lyapunov

/-!
# The blocks of the Lyapunov programs as encodings
-/

set_option linter.unusedSectionVars false

namespace NNL.Model

open NNL NNL.Spec NNL.Props

variable {K : Type*} [Field K] [LinearOrder K] [IsStrictOrderedRing K]

/-- Adding a constraint set (without output variables) as an encoding. -/
theorem mic_enc (m : Mip K) (hw : m.WF) (c : MIC K) (x : List ℕ) (hc : c.Ready x.length)
    (hx : ∀ i ∈ x, i < m.n) :
    ∃ m', m.addMIC c x none .fresh .binary = some (m', List.range' m.n c.numSlack,
        List.range' (m.n + c.numSlack) c.numBinary) ∧ m'.n = m.n + (c.numSlack + c.numBinary) ∧
      Enc m m' (fun v => ∃ s z, c.Feas (x.map v) s z) fun v =>
        c.Feas (x.map v) ((List.range' m.n c.numSlack).map v)
          ((List.range' (m.n + c.numSlack) c.numBinary).map v) := by
  obtain ⟨m', h, hs⟩ := mic_step m hw c x none hc hx (by simp)
  refine ⟨m', h, hs.n, hs.enc hw (fun v hv => hv.1) ?_⟩
  rintro v - ⟨s, z, hf⟩
  refine ⟨s ++ z, by simp [hf.len_s, hf.len_z], ?_, by simp⟩
  have e1 : (List.range' m.n c.numSlack).map (upd v m.n (s ++ z)) = s := by
    rw [← hf.len_s]
    apply List.ext_getElem
    · simp
    · intro i h1 h2
      simp only [List.length_map, List.length_range'] at h1
      have hlt : i < (s ++ z).length := by simp; omega
      simp [upd_add _ _ _ _ hlt, List.getD, h1, List.getElem?_append_left]
  have e2 : (List.range' (m.n + c.numSlack) c.numBinary).map (upd v m.n (s ++ z)) = z := by
    rw [← hf.len_s, ← hf.len_z]
    apply List.ext_getElem
    · simp
    · intro i h1 h2
      simp only [List.length_map, List.length_range'] at h1
      have : m.n + s.length + i = m.n + (s.length + i) := by omega
      have hlt : s.length + i < (s ++ z).length := by simp; omega
      simp [this, upd_add _ _ _ _ hlt, List.getD, h1]
  rw [map_upd_lt _ _ _ _ hx, e1, e2]
  exact hf

/-- Adding a constraint set with output variables as an encoding. -/
theorem mic_out_enc (m : Mip K) (hw : m.WF) (c : MIC K) (x o : List ℕ) (hc : c.Ready x.length)
    (hx : ∀ i ∈ x, i < m.n) (lo : o.length = c.numOut) (ho : ∀ i ∈ o, i < m.n) :
    ∃ m', m.addMIC c x (some o) .fresh .binary = some (m', List.range' m.n c.numSlack,
        List.range' (m.n + c.numSlack) c.numBinary) ∧ m'.n = m.n + (c.numSlack + c.numBinary) ∧
      Enc m m' (fun v => ∃ s z, c.Feas (x.map v) s z ∧ c.out (x.map v) s z = o.map v) fun v =>
        c.Feas (x.map v) ((List.range' m.n c.numSlack).map v)
          ((List.range' (m.n + c.numSlack) c.numBinary).map v) ∧
        c.out (x.map v) ((List.range' m.n c.numSlack).map v)
          ((List.range' (m.n + c.numSlack) c.numBinary).map v) = o.map v := by
  have hout : ∀ (v : ℕ → K) (y : Vec K), y.length = c.numOut →
      ((∀ o', some o = some o' → ∀ i, i < o'.length → v (o'.getD i 0) = y.getD i 0) ↔ y = o.map v) := by
    intro v y hy
    have e : ∀ i, i < o.length → (o.map v).getD i 0 = v (o.getD i 0) := by
      intro i hi
      simp [List.getD, hi]
    constructor
    · intro h
      refine vec_ext (by simp [hy, lo]) fun i hi => ?_
      rw [e i (by omega), h o rfl i (by omega)]
    · rintro rfl o' ho' i hi
      cases ho'
      exact (e i hi).symm
  have lout : ∀ a s z, (c.out a s z).length = c.numOut := by
    intro a s z
    simp [MIC.out]
  obtain ⟨m', h, hs⟩ := mic_step m hw c x (some o) hc hx (by
    intro o' e
    cases e
    exact ⟨lo, ho⟩)
  refine ⟨m', h, hs.n, hs.enc hw (fun v hv => ⟨hv.1, (hout v _ (lout _ _ _)).1 hv.2⟩) ?_⟩
  rintro v - ⟨s, z, hf, hy⟩
  refine ⟨s ++ z, by simp [hf.len_s, hf.len_z], ?_⟩
  have e1 : (List.range' m.n c.numSlack).map (upd v m.n (s ++ z)) = s := by
    rw [← hf.len_s]
    apply List.ext_getElem
    · simp
    · intro i h1 h2
      simp only [List.length_map, List.length_range'] at h1
      have hlt : i < (s ++ z).length := by simp; omega
      simp [upd_add _ _ _ _ hlt, List.getD, h1, List.getElem?_append_left]
  have e2 : (List.range' (m.n + c.numSlack) c.numBinary).map (upd v m.n (s ++ z)) = z := by
    rw [← hf.len_s, ← hf.len_z]
    apply List.ext_getElem
    · simp
    · intro i h1 h2
      simp only [List.length_map, List.length_range'] at h1
      have : m.n + s.length + i = m.n + (s.length + i) := by omega
      have hlt : s.length + i < (s ++ z).length := by simp; omega
      simp [this, upd_add _ _ _ _ hlt, List.getD, h1]
  rw [map_upd_lt _ _ _ _ hx, e1, e2]
  refine ⟨hf, (hout _ _ (lout _ _ _)).2 ?_⟩
  rw [hy, map_upd_lt _ _ _ _ ho]

/-! ### The network -/

/-- Coefficients of the network output in the slacks of its encoding. -/
def Lyap.aOut (L : Lyap K) : Vec K :=
  setSlice (zeros (numUnits L.net.hidden)) (lastOff L.net.hidden) (L.net.last.W.getD 0 [])
/-- The bias of the network output. -/
def Lyap.bOut (L : Lyap K) : K := L.net.last.b.getD 0 0

/-- The conditions on the network and the box: shapes match, one output, at least two units, the bounds of
the bound propagation are valid and the encoder accepts them. -/
structure Lyap.NetOk (L : Lyap K) : Prop where
  up : L.xUp.length = L.dim
  net : L.net.Ok L.dim
  out : L.net.last.W.length = 1
  units : 2 ≤ numUnits L.net.hidden
  method : MethodValid L.net L.xLo L.xUp L.method
  accepts : ∃ r, outputConstraint L.net L.dim L.xLo L.xUp L.method = some r

theorem Lyap.netOk_ia {L : Lyap K} (hm : L.method = .ia) (hu : L.xUp.length = L.dim)
    (hb : ∀ i, i < L.dim → L.xLo.getD i 0 ≤ L.xUp.getD i 0) (hn : L.net.Ok L.dim)
    (ho : L.net.last.W.length = 1) (h2 : 2 ≤ numUnits L.net.hidden) : L.NetOk := by
  refine ⟨hu, hn, ho, h2, by rw [hm]; exact trivial, ?_⟩
  rw [hm]
  apply Option.isSome_iff_exists.1
  rw [C12_accepts L.net L.dim L.xLo L.xUp hn rfl hu hb]
  intro e
  rw [e] at h2
  simp [numUnits] at h2

theorem relu_enc (L : Lyap K) (hL : L.NetOk) (m : Mip K) (hw : m.WF) (x : List ℕ) (hl : x.length = L.dim)
    (hx : ∀ i ∈ x, i < m.n) :
    ∃ t, L.addRelu m x .binary = some t ∧ t.z = List.range' m.n (numUnits L.net.hidden) ∧
      t.beta = List.range' (m.n + numUnits L.net.hidden) (numUnits L.net.hidden) ∧
      t.m.n = m.n + (numUnits L.net.hidden + numUnits L.net.hidden) ∧
      t.a = L.aOut ∧ t.b = L.bOut ∧
      outputConstraint L.net L.dim L.xLo L.xUp L.method = some t.ret ∧
      Enc m t.m (fun v => InBox L.xLo L.xUp (x.map v)) fun v =>
        InBox L.xLo L.xUp (x.map v) ∧ IsBin (t.beta.map v) ∧
          dot t.a (t.z.map v) + t.b = L.phi (x.map v) := by
  obtain ⟨r, hr⟩ := hL.accepts
  obtain ⟨-, -, h3, -⟩ := outputConstraint_some hr
  obtain ⟨hrdy, n1, n2, n3, hA, hC, hAi, hAb⟩ := outputCons_ready h3 hL.net
  obtain ⟨m', hm', hn', henc⟩ := mic_enc m hw r.mic x (by rw [hl]; exact hrdy) hx
  obtain ⟨w, hW⟩ : ∃ w, L.net.last.W = [w] := by
    match h : L.net.last.W, hL.out with
    | [w], _ => exact ⟨w, rfl⟩
  obtain ⟨b, hB⟩ : ∃ b, L.net.last.b = [b] := by
    have := hL.net.2.2
    rw [hL.out] at this
    match h : L.net.last.b, this with
    | [b], _ => exact ⟨b, rfl⟩
  have hu := hL.units
  have sA : squeezeRow r.mic.Aout_slack = some L.aOut := by
    rw [hA, hW]
    simp only [squeezeRow, List.map_cons, List.map_nil]
    rw [if_neg (by omega)]
    simp [Lyap.aOut, hW]
  have sB : squeezeScalar r.mic.Cout = some L.bOut := by
    rw [hC, hB]
    simp [squeezeScalar, Lyap.bOut, hB]
  rw [n1, n2] at hm' hn' henc
  refine ⟨⟨m', List.range' m.n (numUnits L.net.hidden),
    List.range' (m.n + numUnits L.net.hidden) (numUnits L.net.hidden), L.aOut, L.bOut, r⟩,
    by simp [Lyap.addRelu, hr, hm', sA, sB], rfl, rfl, hn', rfl, rfl, hr, ?_⟩
  refine henc.weaken ?_ ?_
  · intro v _ hb
    exact C12_complete h3 hL.net rfl hL.up hb (C11_bounds_sound hr hL.net hL.method hb).1
  · intro v _ hf
    obtain ⟨b1, b2, b3⟩ := C12_sound h3 hL.net (by simp [hl]) rfl hL.up hf
    refine ⟨b1, hf.bin, ?_⟩
    simp only
    rw [Lyap.phi, ← b3, MIC.out, n3, hL.out, hAi, hAb, hA, hC, hW, hB]
    simp [mrow, Lyap.aOut, Lyap.bOut, hW, hB]

/-- The constraints of the network hold at the points of the program. -/
theorem relu_feas (L : Lyap K) (hL : L.NetOk) (m : Mip K) (hw : m.WF) (x : List ℕ) (hl : x.length = L.dim)
    (hx : ∀ i ∈ x, i < m.n) {t : ReluOut K} (h : L.addRelu m x .binary = some t) (v : ℕ → K) (hv : t.m.Feas v) :
    t.ret.mic.Feas (x.map v) (t.z.map v) (t.beta.map v) := by
  obtain ⟨r, hr⟩ := hL.accepts
  obtain ⟨-, -, h3, -⟩ := outputConstraint_some hr
  obtain ⟨hrdy, -⟩ := outputCons_ready h3 hL.net
  obtain ⟨m', hm', S⟩ := mic_step m hw r.mic x none (by rw [hl]; exact hrdy) hx (by simp)
  simp only [Lyap.addRelu, hr, hm', Option.bind_eq_bind, Option.bind_some, Option.bind_eq_some_iff] at h
  obtain ⟨a, -, b, -, h⟩ := h
  cases h
  exact ((S.feas v).1 hv).2.1

theorem length_aOut (L : Lyap K) (hL : L.NetOk) : L.aOut.length = numUnits L.net.hidden := by
  obtain ⟨r, hr⟩ := hL.accepts
  obtain ⟨-, -, h3, -⟩ := outputConstraint_some hr
  obtain ⟨hrdy, n1, n2, n3, hA, hC, hAi, hAb⟩ := outputCons_ready h3 hL.net
  have := hrdy.sized.shaped.aout_s _ hA
  obtain ⟨w, hW⟩ : ∃ w, L.net.last.W = [w] := by
    match h : L.net.last.W, hL.out with
    | [w], _ => exact ⟨w, rfl⟩
  have := this.2.2 (setSlice (zeros (numUnits L.net.hidden)) (lastOff L.net.hidden) w) (by simp [hW])
  simpa [Lyap.aOut, hW] using this

/-! ### The L1 norm of the state error -/

theorem absT_enc (m : Mip K) (hw : m.WF) (x : List ℕ) (hx : ∀ i ∈ x, i < m.n) (r xe : Vec K) (l u : K)
    (flag : Bool) (hlu : l ≤ u) (hr : r.length = x.length) :
    ∃ c c' m', absEnc l u flag = some c ∧ c.transformInput ⟨x.length, [r]⟩ [dot (vneg r) xe] = some c' ∧
      m.addMIC c' x none .fresh .binary = some (m', [m.n],
        List.range' (m.n + 1) (if flag then 3 else 1)) ∧
      m'.n = m.n + (1 + if flag then 3 else 1) ∧
      Enc m m' (fun v => l ≤ dot r (x.map v) - dot r xe ∧ dot r (x.map v) - dot r xe ≤ u) fun v =>
        (l ≤ dot r (x.map v) - dot r xe ∧ dot r (x.map v) - dot r xe ≤ u) ∧
        v m.n = |dot r (x.map v) - dot r xe| ∧
        IsBin ((List.range' (m.n + 1) (if flag then 3 else 1)).map v) ∧
        AbsSign flag (dot r (x.map v) - dot r xe)
          ((List.range' (m.n + 1) (if flag then 3 else 1)).map v) := by
  obtain ⟨c, hc⟩ := Option.isSome_iff_exists.1 ((C05_abs_accepts l u flag).2 hlu)
  obtain ⟨rdy, n1, n2, n3, hi, hlo, hup, a1, a2, a3, a4⟩ := absEnc_ready hc
  have hA : (⟨x.length, [r]⟩ : Tensor2 K).Ok := by
    intro q hq
    simp only [List.mem_singleton] at hq
    subst hq
    exact hr
  obtain ⟨c', hc', rdy', k1, k2, k3, hfe, hout⟩ := transformInput_ready (c := c) (A := ⟨x.length, [r]⟩)
    (b := [dot (vneg r) xe]) hA rdy rfl (Or.inl hi) hlo hup
  obtain ⟨m', hm', hn, henc⟩ := mic_enc m hw c' x rdy' hx
  have e1 : c'.numSlack = 1 := by rw [k1, n1]
  rw [k2, n2] at hm' hn henc
  rw [e1] at hm' hn henc
  have ein : ∀ v : ℕ → K, vadd (matVec [r] (x.map v)) [dot (vneg r) xe] =
      [dot r (x.map v) - dot r xe] := by
    intro v
    simp [matVec, vadd, dot_vneg_left, sub_eq_add_neg]
  refine ⟨c, c', m', hc, hc', hm', hn, henc.weaken ?_ ?_⟩
  · intro v _ hb
    obtain ⟨s, z, hf⟩ := C05_abs_complete l u _ flag c hc hb
    refine ⟨s, z, ?_⟩
    rw [hfe, ein]
    exact hf
  · intro v _ hf
    rw [hfe, ein] at hf
    obtain ⟨b1, b2, b3⟩ := C05_abs_sound l u _ flag c hc _ _ hf
    refine ⟨b1, ?_, hf.bin, b3⟩
    rw [MIC.out, n3, a1, a2, a3, a4] at b2
    simpa [mrow] using b2

theorem l1Loop_enc (xe : Vec K) (x : List ℕ) (flag : Bool) (N : ℕ) (hx : ∀ i ∈ x, i < N) :
    ∀ (R : Mat K) (lb ub : Vec K) (m : Mip K), m.WF → N ≤ m.n → HasCols R x.length →
      lb.length = R.length → ub.length = R.length → (∀ i, i < R.length → lb.getD i 0 ≤ ub.getD i 0) →
      ∃ m' s al, l1Loop x.length xe x flag .binary R lb ub m = some (m', s, al) ∧
        s.length = R.length ∧ s.Nodup ∧ (∀ i ∈ s, m.n ≤ i ∧ i < m'.n) ∧
        Enc m m' (fun v => ∀ i, i < R.length →
            lb.getD i 0 ≤ dot (R.getD i []) (x.map v) - dot (R.getD i []) xe ∧
            dot (R.getD i []) (x.map v) - dot (R.getD i []) xe ≤ ub.getD i 0) fun v =>
          (∀ i, i < R.length → v (s.getD i 0) = |dot (R.getD i []) (x.map v) - dot (R.getD i []) xe|) ∧
          al.length = R.length ∧
          ∀ i, i < R.length → AbsSign flag (dot (R.getD i []) (x.map v) - dot (R.getD i []) xe)
            ((al.getD i []).map v) := by
  intro R
  induction R with
  | nil =>
    intro lb ub m hw hN _ h1 h2 _
    refine ⟨m, [], [], by cases lb <;> cases ub <;> simp_all [l1Loop], rfl, by simp, by simp, ?_⟩
    exact ⟨hw, le_rfl, rfl, fun v hv => ⟨hv, by simp⟩, fun v hv _ => ⟨v, fun _ _ => rfl, hv⟩⟩
  | cons r R ih =>
    intro lb ub m hw hN hR h1 h2 hlu
    cases lb with
    | nil => simp at h1
    | cons l lb => cases ub with
      | nil => simp at h2
      | cons u ub =>
        have hx' : ∀ i ∈ x, i < m.n := fun i hi => lt_of_lt_of_le (hx i hi) hN
        obtain ⟨c, c', m1, e1, e2, e3, n1, enc1⟩ := absT_enc m hw x hx' r xe l u flag
          (by simpa using hlu 0 (by simp)) (hR r (by simp))
        obtain ⟨m', s, al, e4, ls, nd, hs, enc2⟩ := ih lb ub m1 enc1.wf (hN.trans enc1.n)
          (fun q hq => hR q (by simp [hq])) (by simpa using h1) (by simpa using h2)
          (fun i hi => by simpa using hlu (i + 1) (by simpa using hi))
        have hpos : m.n < m1.n := by rw [n1]; omega
        refine ⟨m', m.n :: s, List.range' (m.n + 1) (if flag then 3 else 1) :: al, ?_, by simp [ls],
          ?_, ?_, ?_⟩
        · simp [l1Loop, e1, e2, e3, e4]
        · rw [List.nodup_cons]
          refine ⟨fun h => ?_, nd⟩
          have := (hs _ h).1
          omega
        · intro i hi
          rcases List.mem_cons.1 hi with rfl | hi
          · exact ⟨le_rfl, lt_of_lt_of_le hpos enc2.n⟩
          · exact ⟨enc1.n.trans (hs i hi).1, (hs i hi).2⟩
        · have key := (enc1.weaken (D2 := fun v => ∀ i, i < (r :: R).length →
              (l :: lb).getD i 0 ≤ dot ((r :: R).getD i []) (x.map v) - dot ((r :: R).getD i []) xe ∧
              dot ((r :: R).getD i []) (x.map v) - dot ((r :: R).getD i []) xe ≤ (u :: ub).getD i 0)
            (fun v _ h => by simpa using h 0 (by simp)) (fun v _ h => h)).trans enc2 (by
              intro v v' hv hD _ _ i hi
              have hm : x.map v' = x.map v := List.map_congr_left fun j hj => hv j (hx' j hj)
              rw [hm]
              simpa using hD (i + 1) (by simpa using hi))
          refine key.weaken (fun v _ h => h) ?_
          rintro v _ ⟨⟨_, a2, _, a4⟩, b1, b2, b3⟩
          refine ⟨?_, by simp [b2], ?_⟩
          · intro i hi
            cases i with
            | zero => simpa using a2
            | succ i => simpa using b1 i (by simpa using hi)
          · intro i hi
            cases i with
            | zero => simpa using a4
            | succ i => simpa using b3 i (by simpa using hi)

/-- The conditions on `R` and `x*`. -/
structure Lyap.EqOk (L : Lyap K) (R : Option (Tensor2 K)) (R' : Mat K) (xe : Vec K) : Prop where
  up : L.xUp.length = L.dim
  R : getR R L.dim = some R'
  cols : HasCols R' L.dim
  rows : L.dim ≤ R'.length
  xe : InBox L.xLo L.xUp xe

theorem l1_enc (L : Lyap K) {R : Option (Tensor2 K)} {R' : Mat K} {xe : Vec K} (h : L.EqOk R R' xe)
    (m : Mip K) (hw : m.WF) (x : List ℕ) (hl : x.length = L.dim) (hx : ∀ i ∈ x, i < m.n) (flag : Bool) :
    ∃ m' s al, L.addL1 m xe x R flag .binary = some (m', s, al) ∧ s.length = R'.length ∧ s.Nodup ∧
      (∀ i ∈ s, m.n ≤ i ∧ i < m'.n) ∧
      Enc m m' (fun v => InBox L.xLo L.xUp (x.map v)) fun v =>
        s.map v = (matVec R' (vsub (x.map v) xe)).map (fun a => |a|) ∧ al.length = R'.length ∧
        ∀ i, i < R'.length → AbsSign flag ((matVec R' (vsub (x.map v) xe)).getD i 0)
          ((al.getD i []).map v) := by
  have hxl : xe.length = L.dim := h.xe.1
  obtain ⟨⟨ol, ou⟩, hb⟩ := Option.isSome_iff_exists.1 ((C08_ia_accepts L.dim R'
    (matVec (R'.map vneg) xe) L.xLo L.xUp).2 ⟨by simp, rfl, h.up⟩)
  have hval : ∀ y : Vec K, y.length = L.dim → ∀ i, i < R'.length →
      (vadd (matVec R' y) (matVec (R'.map vneg) xe)).getD i 0
        = dot (R'.getD i []) y - dot (R'.getD i []) xe := by
    intro y hy i hi
    rw [getD_vadd _ _ _ (by simp)]
    simp [matVec, List.getD, hi, dot_vneg_left, sub_eq_add_neg]
  have hin := C08_ia_sound hb h.xe
  have ll : ol.length = R'.length := by have := hin.1; simpa using this.symm
  have lu : ou.length = R'.length := by have := hin.2.1; simpa using this.symm
  obtain ⟨m', s, al, e, ls, nd, hs, enc⟩ := l1Loop_enc xe x flag m.n hx R' ol ou m hw le_rfl
    (by rw [hl]; exact h.cols) ll lu (fun i hi => by
      have := hin.2.2 i (by simpa using hi)
      exact this.1.trans this.2)
  rw [hl] at e
  refine ⟨m', s, al, ?_, ls, nd, hs, enc.weaken ?_ ?_⟩
  · have hc : (∀ i, i < L.dim → L.xLo.getD i 0 ≤ xe.getD i 0) ∧
        (∀ i, i < L.dim → L.xUp.getD i 0 ≥ xe.getD i 0) :=
      ⟨fun i hi => (h.xe.2.2 i (by omega)).1, fun i hi => (h.xe.2.2 i (by omega)).2⟩
    unfold Lyap.addL1
    rw [if_pos hc]
    simp [h.R, h.rows, hb, e]
  · intro v _ hbx i hi
    have := (C08_ia_sound hb hbx).2.2 i (by simpa using hi)
    rwa [hval _ (by simp [hl]) i hi] at this
  · have hrow : ∀ v : ℕ → K, ∀ i, i < R'.length → (matVec R' (vsub (x.map v) xe)).getD i 0
        = dot (R'.getD i []) (x.map v) - dot (R'.getD i []) xe := by
      intro v i hi
      rw [← dot_vsub_right _ _ _ (by simp [hl, hxl])]
      simp [matVec, List.getD, hi]
    rintro v _ ⟨a1, a2, a3⟩
    refine ⟨?_, a2, fun i hi => by rw [hrow v i hi]; exact a3 i hi⟩
    apply vec_ext (by simp [ls])
    intro i hi
    simp only [List.length_map] at hi
    have hi' : i < R'.length := by omega
    have q := a1 i hi'
    rw [← hrow v i hi'] at q
    have e2 : (s.map v).getD i 0 = v (s.getD i 0) := by simp [List.getD, hi]
    rw [e2, q]
    simp [List.getD, hi']

/-- The sum of the slacks is the L1 norm. -/
theorem l1_sum {R : Mat K} {xe x : Vec K} {s : Vec K}
    (h : s = (matVec R (vsub x xe)).map fun a => |a|) (c : K) :
    dot (fullVec s.length c) s = c * l1err R xe x := by
  have : ∀ t : Vec K, dot (fullVec t.length c) t = c * t.sum := by
    intro t
    induction t with
    | nil => simp [fullVec]
    | cons a t ih =>
      simp only [fullVec, List.length_cons, List.replicate_succ, dot_cons, List.sum_cons]
      simp only [fullVec] at ih
      rw [ih]; ring
  rw [this, h]
  rfl

/-! ### Starting a program, setting its objective -/

theorem feas_empty (v : ℕ → K) : (Mip.empty : Mip K).Feas v := by simp [Mip.Feas, Mip.empty]

/-- New free variables in a program whose points are unconstrained. -/
theorem start_free (m : Mip K) (hw : m.WF) (hf : ∀ v, m.Feas v) (n : ℕ) :
    ∃ m', m.addVars n (noBound n) (noBound n) .continuous = some (m', List.range' m.n n) ∧ m'.WF ∧
      m'.n = m.n + n ∧ ∀ v, m'.Feas v := by
  obtain ⟨m', h, hs⟩ := free_addVars m hw n
  exact ⟨m', h, hs.wf, hs.n, fun v => (hs.feas v).2 ⟨hf v, trivial⟩⟩

theorem setObjective_wf {m m' : Mip K} {coeffs : List (Vec K)} {xs : List (List ℕ)} {const : K}
    {mx : Bool} (h : m.setObjective coeffs xs const mx = some m') (hw : m.WF) : m'.WF := by
  obtain ⟨_, cr, cz, _, rfl⟩ := setObjective_inv h
  exact ⟨hw.cons_lt, hw.ridx, hw.zidx, hw.nodup, hw.cover⟩

theorem setObjective_n {m m' : Mip K} {coeffs : List (Vec K)} {xs : List (List ℕ)} {const : K}
    {mx : Bool} (h : m.setObjective coeffs xs const mx = some m') : m'.n = m.n := by
  obtain ⟨_, cr, cz, _, rfl⟩ := setObjective_inv h
  rfl

theorem obj_set (m : Mip K) (hw : m.WF) (coeffs : List (Vec K)) (xs : List (List ℕ)) (const : K)
    (mx : Bool) (hl : coeffs.map List.length = xs.map List.length) (hn : xs.flatten.Nodup)
    (hx : ∀ i ∈ xs.flatten, i < m.n) :
    ∃ m', m.setObjective coeffs xs const mx = some m' ∧ (∀ v, m'.Feas v ↔ m.Feas v) ∧
      m'.obj.map MilpObj.maximize = some mx ∧ ∀ v, m'.objVal v = objExpr coeffs xs v + const := by
  have hlen : coeffs.length = xs.length := by
    have := congrArg List.length hl
    simpa using this
  obtain ⟨m', h⟩ := C63_setObjective_accepts m hw coeffs xs const mx hlen (by
    clear hn hx
    induction coeffs generalizing xs with
    | nil => simp
    | cons c cs ih => cases xs with
      | nil => simp
      | cons x xs =>
        simp only [List.map_cons, List.cons.injEq] at hl
        intro t ht
        simp only [List.zip_cons_cons, List.mem_cons] at ht
        rcases ht with rfl | ht
        · exact hl.1.ge
        · exact ih xs hl.2 (by simpa using hlen) t ht) hn
  have hx' : ∀ x ∈ xs, ∀ i ∈ x, i < m.n := fun x hxs i hi =>
    hx i (List.mem_flatten.2 ⟨x, hxs, hi⟩)
  exact ⟨m', h, setObjective_feas h, (C63_setObjective m m' hw coeffs xs const mx hx' h fun _ => 0).2,
    fun v => (C63_setObjective m m' hw coeffs xs const mx hx' h v).1⟩

/-! ### More ways to compose -/

theorem Enc.seq {m m1 m2 : Mip K} {D R D2 R2 : (ℕ → K) → Prop} (h1 : Enc m m1 D R) (h2 : Enc m1 m2 D2 R2)
    (hd : DepsBelow m.n D) (h : ∀ v, D v → R v → D2 v) : Enc m m2 D fun v => R v ∧ R2 v :=
  h1.trans h2 fun v v' hv hD _ hR => h v' (hd v v' (fun i hi => (hv i hi).symm) hD) hR

theorem Step.enc0 {m m' : Mip K} {P : (ℕ → K) → Prop} (hm : m.WF) (h : Step m m' 0 P) : Enc m m' P P := by
  refine h.enc hm (fun _ h => h) fun v _ hP => ⟨[], rfl, ?_⟩
  have : upd v m.n [] = v := by
    funext i
    unfold upd
    rw [if_neg (by simp)]
  rwa [this]

theorem depsBelow_map {n : ℕ} (x : List ℕ) (hx : ∀ i ∈ x, i < n) (P : Vec K → Prop) :
    DepsBelow n fun v => P (x.map v) := by
  intro v w hvw h
  have : x.map w = x.map v := List.map_congr_left fun i hi => (hvw i (hx i hi)).symm
  rwa [this]

theorem depsBelow_map2 {n : ℕ} (x y : List ℕ) (hx : ∀ i ∈ x, i < n) (hy : ∀ i ∈ y, i < n)
    (P : Vec K → Vec K → Prop) : DepsBelow n fun v => P (x.map v) (y.map v) := by
  intro v w hvw h
  have e1 : x.map w = x.map v := List.map_congr_left fun i hi => (hvw i (hx i hi)).symm
  have e2 : y.map w = y.map v := List.map_congr_left fun i hi => (hvw i (hy i hi)).symm
  rwa [e1, e2]

/-- `sys` adds the dynamics between two states of dimension `n`: the points it leaves satisfy `Rel`, and
all pairs with `Dom` are represented. -/
def SysEnc (sys : SysConstr K) (n : ℕ) (Dom Rel : Vec K → Vec K → Prop) : Prop :=
  ∀ (m : Mip K) (x xn : List ℕ), m.WF → x.length = n → xn.length = n → (x ++ xn).Nodup →
    (∀ i ∈ x, i < m.n) → (∀ i ∈ xn, i < m.n) →
    ∃ m' s g, sys m x xn = some (m', s, g) ∧
      Enc m m' (fun v => Dom (x.map v) (xn.map v)) fun v => Rel (x.map v) (xn.map v)

/-- `lower ≤ a` if there is a lower bound, `a ≤ upper` if there is an upper bound. -/
def Between (lower upper : Option K) (a : K) : Prop := (∀ l, lower = some l → l ≤ a) ∧ ∀ u, upper = some u → a ≤ u

theorem lconstr2_enc (m : Mip K) (hw : m.WF) (a c : Vec K) (z s : List ℕ) (sense : Sense) (b : K)
    (ha : a.length = z.length) (hc : c.length = s.length) (hn : (z ++ s).Nodup)
    (hz : ∀ i ∈ z, i < m.n) (hs : ∀ i ∈ s, i < m.n) :
    ∃ m', m.addLConstr [a, c] [z, s] sense b = some m' ∧
      Enc m m' (fun v => sense.Rel (dot a (z.map v) + dot c (s.map v)) b) fun v =>
        sense.Rel (dot a (z.map v) + dot c (s.map v)) b := by
  obtain ⟨m', h⟩ := addLConstr_isSome m hw [a, c] [z, s] sense b rfl (by simp [ha, hc]) (by simpa using hn)
    (by
      simp only [List.flatten_cons, List.flatten_nil, List.append_nil, List.mem_append]
      rintro i (hi | hi)
      · exact hz i hi
      · exact hs i hi)
  refine ⟨m', h, ((step_addLConstr h hw).congr rfl fun v => ?_).enc0 hw⟩
  simp only [List.flatten_cons, List.flatten_nil, List.append_nil, List.map_append]
  rw [dot_append _ _ _ _ (by simp [ha])]

theorem vbounds_enc (m : Mip K) (hw : m.WF) (lower upper : Option K) (a : Vec K) (b lam phiE : K)
    (z s : List ℕ) (ha : a.length = z.length) (hn : (z ++ s).Nodup)
    (hz : ∀ i ∈ z, i < m.n) (hs : ∀ i ∈ s, i < m.n) :
    ∃ m', m.addVBounds lower upper a b lam z phiE s = some m' ∧
      Enc m m' (fun v => Between lower upper
          (dot a (z.map v) + b - phiE + dot (fullVec s.length lam) (s.map v))) fun v =>
        Between lower upper (dot a (z.map v) + b - phiE + dot (fullVec s.length lam) (s.map v)) := by
  have key : ∀ (m : Mip K), m.WF → (∀ i ∈ z, i < m.n) → (∀ i ∈ s, i < m.n) →
      ∃ m', m.addVLower lower a b lam z phiE s = some m' ∧
        Enc m m' (fun v => ∀ l, lower = some l →
            l ≤ dot a (z.map v) + b - phiE + dot (fullVec s.length lam) (s.map v)) fun v =>
          ∀ l, lower = some l → l ≤ dot a (z.map v) + b - phiE + dot (fullVec s.length lam) (s.map v) := by
    intro m hw hz hs
    cases lower with
    | none => exact ⟨m, rfl, ⟨hw, le_rfl, rfl, fun v hv => ⟨hv, by simp⟩,
        fun v hv _ => ⟨v, fun _ _ => rfl, hv⟩⟩⟩
    | some l =>
      obtain ⟨m', h, e⟩ := lconstr2_enc m hw a (fullVec s.length lam) z s .ge (l - b + phiE) ha
        (by simp [fullVec]) hn hz hs
      refine ⟨m', h, e.weaken (fun v _ hv => ?_) (fun v _ hv => ?_)⟩
      · have := hv l rfl
        simp only [Sense.Rel]
        linarith
      · rintro _ ⟨⟩
        simp only [Sense.Rel] at hv
        linarith
  have key2 : ∀ (m : Mip K), m.WF → (∀ i ∈ z, i < m.n) → (∀ i ∈ s, i < m.n) →
      ∃ m', m.addVUpper upper a b lam z phiE s = some m' ∧
        Enc m m' (fun v => ∀ l, upper = some l →
            dot a (z.map v) + b - phiE + dot (fullVec s.length lam) (s.map v) ≤ l) fun v =>
          ∀ l, upper = some l → dot a (z.map v) + b - phiE + dot (fullVec s.length lam) (s.map v) ≤ l := by
    intro m hw hz hs
    cases upper with
    | none => exact ⟨m, rfl, ⟨hw, le_rfl, rfl, fun v hv => ⟨hv, by simp⟩,
        fun v hv _ => ⟨v, fun _ _ => rfl, hv⟩⟩⟩
    | some l =>
      obtain ⟨m', h, e⟩ := lconstr2_enc m hw a (fullVec s.length lam) z s .le (l - b + phiE) ha
        (by simp [fullVec]) hn hz hs
      refine ⟨m', h, e.weaken (fun v _ hv => ?_) (fun v _ hv => ?_)⟩
      · have := hv l rfl
        simp only [Sense.Rel]
        linarith
      · rintro _ ⟨⟩
        simp only [Sense.Rel] at hv
        linarith
  obtain ⟨m1, h1, e1⟩ := key m hw hz hs
  obtain ⟨m2, h2, e2⟩ := key2 m1 e1.wf (fun i hi => lt_of_lt_of_le (hz i hi) e1.n)
    (fun i hi => lt_of_lt_of_le (hs i hi) e1.n)
  refine ⟨m2, by simp [Mip.addVBounds, h1, h2], ?_⟩
  have hdep : DepsBelow m.n fun v => Between lower upper
      (dot a (z.map v) + b - phiE + dot (fullVec s.length lam) (s.map v)) :=
    depsBelow_map2 z s hz hs fun p q =>
      Between lower upper (dot a p + b - phiE + dot (fullVec s.length lam) q)
  exact (((e1.weaken (fun v _ h => h.1) (fun _ _ h => h)).seq e2 hdep
    (fun v h _ => h.2)).weaken (fun _ _ h => h) (fun _ _ h => h))

/-! ### Matrix constraints on two groups of variables, loosely bounded binaries -/

theorem mconstr1_step (m : Mip K) (hw : m.WF) (A : Mat K) (x : List ℕ) (sense : Sense) (b : Vec K)
    (hA : HasCols A x.length) (hAl : A.length = b.length) (hx : ∀ i ∈ x, i < m.n) :
    ∃ m', m.addMConstr [⟨x.length, A⟩] [x] sense b = some m' ∧
      Step m m' 0 fun v => ∀ i, i < b.length → sense.Rel (dot (A.getD i []) (x.map v)) (b.getD i 0) := by
  obtain ⟨m', h⟩ := addMConstr_isSome m (A := [⟨x.length, A⟩]) (x := [x]) (sense := sense) (b := b) rfl
    (by simp) (by simp [hAl]) (by simp) (by simpa using hx)
  refine ⟨m', h, (step_addMConstr h hw).congr rfl fun v => ?_⟩
  refine forall_congr' fun i => forall_congr' fun hi => ?_
  rw [dot_catRow_cons _ _ _ _ _ _ (show (⟨x.length, A⟩ : Tensor2 K).Ok from hA) rfl
    (show i < A.length by omega)]
  simp [catRow]

theorem mconstr2_step (m : Mip K) (hw : m.WF) (A B : Mat K) (x y : List ℕ) (sense : Sense) (b : Vec K)
    (hA : HasCols A x.length) (hB : HasCols B y.length) (hAl : A.length = b.length)
    (hBl : B.length = b.length) (hx : ∀ i ∈ x, i < m.n) (hy : ∀ i ∈ y, i < m.n) :
    ∃ m', m.addMConstr [⟨x.length, A⟩, ⟨y.length, B⟩] [x, y] sense b = some m' ∧
      Step m m' 0 fun v => ∀ i, i < b.length →
        sense.Rel (dot (A.getD i []) (x.map v) + dot (B.getD i []) (y.map v)) (b.getD i 0) := by
  obtain ⟨m', h⟩ := addMConstr_isSome m (A := [⟨x.length, A⟩, ⟨y.length, B⟩]) (x := [x, y])
    (sense := sense) (b := b) rfl
    (by simp) (by simp [hAl, hBl]) (by simp) (by
      simp only [List.flatten_cons, List.flatten_nil, List.append_nil, List.mem_append]
      rintro i (hi | hi)
      · exact hx i hi
      · exact hy i hi)
  refine ⟨m', h, (step_addMConstr h hw).congr rfl fun v => ?_⟩
  refine forall_congr' fun i => forall_congr' fun hi => ?_
  rw [dot_catRow_cons _ _ _ _ _ _ (show (⟨x.length, A⟩ : Tensor2 K).Ok from hA) rfl
    (show i < A.length by omega),
    dot_catRow_cons _ _ _ _ _ _ (show (⟨y.length, B⟩ : Tensor2 K).Ok from hB) rfl
    (show i < B.length by omega)]
  simp [catRow]

theorem newOk_binary_lb (n : ℕ) (x : Vec K) (hx : x.length = n) :
    NewOk .binary (scalarBound n 0) (noBound n) x ↔ IsBin x := by
  subst hx
  unfold NewOk IsBin
  rw [List.forall_mem_iff_getElem]
  refine forall_congr' fun k => forall_congr' fun hk => ?_
  rw [getD_of_lt _ _ hk]
  simp only [newGVar, GVar.Ok, scalarBound, noBound, List.getD, List.getElem?_replicate, hk, if_true,
    Option.getD_some, Option.some.injEq, forall_eq', forall_const]
  constructor
  · rintro ⟨-, -, h⟩; exact h
  · intro h
    refine ⟨?_, by simp, h⟩
    rcases h with h | h <;> rw [h]
    exact zero_le_one

theorem newOk_binary_free (n : ℕ) (x : Vec K) (hx : x.length = n) :
    NewOk .binary (noBound n) (noBound n) x ↔ IsBin x := by
  subst hx
  unfold NewOk IsBin
  rw [List.forall_mem_iff_getElem]
  refine forall_congr' fun k => forall_congr' fun hk => ?_
  rw [getD_of_lt _ _ hk]
  simp [newGVar, GVar.Ok, noBound, List.getD, hk]

theorem binaryLb_addVars (m : Mip K) (hw : m.WF) (n : ℕ) :
    ∃ m', m.addVars n (scalarBound n 0) (noBound n) .binary = some (m', List.range' m.n n) ∧
      Step m m' n fun v => IsBin ((List.range' m.n n).map v) := by
  obtain ⟨m', h⟩ := addVars_isSome m (num := n) (lb := scalarBound n 0) (ub := noBound n)
    (vt := .binary) (by simp [scalarBound]) (by simp [noBound]) (by simp)
  exact ⟨m', h, (step_addVars h hw).congr rfl fun v => newOk_binary_lb n _ (by simp)⟩

theorem binaryFree_addVars (m : Mip K) (hw : m.WF) (n : ℕ) :
    ∃ m', m.addVars n (noBound n) (noBound n) .binary = some (m', List.range' m.n n) ∧
      Step m m' n fun v => IsBin ((List.range' m.n n).map v) := by
  obtain ⟨m', h⟩ := addVars_isSome m (num := n) (lb := noBound n) (ub := noBound n)
    (vt := .binary) (by simp [noBound]) (by simp [noBound]) (by simp)
  exact ⟨m', h, (step_addVars h hw).congr rfl fun v => newOk_binary_free n _ (by simp)⟩

theorem newOk_box (lo up x : Vec K) (h1 : x.length = lo.length) (h2 : x.length = up.length) :
    NewOk .continuous (lo.map some) (up.map some) x ↔ InBox lo up x := by
  unfold NewOk InBox
  simp only [h1.symm, h2.symm, true_and]
  refine forall_congr' fun k => forall_congr' fun hk => ?_
  have k1 : k < lo.length := by omega
  have k2 : k < up.length := by omega
  simp [newGVar, GVar.Ok, List.getD, k1, k2]

theorem box_addVars (m : Mip K) (hw : m.WF) (lo up : Vec K) (hl : up.length = lo.length) :
    ∃ m', m.addVars lo.length (lo.map some) (up.map some) .continuous
        = some (m', List.range' m.n lo.length) ∧
      Step m m' lo.length fun v => InBox lo up ((List.range' m.n lo.length).map v) := by
  obtain ⟨m', h⟩ := addVars_isSome m (num := lo.length) (lb := lo.map some) (ub := up.map some)
    (vt := .continuous) (by simp) (by simp [hl]) (by simp)
  exact ⟨m', h, (step_addVars h hw).congr rfl fun v => newOk_box _ _ _ (by simp) (by simp [hl])⟩

theorem eye_hasCols (n : ℕ) : HasCols (eye n : Mat K) n := by
  intro r hr
  simp only [eye, List.mem_map] at hr
  obtain ⟨i, -, rfl⟩ := hr
  simp

theorem negEye_hasCols (n : ℕ) : HasCols (negEye n : Mat K) n := by
  intro r hr
  simp only [negEye, List.mem_map] at hr
  obtain ⟨i, -, rfl⟩ := hr
  simp

/-! ### The boundary of the box (lyapunov.py 444-466) -/

theorem boundary_enc (m : Mip K) (hw : m.WF) (lo up : Vec K) (hl : up.length = lo.length) (x : List ℕ)
    (lx : x.length = lo.length) (hx : ∀ i ∈ x, i < m.n) :
    ∃ m1 m2 m3 m4 m5 zl zu,
      m.addVars lo.length (scalarBound lo.length 0) (noBound lo.length) .binary = some (m1, zl) ∧
      m1.addVars lo.length (scalarBound lo.length 0) (noBound lo.length) .binary = some (m2, zu) ∧
      m2.addLConstr [fullVec lo.length 1, fullVec lo.length 1] [zl, zu] .eq 1 = some m3 ∧
      m3.addMConstr [⟨lo.length, eye lo.length⟩, ⟨lo.length, diagM (vsub lo up)⟩] [x, zu] .ge lo
        = some m4 ∧
      m4.addMConstr [⟨lo.length, eye lo.length⟩, ⟨lo.length, diagM (vsub up lo)⟩] [x, zl] .le up
        = some m5 ∧
      Enc m m5 (fun v => OnBoundary lo up (x.map v)) fun v =>
        InBox lo up (x.map v) → OnBoundary lo up (x.map v) := by
  set n := lo.length with hn
  obtain ⟨m1, h1, S1⟩ := binaryLb_addVars m hw n
  obtain ⟨m2, h2, S2⟩ := binaryLb_addVars m1 S1.wf n
  set zl := List.range' m.n n with hzl
  set zu := List.range' m1.n n with hzu
  have q1 := S1.n
  have q2 := S2.n
  have lzl : zl.length = n := by simp [hzl]
  have lzu : zu.length = n := by simp [hzu]
  have bl : ∀ i ∈ zl, m.n ≤ i ∧ i < m1.n := fun i hi => by
    rw [hzl, List.mem_range'_1] at hi; omega
  have bu : ∀ i ∈ zu, m1.n ≤ i ∧ i < m2.n := fun i hi => by
    rw [hzu, List.mem_range'_1] at hi; omega
  obtain ⟨m3, h3⟩ := addLConstr_isSome m2 S2.wf [fullVec n 1, fullVec n 1] [zl, zu] .eq 1 rfl
    (by simp [fullVec, lzl, lzu]) (by
      simp only [List.flatten_cons, List.flatten_nil, List.append_nil]
      refine List.Nodup.append List.nodup_range' List.nodup_range' ?_
      intro i hi hi'
      have := (bl i hi).2
      have := (bu i hi').1
      omega) (by
      simp only [List.flatten_cons, List.flatten_nil, List.append_nil, List.mem_append]
      rintro i (hi | hi)
      · have := (bl i hi).2; omega
      · exact (bu i hi).2)
  have S3 := step_addLConstr h3 S2.wf
  have q3 := S3.n
  have lw : (vsub lo up).length = n := by rw [length_vsub]; omega
  have lw' : (vsub up lo).length = n := by rw [length_vsub]; omega
  have hc1 : HasCols (diagM (vsub lo up)) n := by
    have := diagM_ok (vsub lo up)
    rw [lw] at this
    exact this
  have hc2 : HasCols (diagM (vsub up lo)) n := by
    have := diagM_ok (vsub up lo)
    rw [lw'] at this
    exact this
  obtain ⟨m4, h4, S4⟩ := mconstr2_step m3 S3.wf (eye n) (diagM (vsub lo up)) x zu .ge lo
    (by rw [lx]; exact eye_hasCols n) (by rw [lzu]; exact hc1) (by simp [hn]) (by rw [length_diagM]; omega)
    (fun i hi => by have := hx i hi; omega) (fun i hi => by have := (bu i hi).2; omega)
  have q4 := S4.n
  obtain ⟨m5, h5, S5⟩ := mconstr2_step m4 S4.wf (eye n) (diagM (vsub up lo)) x zl .le up
    (by rw [lx]; exact eye_hasCols n) (by rw [lzl]; exact hc2) (by rw [length_eye]; omega) (by rw [length_diagM]; omega)
    (fun i hi => by have := hx i hi; omega) (fun i hi => by have := (bl i hi).2; omega)
  rw [lx, lzu] at h4
  rw [lx, lzl] at h5
  refine ⟨m1, m2, m3, m4, m5, zl, zu, h1, h2, h3, h4, h5, ?_⟩
  have S := (((S1.trans S2).trans S3).trans S4).trans S5
  have e1 : ∀ (v : ℕ → K) (i : ℕ), i < n → dot ((eye n : Mat K).getD i []) (x.map v) = (x.map v).getD i 0 := by
    intro v i hi
    rw [getD_eye n i hi, dot_eyeRow _ _ _ hi]
  have e2 : ∀ (v : ℕ → K) (i : ℕ), i < n → dot ((diagM (vsub lo up)).getD i []) (zu.map v)
      = (lo.getD i 0 - up.getD i 0) * (zu.map v).getD i 0 := by
    intro v i hi
    rw [dot_diag _ _ _ (by omega), getD_vsub _ _ _ hl.symm]
  have e3 : ∀ (v : ℕ → K) (i : ℕ), i < n → dot ((diagM (vsub up lo)).getD i []) (zl.map v)
      = (up.getD i 0 - lo.getD i 0) * (zl.map v).getD i 0 := by
    intro v i hi
    rw [dot_diag _ _ _ (by omega), getD_vsub _ _ _ hl]
  have esum : ∀ v : ℕ → K, dot ([fullVec n 1, fullVec n 1] : List (Vec K)).flatten
      (([zl, zu] : List (List ℕ)).flatten.map v) = (zl.map v ++ zu.map v).sum := by
    intro v
    simp only [List.flatten_cons, List.flatten_nil, List.append_nil, List.map_append, List.sum_append]
    rw [dot_append _ _ _ _ (by simp [fullVec, lzl])]
    unfold fullVec
    rw [dot_ones _ _ (by simp [lzl]), dot_ones _ _ (by simp [lzu])]
  refine S.enc hw ?_ ?_
  · rintro v ⟨⟨⟨⟨p1, p2⟩, p3⟩, p4⟩, p5⟩ hbox
    refine ⟨hbox, ?_⟩
    simp only [Sense.Rel] at p3 p4 p5
    rw [esum] at p3
    have hbin : IsBin (zl.map v ++ zu.map v) := by
      intro b hb
      rcases List.mem_append.1 hb with hb | hb
      · exact p1 b hb
      · exact p2 b hb
    obtain ⟨k, hk, hk1, -⟩ := hbin.one_hot p3
    have hk' : k < n + n := by simpa [lzl, lzu] using hk
    by_cases hkn : k < n
    · have hk2 : (zl.map v).getD k 0 = 1 := by
        rw [← hk1]
        simp [List.getD, lzl, hkn, List.getElem?_append_left]
      have := p5 k (by omega)
      rw [e1 v k hkn, e3 v k hkn, hk2] at this
      have hb := (hbox.2.2 k (by simp [lx]; omega)).1
      exact ⟨k, by simp [lx]; omega, Or.inl (le_antisymm (by linarith) hb)⟩
    · have hk2 : (zu.map v).getD (k - n) 0 = 1 := by
        rw [← hk1]
        simp only [List.getD]
        rw [List.getElem?_append_right (by simp [lzl]; omega)]
        simp [lzl]
      have hkn' : k - n < n := by omega
      have := p4 (k - n) (by omega)
      rw [e1 v _ hkn', e2 v _ hkn', hk2] at this
      have hb := (hbox.2.2 (k - n) (by simp [lx]; omega)).2
      exact ⟨k - n, by simp [lx]; omega, Or.inr (le_antisymm hb (by linarith))⟩
  · rintro v - ⟨hbox, j, hj, hj2⟩
    have hjn : j < n := by simpa [lx] using hj
    obtain ⟨wl, wu, ll, lu, hbinl, hbinu, hsum, hwl, hwu⟩ : ∃ wl wu : Vec K, wl.length = n ∧
        wu.length = n ∧ IsBin wl ∧ IsBin wu ∧ (wl ++ wu).sum = 1 ∧
        (∀ i, i < n → wl.getD i 0 = 0 ∨ (wl.getD i 0 = 1 ∧ (x.map v).getD i 0 = lo.getD i 0)) ∧
        (∀ i, i < n → wu.getD i 0 = 0 ∨ (wu.getD i 0 = 1 ∧ (x.map v).getD i 0 = up.getD i 0)) := by
      have hb : ∀ k, IsBin (eyeRow n k : Vec K) := by
        intro k b hb
        simp only [eyeRow, List.mem_map] at hb
        obtain ⟨i, -, rfl⟩ := hb
        split_ifs <;> simp
      have hs1 : (eyeRow n j : Vec K).sum = 1 := by
        rw [← dot_ones n _ (by simp), dot_comm, dot_eyeRow _ _ _ hjn]
        simp [List.getD, hjn]
      have hz : IsBin (zeros n : Vec K) := by
        intro b hb
        simp [zeros] at hb
        exact Or.inl hb.2
      have hz0 : ∀ i, (zeros n : Vec K).getD i 0 = 0 := by
        intro i
        simp [zeros, List.getD, List.getElem?_replicate]
        split_ifs <;> simp
      have hzs : (zeros n : Vec K).sum = 0 := by simp [zeros]
      rcases hj2 with hj2 | hj2
      · refine ⟨eyeRow n j, zeros n, by simp, by simp, hb j, hz, by simp [hs1, hzs], ?_, ?_⟩
        · intro i hi
          rw [getD_eyeRow n j i hjn]
          split_ifs with e
          · exact Or.inr ⟨rfl, by rw [e]; exact hj2⟩
          · exact Or.inl rfl
        · exact fun i _ => Or.inl (hz0 i)
      · refine ⟨zeros n, eyeRow n j, by simp, by simp, hz, hb j, by simp [hs1, hzs], ?_, ?_⟩
        · exact fun i _ => Or.inl (hz0 i)
        · intro i hi
          rw [getD_eyeRow n j i hjn]
          split_ifs with e
          · exact Or.inr ⟨rfl, by rw [e]; exact hj2⟩
          · exact Or.inl rfl
    have k1 : zl.map (upd v m.n (wl ++ wu)) = wl := by
      apply vec_ext (by simp [lzl, ll])
      intro i hi
      have hi' : i < n := by simpa [lzl] using hi
      rw [hzl, getD_map_range' _ _ _ _ hi', upd_add _ _ _ _ (by simp; omega)]
      simp [List.getD, List.getElem?_append_left, ll, hi']
    have k2 : zu.map (upd v m.n (wl ++ wu)) = wu := by
      apply vec_ext (by simp [lzu, lu])
      intro i hi
      have hi' : i < n := by simpa [lzu] using hi
      have : m1.n + i = m.n + (wl.length + i) := by omega
      rw [hzu, getD_map_range' _ _ _ _ hi', this, upd_add _ _ _ _ (by simp; omega)]
      simp [List.getD, List.getElem?_append_right]
    have k3 : x.map (upd v m.n (wl ++ wu)) = x.map v := map_upd_lt _ _ _ _ hx
    refine ⟨wl ++ wu, by simp [ll, lu], ⟨⟨⟨by rw [k1]; exact hbinl, by rw [k2]; exact hbinu⟩, ?_⟩, ?_⟩, ?_⟩
    · simp only [Sense.Rel]
      rw [esum, k1, k2, hsum]
    · intro i hi
      simp only [Sense.Rel]
      rw [e1 _ i hi, e2 _ i hi, k2, k3]
      have hb := hbox.2.2 i (by simp [lx]; omega)
      rcases hwu i hi with e | ⟨e, e'⟩
      · rw [e]; linarith [hb.1]
      · rw [e, e']; linarith
    · intro i hi
      have hi' : i < n := by omega
      simp only [Sense.Rel]
      rw [e1 _ i hi', e3 _ i hi', k1, k3]
      have hb := hbox.2.2 i (by simp [lx]; omega)
      rcases hwl i hi' with e | ⟨e, e'⟩
      · rw [e]; linarith [hb.2]
      · rw [e, e']; linarith

end NNL.Model
