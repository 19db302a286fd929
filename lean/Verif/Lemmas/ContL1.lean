import Verif.Lemmas.ContEnc

/-!
# The L1 norm block with chosen signs
-/

set_option linter.unusedSectionVars false

namespace NNL.Model

open NNL NNL.Spec NNL.Props

variable {K : Type*} [Field K] [LinearOrder K] [IsStrictOrderedRing K]

/-- The value of a flag. -/
def bit (b : Bool) : K := if b then 1 else 0

/-- The flags fixed by the sign of an interval. -/
def BitFixed (lo up : K) (b : Bool) : Prop := (0 ≤ lo → b = true) ∧ (lo < 0 → up ≤ 0 → b = false)

theorem absEnc_bit_complete (lo up x : K) (c : MIC K) (h : absEnc lo up false = some c)
    (hx : lo ≤ x ∧ x ≤ up) (b : Bool) (hb : SignOk b x) (hf : BitFixed lo up b) :
    c.Feas [x] [|x|] [bit b] := by
  obtain ⟨hl, hu⟩ := hx
  unfold absEnc at h
  split at h
  swap
  · cases h
  simp only [Option.some.injEq] at h
  simp only [Bool.false_eq_true, if_false, not_false_eq_true, and_true, and_false] at h
  have hbin : IsBin ([bit b] : Vec K) := by
    intro t ht
    simp only [List.mem_singleton] at ht
    subst ht
    cases b <;> simp [bit]
  split_ifs at h with c1 c2 c3
  · subst h
    refine ⟨rfl, rfl, hbin, ⟨?_, ?_⟩, ?_⟩
    · simp [MIC.ineqRows, blockRows, List.range, List.range.loop, LRow.val, mrow, colT]
      cases b
      · have h0 := hb.2 rfl
        rw [abs_of_nonpos h0]
        simp only [bit, Bool.false_eq_true, if_false]
        refine ⟨by linarith, by linarith, by linarith, by linarith⟩
      · have h0 := hb.1 rfl
        rw [abs_of_nonneg h0]
        simp only [bit, if_true]
        refine ⟨by linarith, by linarith, by linarith, by linarith⟩
    · simp [MIC.eqRows, blockRows]
    · simp [MIC.BoundsHold, LoOk, UpOk]
  · subst h
    obtain rfl := hf.1 c2
    refine ⟨rfl, rfl, hbin, ⟨?_, ?_⟩, ?_⟩
    · simp [MIC.ineqRows, blockRows, List.range, List.range.loop, LRow.val, mrow, colT]
      exact ⟨hl, hu⟩
    · simp [MIC.eqRows, blockRows, List.range, List.range.loop, LRow.val, mrow, colT, bit]
      rw [abs_of_nonneg (by linarith)]; linarith
    · simp [MIC.BoundsHold, LoOk, UpOk, finBound, bit]
  · have hlo : lo < 0 := not_le.1 c2
    have hup : up ≤ 0 := c3
    subst h
    obtain rfl := hf.2 hlo hup
    refine ⟨rfl, rfl, hbin, ⟨?_, ?_⟩, ?_⟩
    · simp [MIC.ineqRows, blockRows, List.range, List.range.loop, LRow.val, mrow, colT]
      exact ⟨hl, hu⟩
    · simp [MIC.eqRows, blockRows, List.range, List.range.loop, LRow.val, mrow, colT, bit]
      rw [abs_of_nonpos (by linarith)]; linarith
    · simp [MIC.BoundsHold, LoOk, UpOk, finBound, bit]
  · exact absurd ⟨not_le.1 c2, not_le.1 c3⟩ c1

theorem absT_encQ (m : Mip K) (hw : m.WF) (x : List ℕ) (hx : ∀ i ∈ x, i < m.n) (r xe : Vec K) (l u : K)
    (hlu : l ≤ u) (hr : r.length = x.length) :
    ∃ c c' m', absEnc l u false = some c ∧ c.transformInput ⟨x.length, [r]⟩ [dot (vneg r) xe] = some c' ∧
      m.addMIC c' x none .fresh .binary = some (m', [m.n], [m.n + 1]) ∧ m'.n = m.n + 2 ∧
      ∀ b, EncQ m m' (fun v => (l ≤ dot r (x.map v) - dot r xe ∧ dot r (x.map v) - dot r xe ≤ u) ∧
          SignOk b (dot r (x.map v) - dot r xe) ∧ BitFixed l u b)
        (fun v => v m.n = |dot r (x.map v) - dot r xe| ∧
          ∃ τ, v (m.n + 1) = bit τ ∧ SignOk τ (dot r (x.map v) - dot r xe))
        fun v => v (m.n + 1) = bit b := by
  obtain ⟨c, hc⟩ := Option.isSome_iff_exists.1 ((C05_abs_accepts l u false).2 hlu)
  obtain ⟨rdy, n1, n2, n3, hi, hlo, hup, a1, a2, a3, a4⟩ := absEnc_ready hc
  have hA : (⟨x.length, [r]⟩ : Tensor2 K).Ok := by
    intro q hq
    simp only [List.mem_singleton] at hq
    subst hq
    exact hr
  obtain ⟨c', hc', rdy', k1, k2, k3, hfe, hout⟩ := transformInput_ready (c := c) (A := ⟨x.length, [r]⟩)
    (b := [dot (vneg r) xe]) hA rdy rfl (Or.inl hi) hlo hup
  obtain ⟨m', hm', hn, henc⟩ := mic_encQ m hw c' x rdy' hx
  rw [k2, n2, k1, n1] at hm' hn henc
  have ein : ∀ v : ℕ → K, vadd (matVec [r] (x.map v)) [dot (vneg r) xe] =
      [dot r (x.map v) - dot r xe] := by
    intro v
    simp [matVec, vadd, dot_vneg_left, sub_eq_add_neg]
  refine ⟨c, c', m', hc, hc', hm', hn, fun b => (henc [bit b]).weaken ?_ ?_ ?_⟩
  · rintro v _ ⟨hb, hs, hf⟩
    refine ⟨[|dot r (x.map v) - dot r xe|], ?_⟩
    rw [hfe, ein]
    exact absEnc_bit_complete _ _ _ _ hc hb b hs hf
  · intro v _ hf
    rw [hfe, ein] at hf
    obtain ⟨b1, b2, b3⟩ := C05_abs_sound l u _ false c hc _ _ hf
    have hbin := hf.bin (v (m.n + 1)) (by simp)
    simp only [AbsSign, Bool.false_eq_true, if_false] at b3
    refine ⟨?_, ?_⟩
    · rw [MIC.out, n3, a1, a2, a3, a4] at b2
      simpa [mrow] using b2
    · rcases hbin with h | h
      · exact ⟨false, by simp [bit, h], by simp, fun _ => b3.2 (by simpa using h)⟩
      · exact ⟨true, by simp [bit, h], fun _ => b3.1 (by simpa using h), by simp⟩
  · intro v _ _ h
    simpa using h

/-- `r (x - x*)` for all rows. -/
def errs (R : Mat K) (xe x : Vec K) : Vec K := R.map fun r => dot r x - dot r xe

theorem depsBelow_and {n : ℕ} {P Q : (ℕ → K) → Prop} (h1 : DepsBelow n P) (h2 : DepsBelow n Q) :
    DepsBelow n fun v => P v ∧ Q v := fun v w hvw h => ⟨h1 v w hvw h.1, h2 v w hvw h.2⟩

theorem l1Loop_encQ (xe : Vec K) (x : List ℕ) (N : ℕ) (hx : ∀ i ∈ x, i < N) :
    ∀ (R : Mat K) (lb ub : Vec K) (m : Mip K), m.WF → N ≤ m.n → HasCols R x.length →
      lb.length = R.length → ub.length = R.length → (∀ i, i < R.length → lb.getD i 0 ≤ ub.getD i 0) →
      ∃ (m' : Mip K) (s al : List ℕ), l1Loop x.length xe x false .binary R lb ub m = some (m', s, al.map fun i => [i]) ∧
        s.length = R.length ∧ al.length = R.length ∧ s.Nodup ∧ (∀ i ∈ s, m.n ≤ i ∧ i < m'.n) ∧
        (∀ i ∈ al, m.n ≤ i ∧ i < m'.n) ∧ KeepBin m m' ∧
        ∀ σ : List Bool, σ.length = R.length →
          EncQ m m' (fun v => (∀ i, i < R.length → lb.getD i 0 ≤ (errs R xe (x.map v)).getD i 0 ∧
              (errs R xe (x.map v)).getD i 0 ≤ ub.getD i 0) ∧
              List.Forall₂ SignOk σ (errs R xe (x.map v)) ∧
              ∀ i, i < R.length → BitFixed (lb.getD i 0) (ub.getD i 0) (σ.getD i false))
            (fun v => s.map v = (errs R xe (x.map v)).map (fun a => |a|) ∧
              ∃ τ : List Bool, al.map v = τ.map bit ∧ List.Forall₂ SignOk τ (errs R xe (x.map v)))
            fun v => al.map v = σ.map bit := by
  intro R
  induction R with
  | nil =>
    intro lb ub m hw hN _ h1 h2 _
    refine ⟨m, [], [], by cases lb <;> cases ub <;> simp_all [l1Loop], rfl, rfl, by simp, by simp, by simp,
      fun _ h => h, fun σ hσ => ?_⟩
    obtain rfl : σ = [] := List.length_eq_zero_iff.1 hσ
    exact ⟨hw, le_rfl, rfl, fun v hv => ⟨hv, by simp [errs], [], by simp, by simp [errs]⟩,
      fun v hv _ => ⟨v, fun _ _ => rfl, hv, by simp⟩⟩
  | cons r R ih =>
    intro lb ub m hw hN hR h1 h2 hlu
    cases lb with
    | nil => simp at h1
    | cons l lb => cases ub with
      | nil => simp at h2
      | cons u ub =>
        have hx' : ∀ i ∈ x, i < m.n := fun i hi => lt_of_lt_of_le (hx i hi) hN
        obtain ⟨c, c', m1, e1, e2, e3, n1, enc1⟩ := absT_encQ m hw x hx' r xe l u
          (by simpa using hlu 0 (by simp)) (hR r (by simp))
        have w1 := (enc1 true).wf
        obtain ⟨m', s, al, e4, ls, la, nd, hs, ha, kb, enc2⟩ := ih lb ub m1 w1 (by omega)
          (fun q hq => hR q (by simp [hq])) (by simpa using h1) (by simpa using h2)
          (fun i hi => by simpa using hlu (i + 1) (by simpa using hi))
        have hn' : m1.n ≤ m'.n := (enc2 (List.replicate R.length true) (by simp)).n
        refine ⟨m', m.n :: s, (m.n + 1) :: al, ?_, by simp [ls], by simp [la], ?_, ?_, ?_, ?_, ?_⟩
        · simp [l1Loop, e1, e2, e3, e4]
        · rw [List.nodup_cons]
          refine ⟨fun h => ?_, nd⟩
          have := (hs _ h).1
          omega
        · intro i hi
          rcases List.mem_cons.1 hi with rfl | hi
          · omega
          · have := hs i hi; omega
        · intro i hi
          rcases List.mem_cons.1 hi with rfl | hi
          · omega
          · have := ha i hi; omega
        · exact (keep_addMIC e3).trans kb
        · intro σ hσ
          cases σ with
          | nil => simp at hσ
          | cons b σ =>
            have key := ((enc1 b).weaken (D2 := fun v =>
                (∀ i, i < (r :: R).length → (l :: lb).getD i 0 ≤ (errs (r :: R) xe (x.map v)).getD i 0 ∧
                  (errs (r :: R) xe (x.map v)).getD i 0 ≤ (u :: ub).getD i 0) ∧
                List.Forall₂ SignOk (b :: σ) (errs (r :: R) xe (x.map v)) ∧
                ∀ i, i < (r :: R).length →
                  BitFixed ((l :: lb).getD i 0) ((u :: ub).getD i 0) ((b :: σ).getD i false))
              (by
                rintro v _ ⟨a1, a2, a3⟩
                refine ⟨by simpa [errs] using a1 0 (by simp), ?_, by simpa using a3 0 (by simp)⟩
                rw [errs, List.map_cons, List.forall₂_cons] at a2
                exact a2.1) (fun v _ h => h) (fun v _ _ h => h)).seq
              (enc2 σ (by simpa using hσ)) (by
                refine depsBelow_map x hx' fun y => (∀ i, i < (r :: R).length →
                  (l :: lb).getD i 0 ≤ (errs (r :: R) xe y).getD i 0 ∧
                  (errs (r :: R) xe y).getD i 0 ≤ (u :: ub).getD i 0) ∧
                  List.Forall₂ SignOk (b :: σ) (errs (r :: R) xe y) ∧
                  ∀ i, i < (r :: R).length →
                    BitFixed ((l :: lb).getD i 0) ((u :: ub).getD i 0) ((b :: σ).getD i false))
              (by
                intro v w hvw h
                rw [← hvw (m.n + 1) (by omega)]
                exact h)
              (by
                rintro v ⟨a1, a2, a3⟩ _ _
                rw [errs, List.map_cons, List.forall₂_cons] at a2
                exact ⟨fun i hi => by simpa [errs] using a1 (i + 1) (by simpa using hi), a2.2,
                  fun i hi => by simpa using a3 (i + 1) (by simpa using hi)⟩)
            refine key.weaken (fun v _ h => h) ?_ ?_
            · rintro v _ ⟨⟨a1, τ0, a2, a3⟩, b1, τ, b2, b3⟩
              refine ⟨by simp [errs, a1, b1], τ0 :: τ, by simp [a2, b2], ?_⟩
              rw [errs, List.map_cons, List.forall₂_cons]
              exact ⟨a3, b3⟩
            · rintro v _ _ ⟨a, b⟩
              simp [a, b]

/-- The interval of `R (x - x*)` over the box. -/
def Lyap.errRange (L : Lyap K) (R : Mat K) (xe : Vec K) : Option (Vec K × Vec K) :=
  rangeIA L.dim R (matVec (R.map vneg) xe) L.xLo L.xUp

theorem errs_eq {R : Mat K} {xe x : Vec K} (h : x.length = xe.length) : errs R xe x = matVec R (vsub x xe) := by
  unfold errs matVec
  apply List.map_congr_left
  intro r _
  rw [dot_vsub_right _ _ _ h]

theorem l1_encQ (L : Lyap K) {R : Option (Tensor2 K)} {R' : Mat K} {xe : Vec K} (h : L.EqOk R R' xe)
    (m : Mip K) (hw : m.WF) (x : List ℕ) (hl : x.length = L.dim) (hx : ∀ i ∈ x, i < m.n) :
    ∃ (b : Vec K × Vec K) (m' : Mip K) (s al : List ℕ), L.errRange R' xe = some b ∧
      L.addL1 m xe x R false .binary = some (m', s, al.map fun i => [i]) ∧ s.length = R'.length ∧
      al.length = R'.length ∧ s.Nodup ∧ (∀ i ∈ s, m.n ≤ i ∧ i < m'.n) ∧ (∀ i ∈ al, m.n ≤ i ∧ i < m'.n) ∧
      KeepBin m m' ∧ b.1.length = R'.length ∧ b.2.length = R'.length ∧
      ∀ σ : List Bool, σ.length = R'.length →
        EncQ m m' (fun v => InBox L.xLo L.xUp (x.map v) ∧
            List.Forall₂ SignOk σ (matVec R' (vsub (x.map v) xe)) ∧ FixedOk b.1 b.2 [σ])
          (fun v => s.map v = (matVec R' (vsub (x.map v) xe)).map (fun a => |a|) ∧
            ∃ τ : List Bool, al.map v = τ.map bit ∧ List.Forall₂ SignOk τ (matVec R' (vsub (x.map v) xe)))
          fun v => al.map v = σ.map bit := by
  have hxl : xe.length = L.dim := h.xe.1
  obtain ⟨⟨ol, ou⟩, hb⟩ := Option.isSome_iff_exists.1 ((C08_ia_accepts L.dim R'
    (matVec (R'.map vneg) xe) L.xLo L.xUp).2 ⟨by simp, rfl, h.up⟩)
  have hval : ∀ y : Vec K, y.length = L.dim →
      vadd (matVec R' y) (matVec (R'.map vneg) xe) = errs R' xe y := by
    intro y hy
    apply vec_ext (by simp [errs])
    intro i hi
    rw [getD_vadd _ _ _ (by simp)]
    have hi' : i < R'.length := by simpa using hi
    simp [errs, matVec, List.getD, hi', dot_vneg_left, sub_eq_add_neg]
  have hin := C08_ia_sound hb h.xe
  have ll : ol.length = R'.length := by have := hin.1; simpa using this.symm
  have lu : ou.length = R'.length := by have := hin.2.1; simpa using this.symm
  obtain ⟨m', s, al, e, ls, la, nd, hs, ha, kb, enc⟩ := l1Loop_encQ xe x m.n hx R' ol ou m hw le_rfl
    (by rw [hl]; exact h.cols) ll lu (fun i hi => by
      have := hin.2.2 i (by simpa using hi)
      exact this.1.trans this.2)
  rw [hl] at e
  refine ⟨(ol, ou), m', s, al, hb, ?_, ls, la, nd, hs, ha, kb, ll, lu, fun σ hσ => (enc σ hσ).weaken ?_ ?_
    (fun _ _ _ h => h)⟩
  · have hc : (∀ i, i < L.dim → L.xLo.getD i 0 ≤ xe.getD i 0) ∧
        (∀ i, i < L.dim → L.xUp.getD i 0 ≥ xe.getD i 0) :=
      ⟨fun i hi => (h.xe.2.2 i (by omega)).1, fun i hi => (h.xe.2.2 i (by omega)).2⟩
    unfold Lyap.addL1
    rw [if_pos hc]
    simp [h.R, h.rows, hb, e]
  · rintro v _ ⟨hbx, hsg, hfx⟩
    rw [errs_eq (by simp [hl, hxl])]
    refine ⟨fun i hi => ?_, hsg, fun i hi => ?_⟩
    · have := (C08_ia_sound hb hbx).2.2 i (by simpa using hi)
      rwa [hval _ (by simp [hl]), errs_eq (by simp [hl, hxl])] at this
    · simpa [BitFixed] using hfx i (by simpa [hσ] using hi)
  · intro v _ h
    rwa [errs_eq (by simp [hl, hxl])] at h

end NNL.Model
