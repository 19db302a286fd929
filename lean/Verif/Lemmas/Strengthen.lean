import Verif.Lemmas.Cuts
import Verif.Lemmas.Relax
import Verif.Lemmas.ReluSystem
import Verif.Lemmas.Feedback
import Verif.Props.Lyapunov

/-!
# Adding the cuts of networks to a program
-/

set_option linter.unusedSectionVars false

namespace NNL.Model

open NNL NNL.Spec NNL.Props

variable {K : Type*} [Field K] [LinearOrder K] [IsStrictOrderedRing K]

/-- All slopes are in `[0, 1)`. -/
def SlopesOk (hs : List (Lin K × Act K)) : Prop := ∀ p ∈ hs, 0 ≤ actSlope p.2 ∧ actSlope p.2 < 1

/-- The rows of the cuts have the sizes of the variables of the network. -/
theorem strengthenAt_shape {xs n : ℕ} {pt bp lo up : Vec K} {m : ℕ} :
    ∀ (hs : List (Lin K × Act K)) (first : Bool) (offPrev off cnt k : ℕ) (rows : List (LRow K)),
      strengthenAt xs n pt bp lo up first offPrev off cnt hs = some rows →
      HidOk k hs m → off + numUnits hs ≤ n → (first = false → offPrev + k = off) → (first = true → k = xs) →
      ∀ r ∈ rows, r.x.length = xs ∧ r.s.length = n ∧ r.z.length = n := by
  intro hs
  induction hs with
  | nil =>
    intro first offPrev off cnt k rows h _ _ _ _
    cases h
    simp
  | cons p rest ih =>
    obtain ⟨l, a⟩ := p
    intro first offPrev off cnt k rows h hok hn hf2 hf1
    obtain ⟨hk, hl, hrest⟩ := hok
    subst hk
    simp only [numUnits] at hn
    unfold strengthenAt at h
    split at h
    · rename_i rs rr hrs hrr
      cases h
      intro r hr
      rcases List.mem_append.1 hr with hr | hr
      · obtain ⟨rl, hrl, hr⟩ := List.mem_flatten.1 hr
        obtain ⟨j, hj, hj2⟩ := (collect_mem _ _ _ hrs).2 rl hrl
        have hj := List.mem_range.1 hj
        unfold unitCut at hj2
        simp only at hj2
        split at hj2
        · cases hj2
        · rename_i t ht
          cases hj2
          split at hr
          · simp only [List.mem_singleton] at hr
            subst hr
            have hw : (l.W.getD j []).length = l.inF := by
              have e : l.W.getD j [] = l.W[j] := by simp [List.getD, hj]
              rw [e]; exact hl.1 _ (List.getElem_mem hj)
            have hx : t.xc.length = l.inF := by rw [(cut_rhs ht (findIndexSet_nodup _ _ _ _ _) [] 0).1, hw]
            cases first with
            | true => simp [hx, hf1 rfl]
            | false =>
              have := hf2 rfl
              simp only [Bool.false_eq_true, if_false]
              refine ⟨by simp, ?_, by simp⟩
              rw [length_setSlice] <;> simp [hx]
              omega
          · simp at hr
      · exact ih false off (off + l.W.length) (cnt + l.inF) l.W.length rr hrr hrest (by omega)
          (by simp) (by simp) r hr
    · cases h

/-- Each row is violated at the point it is computed for. -/
theorem strengthenAt_violated {xs n : ℕ} {lo up x s z : Vec K} {m : ℕ} (hx : x.length = xs) :
    ∀ (hs : List (Lin K × Act K)) (first : Bool) (offPrev off cnt k : ℕ) (rows : List (LRow K)),
      strengthenAt xs n (x ++ s) z lo up first offPrev off cnt hs = some rows →
      HidOk k hs m → off + numUnits hs ≤ n → (first = false → offPrev + k = off) → (first = true → k = xs ∧ off = 0) →
      cnt + k = xs + off → ∀ r ∈ rows, r.rhs + 1 / 1000000000000 < r.val x s z := by
  intro hs
  induction hs with
  | nil =>
    intro first offPrev off cnt k rows h _ _ _ _ _
    cases h
    simp
  | cons p rest ih =>
    obtain ⟨l, a⟩ := p
    intro first offPrev off cnt k rows h hok hn hf2 hf1 hc
    obtain ⟨hk, hl, hrest⟩ := hok
    subst hk
    simp only [numUnits] at hn
    unfold strengthenAt at h
    split at h
    · rename_i rs rr hrs hrr
      cases h
      intro r hr
      rcases List.mem_append.1 hr with hr | hr
      · obtain ⟨rl, hrl, hr⟩ := List.mem_flatten.1 hr
        obtain ⟨j, hj, hj2⟩ := (collect_mem _ _ _ hrs).2 rl hrl
        have hj := List.mem_range.1 hj
        unfold unitCut at hj2
        simp only at hj2
        split at hj2
        · cases hj2
        · rename_i t ht
          cases hj2
          split at hr
          · rename_i hv
            simp only [List.mem_singleton] at hr
            subst hr
            have hw : (l.W.getD j []).length = l.inF := by
              have e : l.W.getD j [] = l.W[j] := by simp [List.getD, hj]
              rw [e]; exact hl.1 _ (List.getElem_mem hj)
            have hxc : t.xc.length = l.inF := by rw [(cut_rhs ht (findIndexSet_nodup _ _ _ _ _) [] 0).1, hw]
            rw [unitCut_val (k := l.inF) hxc (by omega) hf2]
            have e1 : (x ++ s).getD (cnt + l.inF + j) 0 = s.getD (off + j) 0 := by
              rw [show cnt + l.inF + j = x.length + (off + j) by omega, getD_append_add]
            have e2 : slice (x ++ s) cnt l.inF = if first then x else (s.drop offPrev).take l.inF := by
              unfold slice
              cases first with
              | true =>
                have := hf1 rfl
                have : cnt = 0 := by omega
                subst this
                simp only [List.drop_zero, if_true]
                rw [List.take_left' (by omega)]
              | false =>
                have := hf2 rfl
                simp only [Bool.false_eq_true, if_false]
                rw [show cnt = x.length + offPrev by omega, List.drop_append, List.drop_eq_nil_of_le (by omega)]
                simp
            rw [e1, e2] at hv
            simp only
            linarith
          · simp at hr
      · refine ih false off (off + l.W.length) (cnt + l.inF) l.W.length rr hrr hrest (by omega)
          (by simp) (by simp) (by omega) r hr
    · cases h

/-- No cut of any unit, for any index set, is violated by more than `1E-12` (the ideal formulation of
mip_utils.py 11-65): input `x`, outputs `s` and binaries `z` of the units, bounds `lo`, `up` of the input followed by
the outputs. -/
def IdealSat : List (Lin K × Act K) → Vec K → Vec K → Vec K → Vec K → Vec K → Prop
  | [], _, _, _, _, _ => True
  | (l, a) :: rest, x, s, z, lo, up =>
    (∀ j, j < l.W.length → ∀ I t, I.Nodup →
      cutWithIndices (actSlope a) (l.W.getD j []) (l.b.getD j 0) (lo.take l.inF) (up.take l.inF) I = some t →
        s.getD j 0 ≤ t.rhs x (z.getD j 0) + 1 / 1000000000000) ∧
      IdealSat rest (s.take l.W.length) (s.drop l.W.length) (z.drop l.W.length) (lo.drop l.inF) (up.drop l.inF)

theorem unitCut_ideal {first : Bool} {xs n offPrev off j : ℕ} {l : Lin K} {a : Act K} {li lo up : Vec K} {y β : K}
    (h : unitCut first xs n offPrev off l a li lo up j y β = some []) : ∀ I t', I.Nodup →
      cutWithIndices (actSlope a) (l.W.getD j []) (l.b.getD j 0) lo up I = some t' →
      y ≤ t'.rhs li β + 1 / 1000000000000 := by
  intro I t' hI ht'
  unfold unitCut at h
  simp only at h
  split at h
  · cases h
  · rename_i t ht
    split at h
    · simp at h
    · rename_i hv
      have := cut_optimal hI ht ht'
      simp only [Cut.rhs] at this ⊢
      linarith [not_lt.1 hv]

/-- If no row is added, no cut is violated. -/
theorem strengthenAt_nil {xs n : ℕ} {pt bp lo up : Vec K} : ∀ (hs : List (Lin K × Act K)) (first : Bool)
    (offPrev off cnt : ℕ), strengthenAt xs n pt bp lo up first offPrev off cnt hs = some [] → ∀ k m, HidOk k hs m →
      IdealSat hs ((pt.drop cnt).take k) (pt.drop (cnt + k)) (bp.drop off) (lo.drop cnt) (up.drop cnt) := by
  intro hs
  induction hs with
  | nil => intro first offPrev off cnt h k m _; trivial
  | cons p rest ih =>
    obtain ⟨l, a⟩ := p
    intro first offPrev off cnt h k m hok
    obtain ⟨rfl, hl, hrest⟩ := hok
    unfold strengthenAt at h
    split at h
    · rename_i rs rr hrs hrr
      simp only [Option.some.injEq, List.append_eq_nil_iff, List.flatten_eq_nil_iff] at h
      obtain ⟨h1, rfl⟩ := h
      refine ⟨fun j hj I t hI ht => ?_, ?_⟩
      · obtain ⟨rl, hrl, hj2⟩ := (collect_mem _ _ _ hrs).1 j (List.mem_range.2 hj)
        rw [h1 rl hrl] at hj2
        have := unitCut_ideal hj2 I t hI ht
        simpa [slice, Nat.add_assoc] using this
      · have := ih false off (off + l.W.length) (cnt + l.inF) hrr _ m hrest
        simpa [List.drop_drop, Nat.add_assoc] using this
    · cases h

/-- The cuts are computed for every point when the slopes are in `[0, 1)`. -/
theorem strengthenAt_isSome {xs n : ℕ} {pt bp lo up : Vec K} {m : ℕ} :
    ∀ (hs : List (Lin K × Act K)) (first : Bool) (offPrev off cnt k : ℕ), SlopesOk hs →
      HidOk k hs m → cnt + k + numUnits hs ≤ lo.length → up.length = lo.length →
      ∃ rows, strengthenAt xs n pt bp lo up first offPrev off cnt hs = some rows := by
  intro hs
  induction hs with
  | nil => intro first offPrev off cnt k _ _ _ _; exact ⟨[], rfl⟩
  | cons p rest ih =>
    obtain ⟨l, a⟩ := p
    intro first offPrev off cnt k hsl hok hlo hup
    obtain ⟨hk, hl, hrest⟩ := hok
    subst hk
    simp only [numUnits] at hlo
    obtain ⟨rr, hrr⟩ := ih false off (off + l.W.length) (cnt + l.inF) l.W.length
      (fun p hp => hsl p (List.mem_cons_of_mem _ hp)) hrest (by omega) hup
    obtain ⟨rs, hrs⟩ := collect_map_some (fun j => unitCut first xs n offPrev off l a (slice pt cnt l.inF)
      (slice lo cnt l.inF) (slice up cnt l.inF) j (pt.getD (cnt + l.inF + j) 0) (bp.getD (off + j) 0))
      (List.range l.W.length) (by
        intro j hj
        have hj := List.mem_range.1 hj
        have hw : (l.W.getD j []).length = l.inF := by
          have e : l.W.getD j [] = l.W[j] := by simp [List.getD, hj]
          rw [e]; exact hl.1 _ (List.getElem_mem hj)
        obtain ⟨t, ht⟩ := cutWithIndices_isSome (c := actSlope a) (w := l.W.getD j [])
          (b := (l.bias.getD (zeros l.W.length)).getD j 0) (lo := slice lo cnt l.inF) (up := slice up cnt l.inF)
          (I := findIndexSet (l.W.getD j []) (slice lo cnt l.inF) (slice up cnt l.inF) (slice pt cnt l.inF)
            (bp.getD (off + j) 0))
          ⟨(hsl _ List.mem_cons_self).1, (hsl _ List.mem_cons_self).2, by rw [hw]; simp [slice]; omega,
            by simp [slice]; omega, findIndexSet_lt _ _ _ _ _⟩
        unfold unitCut
        simp only [ht]
        exact ⟨_, rfl⟩)
    refine ⟨rs.flatten ++ rr, ?_⟩
    unfold strengthenAt
    rw [hrs, hrr]

/-- The sizes of the parts of a network match, and its variables are among the first `N`. -/
structure NetAt.Fits (a : NetAt K) (N : ℕ) : Prop where
  net : a.net.Ok a.x.length
  s : a.s.length = numUnits a.net.hidden
  z : a.z.length = numUnits a.net.hidden
  lo : a.lo.length = a.x.length + numUnits a.net.hidden
  up : a.up.length = a.x.length + numUnits a.net.hidden
  lt : ∀ i ∈ a.x ++ a.s ++ a.z, i < N

/-- The values of the variables are those of the network. -/
def NetAt.Holds (a : NetAt K) (v : ℕ → K) : Prop :=
  IsBin (a.z.map v) ∧ InBox a.lo a.up (a.x.map v ++ a.s.map v) ∧
    ∃ plo pup, ChainSpec a.net.hidden (a.x.map v) (a.s.map v) (a.z.map v) plo pup

theorem netInF_eq {N : Net K} {n : ℕ} (h : N.Ok n) : netInF N = n := by
  obtain ⟨h, -⟩ := h
  unfold netInF
  cases hh : N.hidden with
  | nil => rw [hh] at h; exact h.symm
  | cons p l => rw [hh] at h; exact h.1

/-- A network that was added to the program with the constraints of `output_constraint`. -/
theorem holds_of_feas {net : Net K} {xlo xup : Vec K} {mt : Method K} {r : ReluMIC K} {x s z : List ℕ}
    (h : outputConstraint net x.length xlo xup mt = some r) (hok : net.Ok x.length)
    (hm : MethodValid net xlo xup mt) (hl : xlo.length = x.length) (hu : xup.length = x.length) {v : ℕ → K}
    (hf : r.mic.Feas (x.map v) (s.map v) (z.map v)) :
    NetAt.Holds ⟨net, x, s, z, r.nnInputLo ++ r.reluOutputLo, r.nnInputUp ++ r.reluOutputUp⟩ v := by
  obtain ⟨-, -, h3, e1, e2⟩ := outputConstraint_some h
  obtain ⟨f1, f2, f3, f4, f5⟩ := (outputCons_feas h3 hok (by simp) hl hu).1 hf
  have hb := (C11_bounds_sound h hok hm f1).2.1
  have hs : (s.map v).length = numUnits net.hidden := by rw [f2, length_postacts_flatten hok.1]
  refine ⟨f4, ?_, r.reluInputLo, r.reluInputUp, ?_⟩
  · simp only [e1, e2]
    exact inBox_append f1 (by rw [f2]; exact hb)
  · exact (chain_iff _ _ _ _ _ _ _ hok.1 hs).2 ⟨f2, f5⟩

/-- The cuts of a network hold wherever the variables have the values of the network. -/
theorem holds_cuts {a : NetAt K} {N : ℕ} (hF : a.Fits N) {v : ℕ → K} (h : a.Holds v) {pt bp : Vec K}
    {rows : List (LRow K)} (hr : strengthenAt a.x.length (numUnits a.net.hidden) pt bp a.lo a.up true 0 0 0
      a.net.hidden = some rows) :
    ∀ row ∈ rows, row.val (a.x.map v) (a.s.map v) (a.z.map v) ≤ row.rhs := by
  obtain ⟨h1, h2, plo, pup, h3⟩ := h
  exact strengthenAt_valid (plo := plo) (pup := pup) h1 a.net.hidden true 0 0 0 a.x.length rows hr hF.net.1 (by omega)
    (by simp [hF.s]) (by simp) (fun _ => by simp) (by simpa using h2) (by simpa using h3)

/-! ### One network -/

/-- Removing the relaxation only restricts a program. -/
theorem feas_of_rr {m : Mip K} {v : ℕ → K} (h : m.removeRelaxation.Feas v) : m.Feas v := by
  refine ⟨fun i g hg => ?_, h.2⟩
  have := h.1 i (if i ∈ m.zeta then { g with isBin := true } else g) (by rw [rr_get, hg]; rfl)
  split_ifs at this with hi
  · exact ⟨this.1, this.2.1, fun _ => this.2.2 rfl⟩
  · exact this

/-- The effect of adding rows to a program. -/
structure Adds (m m' : Mip K) (P : (ℕ → K) → Prop) : Prop where
  vars : m'.vars = m.vars
  r : m'.r = m.r
  zeta : m'.zeta = m.zeta
  obj : m'.obj = m.obj
  wf : m.WF → m'.WF
  feas : ∀ v, m'.Feas v → m.Feas v
  keep : ∀ v, P v → m.Feas v → m'.Feas v
  rfeas : ∀ v, m'.removeRelaxation.Feas v → m.removeRelaxation.Feas v
  rkeep : ∀ v, P v → m.removeRelaxation.Feas v → m'.removeRelaxation.Feas v

theorem Adds.refl (m : Mip K) (P : (ℕ → K) → Prop) : Adds m m P :=
  ⟨rfl, rfl, rfl, rfl, id, fun _ h => h, fun _ _ h => h, fun _ h => h, fun _ _ h => h⟩

theorem Adds.trans {a b c : Mip K} {P Q : (ℕ → K) → Prop} (h : Adds a b P) (h' : Adds b c Q) :
    Adds a c fun v => P v ∧ Q v :=
  ⟨h'.vars.trans h.vars, h'.r.trans h.r, h'.zeta.trans h.zeta, h'.obj.trans h.obj, fun w => h'.wf (h.wf w),
    fun v q => h.feas v (h'.feas v q), fun v p q => h'.keep v p.2 (h.keep v p.1 q),
    fun v q => h.rfeas v (h'.rfeas v q), fun v p q => h'.rkeep v p.2 (h.rkeep v p.1 q)⟩

theorem Adds.mono {a b : Mip K} {P Q : (ℕ → K) → Prop} (h : Adds a b P) (hq : ∀ v, Q v → P v) : Adds a b Q :=
  ⟨h.vars, h.r, h.zeta, h.obj, h.wf, h.feas, fun v q => h.keep v (hq v q), h.rfeas, fun v q => h.rkeep v (hq v q)⟩

theorem feas_vars {m m' : Mip K} (h : m'.vars = m.vars) (hz : m'.zeta = m.zeta) :
    m'.removeRelaxation.vars = m.removeRelaxation.vars := by
  simp [Mip.removeRelaxation, h, hz]

theorem adds_mconstr {m m' : Mip K} {A : List (Tensor2 K)} {x : List (List ℕ)} {sense : Sense} {b : Vec K}
    (h : m.addMConstr A x sense b = some m') : Adds m m' fun v =>
      ∀ i, i < b.length → sense.Rel (dot (catRow A i) (x.flatten.map v)) (b.getD i 0) := by
  obtain ⟨h1, h2, h3, h4, h5, h6, h7, h8, -⟩ := addMConstr_inv h
  have hf := addMConstr_feas h
  have hv : m'.removeRelaxation.vars = m.removeRelaxation.vars := feas_vars h1 h4
  have hr : ∀ v, m'.removeRelaxation.Feas v ↔ m.removeRelaxation.Feas v ∧
      ∀ i, i < b.length → sense.Rel (dot (catRow A i) (x.flatten.map v)) (b.getD i 0) := by
    intro v
    unfold Mip.Feas
    rw [hv]
    simp only [Mip.removeRelaxation, h2, List.forall_mem_append, List.forall_mem_map, List.mem_range, GCon.Ok]
    tauto
  exact ⟨h1, h3, h4, h7, addMConstr_wf h, fun v q => ((hf v).1 q).1, fun v p q => (hf v).2 ⟨q, p⟩,
    fun v q => ((hr v).1 q).1, fun v p q => (hr v).2 ⟨q, p⟩⟩

theorem strengthenNet_adds {m m' : Mip K} {p : ℕ → K} {a : NetAt K} (hF : a.Fits m.n)
    (h : m.strengthenNet p a = some m') : Adds m m' a.Holds := by
  unfold Mip.strengthenNet at h
  simp only [Option.bind_eq_bind, Option.bind_eq_some_iff, netInF_eq hF.net] at h
  obtain ⟨rows, hr, h⟩ := h
  split_ifs at h with he
  · cases h
    exact Adds.refl _ _
  · refine (adds_mconstr h).mono fun v hv i hi => ?_
    have hs := strengthenAt_shape (xs := a.x.length) (n := numUnits a.net.hidden) a.net.hidden true 0 0 0 a.x.length rows
      hr hF.net.1 (by omega) (by simp) (fun _ => rfl)
    have hlen : i < rows.length := by simpa using hi
    have hc := holds_cuts hF hv hr _ (List.getElem_mem hlen)
    have e : ∀ (f : LRow K → Vec K), (rows.map f).getD i [] = f rows[i] := by
      intro f
      simp [List.getD, hlen]
    have e' : (rows.map LRow.rhs).getD i 0 = rows[i].rhs := by simp [List.getD, hlen]
    rw [dot_catRow_cons _ _ _ _ _ _ (by
        intro q hq
        obtain ⟨row, hrow, rfl⟩ := List.mem_map.1 hq
        exact (hs row hrow).1) rfl (by simpa using hlen),
      dot_catRow_cons _ _ _ _ _ _ (by
        intro q hq
        obtain ⟨row, hrow, rfl⟩ := List.mem_map.1 hq
        exact (hs row hrow).2.1) hF.s.symm (by simpa using hlen),
      dot_catRow_cons _ _ _ _ _ _ (by
        intro q hq
        obtain ⟨row, hrow, rfl⟩ := List.mem_map.1 hq
        exact (hs row hrow).2.2) hF.z.symm (by simpa using hlen)]
    simp only [e, e', Sense.Rel, catRow_nil, dot_nil_left, add_zero]
    simp only [LRow.val] at hc
    linarith

/-- The rows of a network at a point, as rows of the program. -/
theorem strengthenNet_rows {m m' : Mip K} {p : ℕ → K} {a : NetAt K} (hF : a.Fits m.n)
    (h : m.strengthenNet p a = some m') : m' = m ∨ ¬ m'.Feas p := by
  unfold Mip.strengthenNet at h
  simp only [Option.bind_eq_bind, Option.bind_eq_some_iff, netInF_eq hF.net] at h
  obtain ⟨rows, hr, h⟩ := h
  split_ifs at h with he
  · cases h
    exact Or.inl rfl
  · refine Or.inr fun hf => ?_
    have hs := strengthenAt_shape (xs := a.x.length) (n := numUnits a.net.hidden) a.net.hidden true 0 0 0 a.x.length rows
      hr hF.net.1 (by omega) (by simp) (fun _ => rfl)
    have hlen : 0 < rows.length := by
      cases rows with
      | nil => simp at he
      | cons _ _ => simp
    rw [List.map_append] at hr
    have hc := strengthenAt_violated (by simp) a.net.hidden true 0 0 0 a.x.length rows hr hF.net.1
      (by omega) (by simp) (fun _ => ⟨rfl, rfl⟩) (by omega) _ (List.getElem_mem hlen)
    have e : ∀ (f : LRow K → Vec K), (rows.map f).getD 0 [] = f rows[0] := by
      intro f
      simp [List.getD, hlen]
    have e' : (rows.map LRow.rhs).getD 0 0 = rows[0].rhs := by simp [List.getD, hlen]
    have hi := ((addMConstr_feas h p).1 hf).2 0 (by simpa using hlen)
    rw [dot_catRow_cons _ _ _ _ _ _ (by
        intro q hq
        obtain ⟨row, hrow, rfl⟩ := List.mem_map.1 hq
        exact (hs row hrow).1) rfl (by simpa using hlen),
      dot_catRow_cons _ _ _ _ _ _ (by
        intro q hq
        obtain ⟨row, hrow, rfl⟩ := List.mem_map.1 hq
        exact (hs row hrow).2.1) hF.s.symm (by simpa using hlen),
      dot_catRow_cons _ _ _ _ _ _ (by
        intro q hq
        obtain ⟨row, hrow, rfl⟩ := List.mem_map.1 hq
        exact (hs row hrow).2.2) hF.z.symm (by simpa using hlen)] at hi
    simp only [e, e', Sense.Rel, catRow_nil, dot_nil_left, add_zero] at hi
    simp only [LRow.val] at hc
    have : (0 : K) < 1 / 1000000000000 := by norm_num
    linarith

theorem strengthenNet_ideal {m m' : Mip K} {p : ℕ → K} {a : NetAt K} (hF : a.Fits m.n)
    (h : m.strengthenNet p a = some m') (hf : m'.Feas p) :
    IdealSat a.net.hidden (a.x.map p) (a.s.map p) (a.z.map p) a.lo a.up := by
  unfold Mip.strengthenNet at h
  simp only [Option.bind_eq_bind, Option.bind_eq_some_iff, netInF_eq hF.net] at h
  obtain ⟨rows, hr, h⟩ := h
  by_cases he : rows = []
  · subst he
    have := strengthenAt_nil a.net.hidden true 0 0 0 hr a.x.length _ hF.net.1
    simpa [List.take_append_of_le_length, List.drop_append_of_le_length] using this
  · exfalso
    rw [if_neg (by simpa using he)] at h
    have hs := strengthenAt_shape (xs := a.x.length) (n := numUnits a.net.hidden) a.net.hidden true 0 0 0 a.x.length rows
      hr hF.net.1 (by omega) (by simp) (fun _ => rfl)
    rcases strengthenNet_rows (m := m) (m' := m') (p := p) hF (by
      unfold Mip.strengthenNet
      simp only [Option.bind_eq_bind, netInF_eq hF.net, hr, Option.bind_some]
      rw [if_neg (by simpa using he)]
      exact h) with e | e
    · have := (addMConstr_inv h).2.1
      rw [e] at this
      have hl := congrArg List.length this
      simp at hl
      exact he hl
    · exact e hf

theorem strengthenNet_isSome (m : Mip K) (p : ℕ → K) {a : NetAt K} (hF : a.Fits m.n) (hs : SlopesOk a.net.hidden) :
    ∃ m', m.strengthenNet p a = some m' := by
  obtain ⟨rows, hr⟩ := strengthenAt_isSome (xs := netInF a.net) (n := numUnits a.net.hidden)
    (pt := (a.x ++ a.s).map p) (bp := a.z.map p) (lo := a.lo) (up := a.up) a.net.hidden true 0 0 0 a.x.length hs
    hF.net.1 (by rw [hF.lo]; omega) (by rw [hF.lo, hF.up])
  unfold Mip.strengthenNet
  simp only [hr, Option.bind_eq_bind, Option.bind_some]
  split_ifs with he
  · exact ⟨_, rfl⟩
  · refine addMConstr_isSome m rfl (by simp) (by simp) ?_ ?_
    · simp [netInF_eq hF.net, hF.s, hF.z]
    · simpa [List.append_assoc] using hF.lt

theorem strengthenNets_adds (p : ℕ → K) : ∀ (nets : List (NetAt K)) (m m' : Mip K), (∀ a ∈ nets, a.Fits m.n) →
    Mip.strengthenNets p nets m = some m' → Adds m m' fun v => ∀ a ∈ nets, a.Holds v
  | [], m, m', _, h => by cases h; exact Adds.refl _ _
  | a :: as, m, m', hF, h => by
    simp only [Mip.strengthenNets, Option.bind_eq_bind, Option.bind_eq_some_iff] at h
    obtain ⟨m1, h1, h2⟩ := h
    have s1 := strengthenNet_adds (hF a (by simp)) h1
    have s2 := strengthenNets_adds p as m1 m' (fun b hb => by
      rw [Mip.n, s1.vars]; exact hF b (by simp [hb])) h2
    exact (s1.trans s2).mono fun v hv => ⟨hv a (by simp), fun b hb => hv b (by simp [hb])⟩

theorem strengthenNets_isSome (p : ℕ → K) : ∀ (nets : List (NetAt K)) (m : Mip K),
    (∀ a ∈ nets, a.Fits m.n ∧ SlopesOk a.net.hidden) → ∃ m', Mip.strengthenNets p nets m = some m'
  | [], m, _ => ⟨m, rfl⟩
  | a :: as, m, hF => by
    obtain ⟨m1, h1⟩ := strengthenNet_isSome m p (hF a (by simp)).1 (hF a (by simp)).2
    obtain ⟨m', h2⟩ := strengthenNets_isSome p as m1 fun b hb => by
      have := (strengthenNet_adds (hF a (by simp)).1 h1).vars
      rw [Mip.n, this]
      exact hF b (by simp [hb])
    exact ⟨m', by simp [Mip.strengthenNets, h1, h2]⟩

/-- Either nothing is added or the point is cut off. -/
theorem strengthenNets_cut (p : ℕ → K) : ∀ (nets : List (NetAt K)) (m m' : Mip K), (∀ a ∈ nets, a.Fits m.n) →
    Mip.strengthenNets p nets m = some m' → m' = m ∨ ¬ m'.Feas p
  | [], m, m', _, h => by cases h; exact Or.inl rfl
  | a :: as, m, m', hF, h => by
    simp only [Mip.strengthenNets, Option.bind_eq_bind, Option.bind_eq_some_iff] at h
    obtain ⟨m1, h1, h2⟩ := h
    have s1 := strengthenNet_adds (hF a (by simp)) h1
    have hF' : ∀ b ∈ as, b.Fits m1.n := fun b hb => by
      rw [Mip.n, s1.vars]; exact hF b (by simp [hb])
    have s2 := strengthenNets_adds p as m1 m' hF' h2
    rcases strengthenNet_rows (hF a (by simp)) h1 with e | e
    · subst e
      exact strengthenNets_cut p as m1 m' hF' h2
    · exact Or.inr fun hf => e (s2.feas p hf)

/-- A solution that is not cut off satisfies all cuts of all networks. -/
theorem strengthenNets_ideal (p : ℕ → K) : ∀ (nets : List (NetAt K)) (m m' : Mip K), (∀ a ∈ nets, a.Fits m.n) →
    Mip.strengthenNets p nets m = some m' → m'.Feas p →
      ∀ a ∈ nets, IdealSat a.net.hidden (a.x.map p) (a.s.map p) (a.z.map p) a.lo a.up
  | [], m, m', _, h, _ => by simp
  | a :: as, m, m', hF, h, hf => by
    simp only [Mip.strengthenNets, Option.bind_eq_bind, Option.bind_eq_some_iff] at h
    obtain ⟨m1, h1, h2⟩ := h
    have s1 := strengthenNet_adds (hF a (by simp)) h1
    have hF' : ∀ b ∈ as, b.Fits m1.n := fun b hb => by
      rw [Mip.n, s1.vars]; exact hF b (by simp [hb])
    have s2 := strengthenNets_adds p as m1 m' hF' h2
    intro b hb
    rcases List.mem_cons.1 hb with rfl | hb
    · exact strengthenNet_ideal (hF _ (by simp)) h1 (s2.feas p hf)
    · exact strengthenNets_ideal p as m1 m' hF' h2 hf b hb

theorem strengthenPts_adds (solve : Mip K → Option (ℕ → K)) (nets : List (NetAt K)) : ∀ (num : ℕ) (m m' : Mip K),
    (∀ a ∈ nets, a.Fits m.n) → strengthenPts solve nets num m = some m' →
      Adds m m' fun v => ∀ a ∈ nets, a.Holds v
  | 0, m, m', _, h => by cases h; exact Adds.refl _ _
  | num + 1, m, m', hF, h => by
    simp only [strengthenPts, Option.bind_eq_bind, Option.bind_eq_some_iff] at h
    obtain ⟨p, -, m1, h1, h2⟩ := h
    have s1 := strengthenNets_adds p nets m m1 hF h1
    have s2 := strengthenPts_adds solve nets num m1 m' (fun b hb => by
      rw [Mip.n, s1.vars]; exact hF b hb) h2
    exact (s1.trans s2).mono fun v hv => ⟨hv, hv⟩

/-- The loop ends when the solver finds an optimal solution of every program it is given. -/
theorem strengthenPts_isSome (solve : Mip K → Option (ℕ → K)) (nets : List (NetAt K)) : ∀ (num : ℕ) (m : Mip K),
    (∀ a ∈ nets, a.Fits m.n ∧ SlopesOk a.net.hidden) →
      (∀ m1, Adds m m1 (fun v => ∀ a ∈ nets, a.Holds v) → ∃ p, solve m1 = some p) →
      ∃ m', strengthenPts solve nets num m = some m'
  | 0, m, _, _ => ⟨m, rfl⟩
  | num + 1, m, hF, hs => by
    obtain ⟨p, hp⟩ := hs m (Adds.refl _ _)
    obtain ⟨m1, h1⟩ := strengthenNets_isSome p nets m hF
    have s1 := strengthenNets_adds p nets m m1 (fun a ha => (hF a ha).1) h1
    obtain ⟨m', h2⟩ := strengthenPts_isSome solve nets num m1 (fun b hb => by
      rw [Mip.n, s1.vars]; exact hF b hb) fun m2 h2 => hs m2 ((s1.trans h2).mono fun v hv => ⟨hv, hv⟩)
    exact ⟨m', by simp [strengthenPts, hp, h1, h2]⟩

end NNL.Model
