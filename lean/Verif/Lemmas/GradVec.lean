import Verif.Lemmas.OutGrad

/-! Helper lemmas about `output_gradient_times_vector`. -/

set_option linter.unusedSectionVars false

namespace NNL.Model

open NNL NNL.Spec

variable {K : Type*} [Field K] [LinearOrder K] [IsStrictOrderedRing K]

/-- Meaning of the rows of one unit. -/
def GradUnit (a : Act K) (lo up p y β : K) : Prop :=
  y = (if β = 1 then p else a.slope * p) ∧ (a = .leaky 1 ∨ lo ≤ p ∧ p ≤ up)

theorem gradNeuron_holds {W zc : Vec K} {lo up y β : K} {a : Act K} {rs : List (LRow K)}
    (h : gradNeuron W a lo up = some rs) (hβ : β = 0 ∨ β = 1) :
    (∀ r ∈ rs, r.val zc [y] [β] ≤ r.rhs) ↔ GradUnit a lo up (dot W zc) y β := by
  obtain ⟨R, hR, rfl⟩ := Option.map_eq_some_iff.1 h
  have e := rows_holds_iff R W zc 0 y β
  simp only [mul_zero, sub_zero, add_zero] at e
  rw [e]
  cases a with
  | relu =>
    simp only [gradScalar] at hR
    rw [Props.C01_product_exact _ _ _ _ _ R hR hβ, GradUnit]
    simp only [reduceCtorEq, false_or, Act.slope, zero_mul]
    rw [and_comm]
    refine and_congr_left fun _ => ?_
    rcases hβ with rfl | rfl <;> simp
  | leaky c =>
    simp only [gradScalar] at hR
    simp only [GradUnit, Act.slope]
    by_cases hc : c = 1
    · subst hc
      rw [Props.C04_leaky_gradient_slope_one _ _ _ _ _ R hR]; simp
    · have hne : (Act.leaky c) ≠ Act.leaky 1 := by intro h; cases h; exact hc rfl
      rw [Props.C04_leaky_gradient_exact _ _ _ _ _ _ R hc hR hβ]
      simp only [hne, false_or]
      rw [and_comm]
      refine and_congr_left fun _ => ?_
      rcases hβ with rfl | rfl <;> simp

theorem gradNeuron_shape {W : Vec K} {a : Act K} {lo up : K} {rs : List (LRow K)}
    (h : gradNeuron W a lo up = some rs) :
    ∀ r ∈ rs, r.x.length = W.length ∧ (∃ t, r.s = [t]) ∧ ∃ t, r.z = [t] := by
  obtain ⟨R, -, rfl⟩ := Option.map_eq_some_iff.1 h
  simp only [List.mem_map, List.mem_range, forall_exists_index, and_imp]
  rintro r i - rfl
  simp

theorem gradLayer_holds {l : Lin K} {a : Act K} {lo up zc zn z : Vec K} {rs : List (LRow K)}
    (h : gradLayer l a lo up = some rs) (hz : IsBin z) :
    (∀ r ∈ rs, r.val zc zn z ≤ r.rhs) ↔ ∀ j, j < l.W.length →
      GradUnit a (lo.getD j 0) (up.getD j 0) (dot (l.W.getD j []) zc) (zn.getD j 0) (z.getD j 0) := by
  obtain ⟨cs, hcs, rfl⟩ := Option.map_eq_some_iff.1 h
  obtain ⟨m1, m2⟩ := collect_mem _ _ _ hcs
  have key : ∀ j, j < l.W.length → ∀ cj,
      (gradNeuron (l.W.getD j []) a (lo.getD j 0) (up.getD j 0)).map
        (List.map (spread l.W.length j)) = some cj →
      ((∀ r ∈ cj, r.val zc zn z ≤ r.rhs) ↔ GradUnit a (lo.getD j 0) (up.getD j 0)
        (dot (l.W.getD j []) zc) (zn.getD j 0) (z.getD j 0)) := by
    intro j hj cj hcj
    obtain ⟨c0, h0, rfl⟩ := Option.map_eq_some_iff.1 hcj
    rw [← gradNeuron_holds h0 (getD_isBin hz j)]
    have hsh := gradNeuron_shape h0
    simp only [List.forall_mem_map]
    refine forall_congr' fun r => imp_congr_right fun hr => ?_
    obtain ⟨-, h1, h2⟩ := hsh r hr
    rw [spread_val _ _ _ _ _ _ hj h1 h2]; rfl
  constructor
  · intro hh j hj
    obtain ⟨cj, hc1, hc2⟩ := m1 j (List.mem_range.2 hj)
    exact (key j hj cj hc2).1 fun r hr => hh r (List.mem_flatten.2 ⟨cj, hc1, hr⟩)
  · intro hh r hr
    obtain ⟨cj, hc1, hc2⟩ := List.mem_flatten.1 hr
    obtain ⟨j, hj, hj2⟩ := m2 cj hc1
    have hj := List.mem_range.1 hj
    exact (key j hj cj hj2).2 (hh j hj) r hc2

theorem gradLayer_shape {l : Lin K} {a : Act K} {lo up : Vec K} {rs : List (LRow K)}
    (h : gradLayer l a lo up = some rs) (hW : HasCols l.W l.inF) :
    ∀ r ∈ rs, r.x.length = l.inF ∧ r.s.length = l.W.length ∧ r.z.length = l.W.length := by
  obtain ⟨cs, hcs, rfl⟩ := Option.map_eq_some_iff.1 h
  obtain ⟨-, m2⟩ := collect_mem _ _ _ hcs
  intro r hr
  obtain ⟨cj, hc1, hc2⟩ := List.mem_flatten.1 hr
  obtain ⟨j, hj, hj2⟩ := m2 cj hc1
  have hj := List.mem_range.1 hj
  obtain ⟨c0, h0, rfl⟩ := Option.map_eq_some_iff.1 hj2
  have hsh := gradNeuron_shape h0
  have hl : (l.W.getD j []).length = l.inF := by
    have : l.W.getD j [] = l.W[j] := by simp [List.getD, hj]
    rw [this]; exact hW _ (List.getElem_mem hj)
  obtain ⟨r0, hr0, rfl⟩ := List.mem_map.1 hc2
  exact ⟨by rw [spread, (hsh r0 hr0).1, hl], by simp [spread], by simp [spread]⟩

/-- Layer-wise meaning, as `ChainSpec`. -/
def GradChain : List (Lin K × Act K) → List (Vec K × Vec K) → (zc s z : Vec K) → Prop
  | (l, a) :: hs, b :: bs, zc, s, z =>
    (∀ j, j < l.W.length → GradUnit a (b.1.getD j 0) (b.2.getD j 0) (dot (l.W.getD j []) zc)
      (s.getD j 0) (z.getD j 0)) ∧
    GradChain hs bs (s.take l.W.length) (s.drop l.W.length) (z.drop l.W.length)
  | _, _, _, _, _ => True

theorem gradHid_holds {xs n : ℕ} {x s z : Vec K} {m : ℕ} (hz : IsBin z) :
    ∀ (hs : List (Lin K × Act K)) (bs : List (Vec K × Vec K)) (first : Bool) (offPrev off : ℕ)
      (c : List (LRow K)) (k : ℕ), gradHid xs n first offPrev off hs bs = some c →
      HidOk k hs m → off + numUnits hs ≤ n →
      (first = true → xs = k) → (first = false → offPrev + k = off) →
      ((∀ r ∈ c, r.val x s z ≤ r.rhs) ↔ GradChain hs bs
        (if first then x else (s.drop offPrev).take k) (s.drop off) (z.drop off)) := by
  intro hs
  induction hs with
  | nil =>
    intro bs first offPrev off c k h _ _ _ _
    cases bs <;> cases h <;> simp [GradChain]
  | cons p rest ih =>
    obtain ⟨l, a⟩ := p
    intro bs first offPrev off c k h hok hn hf1 hf2
    obtain ⟨hk, hl, hrest⟩ := hok
    subst hk
    simp only [numUnits] at hn
    cases bs with
    | nil => simp [gradHid] at h
    | cons b bs =>
    unfold gradHid at h
    split at h
    · rename_i cl cr hcl hcr
      cases h
      have hr := ih bs false off (off + l.W.length) cr l.W.length hcr hrest (by omega) (by simp)
        (by simp)
      have hsh := gradLayer_shape hcl hl.1
      have hval : ∀ r ∈ cl,
          (placeRow first xs n offPrev off r).val x s z
            = r.val (if first then x else (s.drop offPrev).take l.inF) (s.drop off) (z.drop off) := by
        intro r hr
        obtain ⟨h1, h2, h3⟩ := hsh r hr
        simp only [LRow.val, placeRow]
        rw [dot_setSlice_zeros _ _ _ _ (by omega)]
        cases first with
        | true =>
          simp only [if_true]
          rw [dot_setSlice_zeros _ _ _ _ (by omega)]
        | false =>
          have ho := hf2 rfl
          rw [← h1] at ho
          simp only [Bool.false_eq_true, if_false, dot_zeros_left, zero_add]
          rw [← ho, dot_setSlice2 _ _ _ _ _ (by omega), dot_take_of_length _ _ _ (by omega)]
      simp only [List.mem_append, or_imp, forall_and, List.forall_mem_map]
      have q1 : (∀ r ∈ cl, (placeRow first xs n offPrev off r).val x s z
          ≤ (placeRow first xs n offPrev off r).rhs) ↔ ∀ r ∈ cl,
          r.val (if first then x else (s.drop offPrev).take l.inF) (s.drop off) (z.drop off)
            ≤ r.rhs := by
        refine forall_congr' fun r => imp_congr_right fun hr => ?_
        rw [hval r hr]; rfl
      rw [q1, gradLayer_holds hcl (isBin_drop hz off), hr, GradChain]
      simp only [Bool.false_eq_true, if_false, List.drop_drop]
    · cases h

/-- The values `W_i z_i` of a piece in direction `v`, layer by layer. -/
def dirPre : List (Lin K × Act K) → List (List Bool) → Vec K → List (Vec K)
  | (l, a) :: hs, p :: ps, v =>
    matVec l.W v :: dirPre hs ps (List.zipWith (fun b y => a.gain b * y) p (matVec l.W v))
  | _, _, _ => []

/-- The values `z_{i+1}`, layer by layer. -/
def dirPost : List (Lin K × Act K) → List (List Bool) → Vec K → List (Vec K)
  | (l, a) :: hs, p :: ps, v =>
    List.zipWith (fun b y => a.gain b * y) p (matVec l.W v)
      :: dirPost hs ps (List.zipWith (fun b y => a.gain b * y) p (matVec l.W v))
  | _, _, _ => []

/-- The bounds contain the values of the piece (units with slope 1 do not need them). -/
def WzOk : List (Lin K × Act K) → List (Vec K × Vec K) → List (Vec K) → Prop
  | (l, a) :: hs, b :: bs, u :: us =>
    (∀ j, j < l.W.length → a = .leaky 1 ∨
      b.1.getD j 0 ≤ u.getD j 0 ∧ u.getD j 0 ≤ b.2.getD j 0) ∧ WzOk hs bs us
  | _, _, _ => True

theorem length_dirPost {hs : List (Lin K × Act K)} {pat : List (List Bool)} (h : PatFits hs pat)
    (v : Vec K) : (dirPost hs pat v).flatten.length = numUnits hs := by
  induction h generalizing v with
  | nil => rfl
  | @cons p q ps qs hpq _ ih =>
    obtain ⟨l, a⟩ := q
    have hpq : p.length = l.W.length := hpq
    simp [dirPost, numUnits, ih, hpq]

theorem patVec_cons (p : List Bool) (ps : List (List Bool)) :
    (patVec (p :: ps) : Vec K) = p.map (fun u => if u then 1 else 0) ++ patVec ps := by
  simp [patVec]

theorem getD_lt {α : Type*} {l : List α} {j : ℕ} {d : α} (h : j < l.length) : l.getD j d = l[j] := by
  simp [List.getD, h]

theorem getD_gain (a : Act K) (p : List Bool) (y : Vec K) (j : ℕ) (h1 : j < p.length)
    (h2 : j < y.length) : (List.zipWith (fun b y => a.gain b * y) p y).getD j 0
      = a.gain p[j] * y.getD j 0 := by
  have h3 : j < (List.zipWith (fun b y => a.gain b * y) p y).length := by
    rw [List.length_zipWith]; omega
  rw [getD_lt h3, getD_lt h2, List.getElem_zipWith]

theorem gradChain_iff {m : ℕ} : ∀ (hs : List (Lin K × Act K)) (bs : List (Vec K × Vec K))
    (pat : List (List Bool)) (k : ℕ) (v s : Vec K), HidOk k hs m → PatFits hs pat →
    bs.length = hs.length → s.length = numUnits hs →
    (GradChain hs bs v s (patVec pat) ↔
      s = (dirPost hs pat v).flatten ∧ WzOk hs bs (dirPre hs pat v)) := by
  intro hs
  induction hs with
  | nil =>
    intro bs pat k v s _ hp hb hs
    have : s = [] := List.eq_nil_of_length_eq_zero hs
    cases hp
    simp [GradChain, this, dirPost, WzOk]
  | cons q hs ih =>
    obtain ⟨l, a⟩ := q
    intro bs pat k v s hok hp hb hlen
    obtain ⟨hk, hl, hrest⟩ := hok
    cases hp with
    | @cons p _ ps _ hpq hps =>
    have hpq : p.length = l.W.length := hpq
    cases bs with
    | nil => simp at hb
    | cons b bs =>
    simp only [numUnits] at hlen
    simp only [GradChain, dirPost, dirPre, WzOk, List.flatten_cons]
    have hd : (patVec (p :: ps) : Vec K).drop l.W.length = patVec ps := by
      rw [patVec_cons, List.drop_left' (by simp [hpq])]
    rw [hd, ih bs ps _ _ _ hrest hps (by simpa using hb) (by simp; omega)]
    have hz : ∀ j, j < l.W.length →
        (patVec (p :: ps) : Vec K).getD j 0 = if p.getD j false then 1 else 0 := by
      intro j hj
      rw [patVec_cons, getD_append_lt _ _ _ _ (by simp [hpq, hj])]
      have hj' : j < p.length := by omega
      simp [List.getD, hj']
    have hgz : ∀ j, j < l.W.length →
        (List.zipWith (fun b y => a.gain b * y) p (matVec l.W v)).getD j 0
          = if (patVec (p :: ps) : Vec K).getD j 0 = 1 then dot (l.W.getD j []) v
            else a.slope * dot (l.W.getD j []) v := by
      intro j hj
      rw [hz j hj]
      have hj' : j < p.length := by omega
      have e : (List.zipWith (fun b y => a.gain b * y) p (matVec l.W v)).getD j 0
          = a.gain (p.getD j false) * (matVec l.W v).getD j 0 := by
        have hj2 : j < (matVec l.W v).length := by simpa using hj
        rw [getD_gain _ _ _ _ hj' hj2, getD_lt hj']
      rw [e, getD_matVec]
      cases p.getD j false <;> simp [Act.gain]
    have h3 : (∀ j, j < l.W.length → GradUnit a (b.1.getD j 0) (b.2.getD j 0)
        (dot (l.W.getD j []) v) (s.getD j 0) ((patVec (p :: ps) : Vec K).getD j 0)) ↔
        s.take l.W.length = List.zipWith (fun b y => a.gain b * y) p (matVec l.W v) ∧
        ∀ j, j < l.W.length → a = .leaky 1 ∨ b.1.getD j 0 ≤ (matVec l.W v).getD j 0 ∧
          (matVec l.W v).getD j 0 ≤ b.2.getD j 0 := by
      constructor
      · intro h
        refine ⟨vec_ext (by simp [hpq]; omega) fun i hi => ?_, fun j hj => ?_⟩
        · have hi : i < l.W.length := by simp at hi; omega
          rw [getD_take _ _ _ hi, hgz i hi]
          exact (h i hi).1
        · rw [getD_matVec]; exact (h j hj).2
      · rintro ⟨h, h'⟩ j hj
        refine ⟨?_, ?_⟩
        · rw [← hgz j hj, ← h, getD_take _ _ _ hj]
        · have := h' j hj
          rwa [getD_matVec] at this
    rw [h3]
    constructor
    · rintro ⟨⟨a1, a2⟩, a3, a4⟩
      rw [a1] at a3 a4
      refine ⟨?_, a2, a4⟩
      rw [← a3, ← a1, List.take_append_drop]
    · rintro ⟨a1, a2, a3⟩
      have hzl : (List.zipWith (fun b y => a.gain b * y) p (matVec l.W v)).length = l.W.length := by
        simp [hpq]
      have b1 : s.take l.W.length = List.zipWith (fun b y => a.gain b * y) p (matVec l.W v) := by
        rw [a1, List.take_left' hzl]
      have b2 : s.drop l.W.length = (dirPost hs ps
          (List.zipWith (fun b y => a.gain b * y) p (matVec l.W v))).flatten := by
        rw [a1, List.drop_left' hzl]
      rw [b1]
      exact ⟨⟨rfl, a2⟩, b2, a3⟩

theorem drop_lastOff_dir {hs : List (Lin K × Act K)} {pat : List (List Bool)} (h : PatFits hs pat)
    (hne : hs ≠ []) (v : Vec K) :
    (dirPost hs pat v).flatten.drop (lastOff hs) = dirHid hs pat v := by
  induction h generalizing v with
  | nil => exact absurd rfl hne
  | @cons p q ps qs hpq hrest ih =>
    obtain ⟨l, a⟩ := q
    have hpq : p.length = l.W.length := hpq
    cases qs with
    | nil => cases hrest; simp [dirPost, lastOff, dirHid]
    | cons q2 qs =>
      have e : lastOff ((l, a) :: q2 :: qs) = l.W.length + lastOff (q2 :: qs) := rfl
      rw [e, dirPost, List.flatten_cons, ← List.drop_drop, List.drop_left' (by simp [hpq]),
        ih (by simp)]
      rfl

/-! ### Interval bounds -/

theorem wzRow_sound : ∀ (w lo up v : Vec K), InBox lo up v → w.length = v.length →
    (wzRow w lo up).1 ≤ dot w v ∧ dot w v ≤ (wzRow w lo up).2 := by
  intro w
  induction w with
  | nil => intro lo up v _ _; simp [wzRow]
  | cons c w ih =>
    intro lo up v h hl
    cases v with
    | nil => simp at hl
    | cons a v => cases lo with
      | nil => have := h.1; simp at this
      | cons l lo => cases up with
        | nil => have := h.2.1; simp at this
        | cons u up =>
          obtain ⟨⟨h1, h2⟩, h3⟩ := (inBox_cons _ _ _ _ _ _).1 h
          obtain ⟨i1, i2⟩ := ih lo up v h3 (by simpa using hl)
          simp only [wzRow, List.zip_cons_cons, List.zipWith_cons_cons, List.sum_cons,
            dot_cons] at i1 i2 ⊢
          split
          · rename_i hc
            exact ⟨add_le_add (mul_le_mul_of_nonneg_left h1 hc.le) i1,
              add_le_add (mul_le_mul_of_nonneg_left h2 hc.le) i2⟩
          · rename_i hc
            have hc := not_lt.1 hc
            exact ⟨add_le_add (mul_le_mul_of_nonpos_left h2 hc) i1,
              add_le_add (mul_le_mul_of_nonpos_left h1 hc) i2⟩

theorem zNext_sound {a : Act K} {lo up p zl zu : K} (h : zNext a lo up = some (zl, zu)) (h1 : lo ≤ p)
    (h2 : p ≤ up) (b : Bool) : zl ≤ a.gain b * p ∧ a.gain b * p ≤ zu := by
  cases a with
  | relu =>
    simp only [zNext, Option.some.injEq, Prod.mk.injEq] at h
    obtain ⟨rfl, rfl⟩ := h
    cases b
    · simp [Act.gain, Act.slope]
    · simp [Act.gain, h1, h2]
  | leaky c =>
    simp only [zNext] at h
    split at h
    · rename_i hc
      cases h
      have e1 := mul_le_mul_of_nonneg_left h1 hc
      have e2 := mul_le_mul_of_nonneg_left h2 hc
      cases b
      · simp [Act.gain, Act.slope, e1, e2]
      · simp [Act.gain, h1, h2]
    · cases h

theorem wzBoundsIA_sound {m : ℕ} : ∀ (hs : List (Lin K × Act K)) (pat : List (List Bool)) (k : ℕ)
    (lo up v : Vec K) (bs : List (Vec K × Vec K)), HidOk k hs m → PatFits hs pat →
    wzBoundsIA hs lo up = some bs → InBox lo up v → v.length = k →
    bs.length = hs.length ∧ WzOk hs bs (dirPre hs pat v) := by
  intro hs
  induction hs with
  | nil =>
    intro pat k lo up v bs _ hp hb _ _
    cases hb; cases hp
    simp [WzOk]
  | cons q hs ih =>
    obtain ⟨l, a⟩ := q
    intro pat k lo up v bs hok hp hb hx hv
    obtain ⟨hk, hl, hrest⟩ := hok
    cases hp with
    | @cons p _ ps _ hpq hps =>
    have hpq : p.length = l.W.length := hpq
    unfold wzBoundsIA at hb
    simp only at hb
    obtain ⟨zn, hzn, hb⟩ := Option.bind_eq_some_iff.1 hb
    obtain ⟨r, hr, hb⟩ := Option.map_eq_some_iff.1 hb
    subst hb
    have hcol := collect_eq _ _ hzn
    have hlen : zn.length = l.W.length := by
      have := congrArg List.length hcol
      simpa using this.symm
    have hrow : ∀ j, j < l.W.length → (wzRow (l.W.getD j []) lo up).1 ≤ dot (l.W.getD j []) v ∧
        dot (l.W.getD j []) v ≤ (wzRow (l.W.getD j []) lo up).2 := by
      intro j hj
      apply wzRow_sound _ _ _ _ hx
      have : l.W.getD j [] = l.W[j] := by simp [List.getD, hj]
      rw [this, hl.1 _ (List.getElem_mem hj), hk, hv]
    have hbox : InBox (zn.map Prod.fst) (zn.map Prod.snd)
        (List.zipWith (fun b y => a.gain b * y) p (matVec l.W v)) := by
      refine ⟨by simp [hlen, hpq], by simp [hlen, hpq], fun j hj => ?_⟩
      have hj : j < l.W.length := by simp [hpq] at hj; omega
      have hj2 : j < zn.length := by omega
      have hj3 : j < p.length := by omega
      have e1 : zNext a (wzRow (l.W.getD j []) lo up).1 (wzRow (l.W.getD j []) lo up).2
          = some (zn[j].1, zn[j].2) := by
        have := congrArg (fun t => t[j]?) hcol
        simpa [List.getD, hj, hj2] using this
      have e2 : (List.zipWith (fun b y => a.gain b * y) p (matVec l.W v)).getD j 0
          = a.gain p[j] * dot (l.W.getD j []) v := by
        rw [← getD_matVec]
        have hj4 : j < (matVec l.W v).length := by simpa using hj
        exact getD_gain _ _ _ _ hj3 hj4
      have e3 : (zn.map Prod.fst).getD j 0 = zn[j].1 := by simp [List.getD, hj2]
      have e4 : (zn.map Prod.snd).getD j 0 = zn[j].2 := by simp [List.getD, hj2]
      rw [e2, e3, e4]
      exact zNext_sound e1 (hrow j hj).1 (hrow j hj).2 _
    obtain ⟨i1, i2⟩ := ih ps _ _ _ _ r hrest hps hr hbox (by simp [hpq])
    refine ⟨by simp [i1], ?_⟩
    simp only [dirPre, WzOk]
    refine ⟨fun j hj => Or.inr ?_, i2⟩
    have e3 : ((l.W.map fun w => wzRow w lo up).map Prod.fst).getD j 0
        = (wzRow (l.W.getD j []) lo up).1 := by simp [List.getD, hj]
    have e4 : ((l.W.map fun w => wzRow w lo up).map Prod.snd).getD j 0
        = (wzRow (l.W.getD j []) lo up).2 := by simp [List.getD, hj]
    rw [e3, e4, getD_matVec]
    exact hrow j hj

/-! ### The whole constraint set -/

theorem gradTimesVecBounds_feas {net : Net K} {xs : ℕ} {wz : List (Vec K × Vec K)} {c : MIC K}
    {v s : Vec K} {pat : List (List Bool)} (h : gradTimesVecBounds net xs wz = some c)
    (hok : net.Ok xs) (hwz : wz.length = net.hidden.length) (hp : PatFits net.hidden pat) :
    c.Feas v s (patVec pat) ↔
      s = (dirPost net.hidden pat v).flatten ∧ WzOk net.hidden wz (dirPre net.hidden pat v) := by
  have hbin : IsBin (patVec pat : Vec K) := by
    intro b hb
    obtain ⟨u, _, rfl⟩ := List.mem_map.1 hb
    cases u <;> simp
  have hpl : (patVec pat : Vec K).length = numUnits net.hidden := by
    have : ∀ (hs : List (Lin K × Act K)) (pat : List (List Bool)), PatFits hs pat →
        (patVec pat : Vec K).length = numUnits hs := by
      intro hs pat h
      induction h with
      | nil => rfl
      | @cons p q ps qs hpq _ ih =>
        obtain ⟨l, a⟩ := q
        have hpq : p.length = l.W.length := hpq
        rw [patVec_cons, List.length_append, ih, List.length_map, hpq]; rfl
    exact this _ _ hp
  unfold gradTimesVecBounds at h
  simp only at h
  split at h
  · cases h
  · cases h
  · rename_i p ps rows hne hrows
    cases h
    have hb := gradHid_holds (x := v) (s := s) hbin net.hidden wz true 0 0 rows xs hrows
        hok.1 (by omega) (by simp) (by simp)
    simp only [if_true, List.drop_zero] at hb
    have hrow : MIC.Holds
      { Aout_slack := some ⟨numUnits net.hidden, net.last.W.map fun w =>
          setSlice (zeros (numUnits net.hidden)) (lastOff net.hidden) w⟩
        Ain_input := rowsTensor xs LRow.x rows
        Ain_slack := rowsTensor (numUnits net.hidden) LRow.s rows
        Ain_binary := rowsTensor (numUnits net.hidden) LRow.z rows
        rhs_in := some (rows.map LRow.rhs) } v s (patVec pat) ↔
        GradChain net.hidden wz v s (patVec pat) := by
      rw [← hb]
      simp only [MIC.Holds, MIC.ineqRows, MIC.eqRows]
      rw [forall_rowsTensor xs (numUnits net.hidden) (numUnits net.hidden) _ (· ≤ ·) v s _]
      simp [blockRows]
    constructor
    · rintro ⟨ls, lz, bz, hr, -⟩
      exact (gradChain_iff _ _ _ _ _ _ hok.1 hp hwz ls).1 (hrow.1 hr)
    · rintro ⟨h3, h4⟩
      have ls : s.length = numUnits net.hidden := by rw [h3, length_dirPost hp]
      exact ⟨ls, hpl, hbin, hrow.2 ((gradChain_iff _ _ _ _ _ _ hok.1 hp hwz ls).2 ⟨h3, h4⟩),
        by simp [MIC.BoundsHold, LoOk, UpOk]⟩

theorem gradTimesVecBounds_out {net : Net K} {xs : ℕ} {wz : List (Vec K × Vec K)} {c : MIC K}
    {v z : Vec K} {pat : List (List Bool)} (h : gradTimesVecBounds net xs wz = some c)
    (hok : net.Ok xs) (hp : PatFits net.hidden pat) :
    c.out v (dirPost net.hidden pat v).flatten z = net.dir pat v := by
  unfold gradTimesVecBounds at h
  simp only at h
  split at h
  · cases h
  · cases h
  · rename_i p ps co hne hco
    have hne' : net.hidden ≠ [] := by rw [hne]; simp
    cases h
    apply vec_ext
    · simp [MIC.out, MIC.numOut, Net.dir]
    · intro i hi
      have hi' : i < net.last.W.length := by simpa [MIC.out, MIC.numOut] using hi
      have hw : (net.last.W.getD i []).length = net.last.inF := by
        have e : net.last.W.getD i [] = net.last.W[i] := by simp [List.getD, hi']
        rw [e]; exact hok.2.1 _ (List.getElem_mem hi')
      have e1 : (net.last.W.map fun w => setSlice (zeros (numUnits net.hidden))
          (lastOff net.hidden) w).getD i []
          = setSlice (zeros (numUnits net.hidden)) (lastOff net.hidden) (net.last.W.getD i []) := by
        simp [List.getD, hi']
      have e2 : (MIC.out
          { Aout_slack := some ⟨numUnits net.hidden, net.last.W.map fun w =>
              setSlice (zeros (numUnits net.hidden)) (lastOff net.hidden) w⟩ } v
            (dirPost net.hidden pat v).flatten z).getD i 0
          = dot (net.last.W.getD i []) (dirHid net.hidden pat v) := by
        simp only [MIC.out, MIC.numOut, List.length_map]
        rw [show ∀ f : ℕ → K, ((List.range net.last.W.length).map f).getD i 0 = f i from
          fun f => by simp [List.getD, hi']]
        simp only [mrow_none, dot_nil_left, zero_add, add_zero, mrow_some, Option.getD_none,
          List.getD_nil]
        rw [e1, dot_setSlice_zeros _ _ _ _ (by rw [hw]; exact (lastOff_add hok.1 hne').le),
          drop_lastOff_dir hp hne']
      rw [Net.dir, getD_matVec, ← e2]
      rfl

end NNL.Model
