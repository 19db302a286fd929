import Verif.Model.Saturation
import Verif.Lemmas.MipStep
import Verif.Props.ScalarEnc

/-!
# C07: the saturation block
-/

set_option linter.unusedSectionVars false

namespace NNL.Props

open NNL NNL.Model NNL.Spec

variable {K : Type*} [Field K] [LinearOrder K] [IsStrictOrderedRing K]

theorem colT_rows_getD (a : Vec K) (i : ℕ) (hi : i < a.length) : (colT a).rows.getD i [] = [a.getD i 0] := by
  simp [colT, List.getD, hi]

theorem cols3_addMConstr (m : Mip K) (hw : m.WF) (a b c rhs : Vec K) (i j k : ℕ)
    (ha : a.length = rhs.length) (hb : b.length = rhs.length) (hc : c.length = rhs.length)
    (hi : i < m.n) (hj : j < m.n) (hk : k < m.n) :
    ∃ m', m.addMConstr [colT a, colT b, colT c] [[i], [j], [k]] .le rhs = some m' ∧
      Step m m' 0 fun v => ∀ t, t < rhs.length →
        a.getD t 0 * v i + b.getD t 0 * v j + c.getD t 0 * v k ≤ rhs.getD t 0 := by
  obtain ⟨m', h⟩ := addMConstr_isSome m (A := [colT a, colT b, colT c]) (x := [[i], [j], [k]])
    (sense := .le) (b := rhs) rfl (by simp) (by simp [colT, ha, hb, hc]) (by simp [colT])
    (by simp [hi, hj, hk])
  refine ⟨m', h, (step_addMConstr h hw).congr rfl fun v => ?_⟩
  refine forall_congr' fun t => forall_congr' fun ht => ?_
  rw [catRow_cons, catRow_cons, catRow_cons, catRow_nil, colT_rows_getD _ _ (by omega),
    colT_rows_getD _ _ (by omega), colT_rows_getD _ _ (by omega)]
  simp only [Sense.Rel, List.flatten_cons, List.flatten_nil, List.cons_append, List.nil_append,
    List.append_nil, List.map_cons, List.map_nil, dot_cons, dot_nil_left, add_zero, add_assoc]

theorem replaceRelu_lens {lo up : K} {R : Rows K} (h : replaceRelu lo up = some R) :
    R.Ax.length = 4 ∧ R.As.length = 4 ∧ R.Aa.length = 4 ∧ R.rhs.length = 4 := by
  unfold replaceRelu at h
  split_ifs at h
  simp at h
  subst h
  simp

theorem getD_vadd (a b : Vec K) (i : ℕ) (h : a.length = b.length) :
    (vadd a b).getD i 0 = a.getD i 0 + b.getD i 0 := by
  by_cases hi : i < a.length
  · have hb : i < b.length := by omega
    simp [vadd, List.getD, hi, hb]
  · have hb : ¬ i < b.length := by omega
    simp [vadd, List.getD, hi, hb]
theorem getD_vsub (a b : Vec K) (i : ℕ) (h : a.length = b.length) :
    (vsub a b).getD i 0 = a.getD i 0 - b.getD i 0 := by
  by_cases hi : i < a.length
  · have hb : i < b.length := by omega
    simp [vsub, List.getD, hi, hb]
  · have hb : ¬ i < b.length := by omega
    simp [vsub, List.getD, hi, hb]
theorem getD_vneg (a : Vec K) (i : ℕ) : (vneg a).getD i 0 = - a.getD i 0 := by
  by_cases hi : i < a.length <;> simp [vneg, List.getD, hi]
theorem getD_vsmul (c : K) (a : Vec K) (i : ℕ) : (vsmul c a).getD i 0 = c * a.getD i 0 := by
  by_cases hi : i < a.length <;> simp [vsmul, List.getD, hi]

theorem lowerRows_step (m : Mip K) (hw : m.WF) {a b : K} {R : Rows K} (hR : replaceRelu a b = some R)
    (x y beta : ℕ) (lower : K) (hx : x < m.n) (hy : y < m.n) (hb : beta < m.n) :
    ∃ m', m.addLowerRows R x y beta lower = some m' ∧
      Step m m' 0 fun v => R.Holds (v x - lower) (v y - lower) (1 - v beta) := by
  obtain ⟨l1, l2, l3, l4⟩ := replaceRelu_lens hR
  have lr : (vadd (vsub R.rhs R.Aa) (vsmul lower (vadd R.Ax R.As))).length = 4 := by simp [l1, l2, l3, l4]
  obtain ⟨m', h, hs⟩ := cols3_addMConstr m hw R.Ax R.As (vneg R.Aa)
    (vadd (vsub R.rhs R.Aa) (vsmul lower (vadd R.Ax R.As))) x y beta (by rw [lr, l1]) (by rw [lr, l2])
    (by rw [lr, length_vneg, l3]) hx hy hb
  refine ⟨m', h, hs.congr rfl fun v => ?_⟩
  unfold Rows.Holds
  rw [lr, l4]
  refine forall_congr' fun t => forall_congr' fun _ => ?_
  rw [getD_vadd _ _ _ (by simp [l1, l2, l3, l4]), getD_vsub _ _ _ (by rw [l3, l4]), getD_vsmul,
    getD_vadd _ _ _ (by rw [l1, l2]), getD_vneg]
  constructor <;> intro h <;> nlinarith

theorem upperRows_step (m : Mip K) (hw : m.WF) {a b : K} {R : Rows K} (hR : replaceRelu a b = some R)
    (x y beta : ℕ) (upper : K) (hx : x < m.n) (hy : y < m.n) (hb : beta < m.n) :
    ∃ m', m.addUpperRows R x y beta upper = some m' ∧
      Step m m' 0 fun v => R.Holds (upper - v x) (upper - v y) (1 - v beta) := by
  obtain ⟨l1, l2, l3, l4⟩ := replaceRelu_lens hR
  have lr : (vsub (vsub R.rhs R.Aa) (vsmul upper (vadd R.Ax R.As))).length = 4 := by simp [l1, l2, l3, l4]
  obtain ⟨m', h, hs⟩ := cols3_addMConstr m hw (vneg R.Ax) (vneg R.As) (vneg R.Aa)
    (vsub (vsub R.rhs R.Aa) (vsmul upper (vadd R.Ax R.As))) x y beta (by rw [lr, length_vneg, l1])
    (by rw [lr, length_vneg, l2]) (by rw [lr, length_vneg, l3]) hx hy hb
  refine ⟨m', h, hs.congr rfl fun v => ?_⟩
  unfold Rows.Holds
  rw [lr, l4]
  refine forall_congr' fun t => forall_congr' fun _ => ?_
  rw [getD_vsub _ _ _ (by simp [l1, l2, l3, l4]), getD_vsub _ _ _ (by rw [l3, l4]), getD_vsmul,
    getD_vadd _ _ _ (by rw [l1, l2]), getD_vneg, getD_vneg, getD_vneg]
  constructor <;> intro h <;> nlinarith

/-- What the docstring says about the returned binaries: none when the block is linear on the input
range, `[b_lower]`, `[b_upper]` or `[b_lower, b_upper]` according to the limits that the range crosses, and
each binary tells whether its limit is active. -/
def SatBinaries (lower upper lo up : K) (bs : List ℕ) (x : K) (v : ℕ → K) : Prop :=
  let low := fun b => (v b = 1 ∧ x ≤ lower) ∨ (v b = 0 ∧ lower ≤ x)
  let upp := fun b => (v b = 1 ∧ upper ≤ x) ∨ (v b = 0 ∧ x ≤ upper)
  if up ≤ lower ∨ upper ≤ lo ∨ (lower ≤ lo ∧ up ≤ upper) then bs = []
  else if up ≤ upper then ∃ b, bs = [b] ∧ low b
  else if lower ≤ lo then ∃ b, bs = [b] ∧ upp b
  else ∃ b c, bs = [b, c] ∧ low b ∧ upp c

theorem clamp_relu_lower {lower upper x y : K} (_h : lower ≤ upper) (hx : x ≤ upper) :
    y - lower = relu (x - lower) ↔ y = clamp lower upper x := by
  unfold relu clamp
  rw [min_eq_left hx]
  rcases le_total x lower with h1 | h1
  · rw [max_eq_right (by linarith), max_eq_left h1]
    constructor <;> intro h <;> linarith
  · rw [max_eq_left (by linarith), max_eq_right h1]
    constructor <;> intro h <;> linarith

theorem clamp_relu_upper {lower upper x y : K} (h : lower ≤ upper) (hx : lower ≤ x) :
    upper - y = relu (upper - x) ↔ y = clamp lower upper x := by
  unfold relu clamp
  rcases le_total x upper with h1 | h1
  · rw [max_eq_left (by linarith), min_eq_left h1, max_eq_right hx]
    constructor <;> intro h <;> linarith
  · rw [max_eq_right (by linarith), min_eq_right h1, max_eq_right h]
    constructor <;> intro h <;> linarith

theorem getElem_range' (a n k : ℕ) (h : k < n) : (List.range' a n).getD k 0 = a + k := by
  simp [List.getD, h]

/-- The claim for one branch. -/
def SatGood (m : Mip K) (x y : ℕ) (lower upper lo up : K) : Prop :=
    ∃ m' bs, m.addSaturation x y lower upper lo up .binary = some (m', bs) ∧ m'.WF ∧
      (∀ b ∈ bs, m.n ≤ b ∧ b < m'.n) ∧
      (∀ v, m'.Feas v → lo ≤ v x → v x ≤ up →
        m.Feas v ∧ v y = clamp lower upper (v x) ∧ SatBinaries lower upper lo up bs (v x) v) ∧
      ∀ v, m.Feas v → lo ≤ v x → v x ≤ up → v y = clamp lower upper (v x) →
        ∃ v', (∀ i, i < m.n → v' i = v i) ∧ m'.Feas v'

theorem sat_both (m : Mip K) (hw : m.WF) (x y : ℕ) (hx : x < m.n) (hy : y < m.n)
    (lower upper lo up : K) (hl : lower ≤ upper) (c1 : ¬ up ≤ lower) (c2 : ¬ lo ≥ upper)
    (d1 : lo < lower) (d2 : upper < up) : SatGood m x y lower upper lo up := by
  unfold SatGood Mip.addSaturation
  obtain ⟨R1, hR1⟩ := Option.isSome_iff_exists.1 ((C02_relu_accepts (lo - lower) (up - lower)).2
    ⟨by linarith, by linarith⟩)
  obtain ⟨R2, hR2⟩ := Option.isSome_iff_exists.1 ((C02_relu_accepts (upper - up) (upper - lo)).2
    ⟨by linarith, by linarith⟩)
  obtain ⟨m1, h1, s1⟩ := free_addVars m hw 1
  have n1 := s1.n
  obtain ⟨m2, h2, s2⟩ := binary_addVars m1 s1.wf 2
  have n2 := s2.n
  obtain ⟨m3, h3⟩ := addLConstr_isSome m2 s2.wf [[1, 1]] [List.range' m1.n 2] .le 1 rfl (by simp)
    (by simp [List.nodup_range']) (by rw [n2]; simp)
  have s3 := step_addLConstr h3 s2.wf
  have n3 := s3.n
  obtain ⟨m4, h4, s4⟩ := lowerRows_step m3 s3.wf hR1 x m.n m1.n lower (by omega) (by omega) (by omega)
  have n4 := s4.n
  obtain ⟨m5, h5, s5⟩ := upperRows_step m4 s4.wf hR2 m.n y (m1.n + 1) upper (by omega) (by omega)
    (by omega)
  have hs := (((s1.trans s2).trans s3).trans s4).trans s5
  have hn1 : m1.n = m.n + 1 := n1
  have hf : ∀ v, m5.Feas v ↔ m.Feas v ∧ ((v (m.n + 1) = 0 ∨ v (m.n + 1) = 1) ∧
      (v (m.n + 2) = 0 ∨ v (m.n + 2) = 1)) ∧ v (m.n + 1) + v (m.n + 2) ≤ 1 ∧
      R1.Holds (v x - lower) (v m.n - lower) (1 - v (m.n + 1)) ∧
      R2.Holds (upper - v m.n) (upper - v y) (1 - v (m.n + 2)) := by
    intro v
    rw [hs.feas, hn1]
    simp only [IsBin, List.range', Sense.Rel, List.map_cons, List.map_nil, List.forall_mem_cons,
      List.flatten_cons, List.flatten_nil, List.append_nil, dot_cons, dot_nil_left, one_mul, add_zero,
      List.not_mem_nil, false_implies, implies_true, and_true, true_and, and_assoc]
  have c2' : ¬ upper ≤ lo := c2
  have c4' : ¬ up ≤ upper := not_le.2 d2
  have c5' : ¬ lower ≤ lo := not_le.2 d1
  refine ⟨m5, [m.n + 1, m.n + 2], ?_, s5.wf, by have := hs.n; simp; omega, ?_, ?_⟩
  · rw [hn1] at h2 h3 h4 h5
    simp [List.range'] at h2 h3
    simp [c1, c2', c4', c5', h1, h2, h3, hR1, hR2, h4, h5]
  · intro v hv hlo hup
    rw [hf] at hv
    obtain ⟨a, ⟨b1, b2⟩, bs, e1, e2⟩ := hv
    have hb1 : 1 - v (m.n + 1) = 0 ∨ 1 - v (m.n + 1) = 1 := by
      rcases b1 with b | b <;> rw [b] <;> simp
    have hb2 : 1 - v (m.n + 2) = 0 ∨ 1 - v (m.n + 2) = 1 := by
      rcases b2 with b | b <;> rw [b] <;> simp
    rw [C02_relu_exact _ _ _ _ _ R1 hR1 hb1] at e1
    rw [C02_relu_exact _ _ _ _ _ R2 hR2 hb2] at e2
    obtain ⟨_, f1, f2, f3⟩ := e1
    obtain ⟨_, g1, g2, g3⟩ := e2
    have hz : v m.n = max (v x) lower := by
      rcases le_total (v x) lower with h | h
      · rw [relu, max_eq_right (by linarith)] at f1
        rw [max_eq_right h]; linarith
      · rw [relu, max_eq_left (by linarith)] at f1
        rw [max_eq_left h]; linarith
    have hy' : v y = clamp lower upper (v x) := by
      rw [clamp_relu_upper hl (by rw [hz]; exact le_max_right _ _)] at g1
      rw [g1, hz, clamp, clamp]
      rcases le_total (v x) lower with h | h
      · rw [max_eq_right h, min_eq_left hl, min_eq_left (h.trans hl), max_self, max_eq_left h]
      · rw [max_eq_left h]
    refine ⟨a, hy', ?_⟩
    simp only [SatBinaries, c1, c2', c4', c5', and_false, or_self, if_false]
    refine ⟨m.n + 1, m.n + 2, rfl, ?_, ?_⟩
    · rcases b1 with b | b
      · right
        exact ⟨b, by have := f2 (by rw [b]; simp); linarith⟩
      · left
        exact ⟨b, by have := f3 (by rw [b]; simp); linarith⟩
    · rcases b2 with b | b
      · right
        refine ⟨b, ?_⟩
        have := g2 (by rw [b]; simp)
        have := le_max_left (v x) lower
        rw [← hz] at this
        linarith
      · left
        refine ⟨b, ?_⟩
        have h6 := g3 (by rw [b]; simp)
        have b0 : v (m.n + 1) = 0 := by
          rcases b1 with b' | b'
          · exact b'
          · rw [b, b'] at bs; linarith
        have h7 := f2 (by rw [b0]; simp)
        rw [relu, max_eq_left h7] at f1
        linarith
  · intro v hv hlo hup hcl
    have hxr : lo - lower ≤ v x - lower ∧ v x - lower ≤ up - lower := ⟨by linarith, by linarith⟩
    have key : ∃ z b1 b2 : K, (b1 = 0 ∨ b1 = 1) ∧ (b2 = 0 ∨ b2 = 1) ∧ b1 + b2 ≤ 1 ∧
        R1.Holds (v x - lower) (z - lower) (1 - b1) ∧ R2.Holds (upper - z) (upper - v y) (1 - b2) := by
      have H1 := fun z b hb => C02_relu_exact (lo - lower) (up - lower) (v x - lower) (z - lower) b R1
        hR1 hb
      have H2 := fun z b hb => C02_relu_exact (upper - up) (upper - lo) (upper - z) (upper - v y) b R2
        hR2 hb
      rcases le_total (v x) lower with h | h
      · refine ⟨lower, 1, 0, by simp, by simp, by simp, (H1 _ _ (by simp)).2 ⟨hxr, ?_, by simp, ?_⟩,
          (H2 _ _ (by simp)).2 ⟨⟨by linarith, by linarith⟩, ?_, ?_, by simp⟩⟩
        · rw [relu, max_eq_right (by linarith)]; ring
        · intro _; linarith
        · rw [hcl, clamp, max_eq_left ((min_le_left _ _).trans h), relu, max_eq_left (by linarith)]
        · intro _; linarith
      · rcases le_total (v x) upper with h' | h'
        · refine ⟨v x, 0, 0, by simp, by simp, by simp, (H1 _ _ (by simp)).2 ⟨hxr, ?_, ?_, by simp⟩,
            (H2 _ _ (by simp)).2 ⟨⟨by linarith, by linarith⟩, ?_, ?_, by simp⟩⟩
          · rw [relu, max_eq_left (by linarith)]
          · intro _; linarith
          · rw [hcl, clamp, min_eq_left h', max_eq_right h, relu, max_eq_left (by linarith)]
          · intro _; linarith
        · refine ⟨v x, 0, 1, by simp, by simp, by simp, (H1 _ _ (by simp)).2 ⟨hxr, ?_, ?_, by simp⟩,
            (H2 _ _ (by simp)).2 ⟨⟨by linarith, by linarith⟩, ?_, by simp, ?_⟩⟩
          · rw [relu, max_eq_left (by linarith)]
          · intro _; linarith
          · rw [hcl, clamp, min_eq_right h', max_eq_right hl, relu, max_eq_right (by linarith)]; ring
          · intro _; linarith
    obtain ⟨z, b1, b2, k1, k2, k3, k4, k5⟩ := key
    have e1 := upd_lt v m.n [z, b1, b2] x hx
    have e2 := upd_lt v m.n [z, b1, b2] y hy
    have e3 := upd_add v m.n [z, b1, b2] 0 (by simp)
    have e4 := upd_add v m.n [z, b1, b2] 1 (by simp)
    have e5 := upd_add v m.n [z, b1, b2] 2 (by simp)
    simp at e3 e4 e5
    refine ⟨upd v m.n [z, b1, b2], fun i hi => upd_lt _ _ _ _ hi, ?_⟩
    rw [hf, e1, e2, e3, e4, e5]
    exact ⟨(hw.feas_congr fun i hi => upd_lt _ _ _ _ hi).2 hv, ⟨k1, k2⟩, k3, k4, k5⟩

/-- **C07**. The block always returns; on inputs in `[lo, up]` the feasible points of the new program are
those of the old one with `y = clamp(x)` and with binaries that tell which limit is active, and every point
of the old program with `y = clamp(x)` extends to one. -/
theorem C07_saturation (m : Mip K) (hw : m.WF) (x y : ℕ) (hx : x < m.n) (hy : y < m.n) (hxy : x ≠ y)
    (lower upper lo up : K) (hl : lower ≤ upper) :
    ∃ m' bs, m.addSaturation x y lower upper lo up .binary = some (m', bs) ∧ m'.WF ∧
      (∀ b ∈ bs, m.n ≤ b ∧ b < m'.n) ∧
      (∀ v, m'.Feas v → lo ≤ v x → v x ≤ up →
        m.Feas v ∧ v y = clamp lower upper (v x) ∧ SatBinaries lower upper lo up bs (v x) v) ∧
      ∀ v, m.Feas v → lo ≤ v x → v x ≤ up → v y = clamp lower upper (v x) →
        ∃ v', (∀ i, i < m.n → v' i = v i) ∧ m'.Feas v' := by
  change SatGood m x y lower upper lo up
  by_cases c1 : up ≤ lower
  · obtain ⟨m', h⟩ := addLConstr_isSome m hw [[1]] [[y]] .eq lower rfl rfl (by simp) (by simpa using hy)
    have hs := step_addLConstr h hw
    refine ⟨m', [], by simp [Mip.addSaturation, c1, h], hs.wf, by simp, ?_, ?_⟩
    · intro v hv h1 h2
      rw [hs.feas] at hv
      simp [Sense.Rel] at hv
      refine ⟨hv.1, ?_, by simp [SatBinaries, c1]⟩
      rw [hv.2, clamp, max_eq_left]
      exact (min_le_left _ _).trans (h2.trans c1)
    · intro v hv h1 h2 h3
      refine ⟨v, fun _ _ => rfl, ?_⟩
      rw [hs.feas]
      simp [Sense.Rel]
      refine ⟨hv, ?_⟩
      rw [h3, clamp, max_eq_left]
      exact (min_le_left _ _).trans (h2.trans c1)
  by_cases c2 : lo ≥ upper
  · obtain ⟨m', h⟩ := addLConstr_isSome m hw [[1]] [[y]] .eq upper rfl rfl (by simp) (by simpa using hy)
    have hs := step_addLConstr h hw
    have e : ∀ z, lo ≤ z → clamp lower upper z = upper := by
      intro z hz
      rw [clamp, min_eq_right (le_trans c2 hz), max_eq_right hl]
    refine ⟨m', [], by simp [Mip.addSaturation, c1, c2, h], hs.wf, by simp, ?_, ?_⟩
    · intro v hv h1 h2
      rw [hs.feas] at hv
      simp [Sense.Rel] at hv
      exact ⟨hv.1, by rw [hv.2, e _ h1], by simp [SatBinaries, c2]⟩
    · intro v hv h1 h2 h3
      refine ⟨v, fun _ _ => rfl, ?_⟩
      rw [hs.feas]
      simp [Sense.Rel]
      exact ⟨hv, by rw [h3, e _ h1]⟩
  by_cases c3 : lo ≥ lower ∧ up ≤ upper
  · obtain ⟨m', h⟩ := addLConstr_isSome m hw [[1, -1]] [[x, y]] .eq 0 rfl rfl (by simp [hxy])
      (by simp [hx, hy])
    have hs := step_addLConstr h hw
    have e : ∀ z, lo ≤ z → z ≤ up → clamp lower upper z = z := by
      intro z hz hz'
      rw [clamp, min_eq_left (hz'.trans c3.2), max_eq_right (le_trans c3.1 hz)]
    refine ⟨m', [], by simp [Mip.addSaturation, c1, c2, c3, h], hs.wf, by simp, ?_, ?_⟩
    · intro v hv h1 h2
      rw [hs.feas] at hv
      simp [Sense.Rel] at hv
      refine ⟨hv.1, ?_, by simp [SatBinaries, c3]⟩
      rw [e _ h1 h2]
      linarith [hv.2]
    · intro v hv h1 h2 h3
      refine ⟨v, fun _ _ => rfl, ?_⟩
      rw [hs.feas]
      simp [Sense.Rel]
      refine ⟨hv, ?_⟩
      rw [h3, e _ h1 h2]
      ring
  by_cases c4 : lo < lower ∧ up ≤ upper
  · obtain ⟨R, hR⟩ := Option.isSome_iff_exists.1 ((C02_relu_accepts (lo - lower) (up - lower)).2
      ⟨by linarith [c4.1], by linarith [not_le.1 c1]⟩)
    obtain ⟨m1, h1, s1⟩ := binary_addVars m hw 1
    have n1 := s1.n
    obtain ⟨m2, h2, s2⟩ := lowerRows_step m1 s1.wf hR x y m.n lower (by omega) (by omega) (by omega)
    have hs := s1.trans s2
    have hf : ∀ v, m2.Feas v ↔ m.Feas v ∧ (v m.n = 0 ∨ v m.n = 1) ∧
        R.Holds (v x - lower) (v y - lower) (1 - v m.n) := by
      intro v
      rw [hs.feas]
      simp [IsBin]
    refine ⟨m2, [m.n], ?_, s2.wf, by have := hs.n; simp; omega, ?_, ?_⟩
    · have c2' : ¬ upper ≤ lo := c2
      simp [Mip.addSaturation, c1, c2', c4, hR, h1, h2]
    · intro v hv hlo hup
      rw [hf] at hv
      obtain ⟨a, b, c⟩ := hv
      have hb' : 1 - v m.n = 0 ∨ 1 - v m.n = 1 := by
        rcases b with b | b <;> rw [b] <;> simp
      rw [C02_relu_exact _ _ _ _ _ R hR hb'] at c
      obtain ⟨_, c5, c6, c7⟩ := c
      refine ⟨a, (clamp_relu_lower hl (hup.trans c4.2)).1 c5, ?_⟩
      have c3' : ¬ (lower ≤ lo) := not_le.2 c4.1
      have c2' : ¬ upper ≤ lo := c2
      simp only [SatBinaries, c1, c2', c3', c4.2, false_and, or_self, if_false, if_true]
      refine ⟨m.n, rfl, ?_⟩
      rcases b with b | b
      · right
        exact ⟨b, by have := c6 (by rw [b]; simp); linarith⟩
      · left
        exact ⟨b, by have := c7 (by rw [b]; simp); linarith⟩
    · intro v hv hlo hup hcl
      have hxr : lo - lower ≤ v x - lower ∧ v x - lower ≤ up - lower := ⟨by linarith, by linarith⟩
      obtain ⟨b, hb, hB⟩ := C02_relu_complete _ _ _ R hR hxr
      have e1 := upd_lt v m.n [1 - b] x hx
      have e2 := upd_lt v m.n [1 - b] y hy
      have e3 := upd_add v m.n [1 - b] 0 (by simp)
      simp at e3
      refine ⟨upd v m.n [1 - b], fun i hi => upd_lt _ _ _ _ hi, ?_⟩
      rw [hf, e1, e2, e3]
      refine ⟨(hw.feas_congr fun i hi => upd_lt _ _ _ _ hi).2 hv, ?_, ?_⟩
      · rcases hb with rfl | rfl <;> simp
      · rw [(clamp_relu_lower hl (hup.trans c4.2)).2 hcl]
        simpa using hB
  by_cases c5 : lo ≥ lower ∧ up > upper
  · obtain ⟨R, hR⟩ := Option.isSome_iff_exists.1 ((C02_relu_accepts (upper - up) (upper - lo)).2
      ⟨by linarith [c5.2], by linarith [not_le.1 c2]⟩)
    obtain ⟨m1, h1, s1⟩ := binary_addVars m hw 1
    have n1 := s1.n
    obtain ⟨m2, h2, s2⟩ := upperRows_step m1 s1.wf hR x y m.n upper (by omega) (by omega) (by omega)
    have hs := s1.trans s2
    have hf : ∀ v, m2.Feas v ↔ m.Feas v ∧ (v m.n = 0 ∨ v m.n = 1) ∧
        R.Holds (upper - v x) (upper - v y) (1 - v m.n) := by
      intro v
      rw [hs.feas]
      simp [IsBin]
    have c3' : ¬ (lower ≤ lo ∧ up ≤ upper) := c3
    have c2' : ¬ upper ≤ lo := c2
    have c6 : ¬ up ≤ upper := not_le.2 c5.2
    have c7 : lower ≤ lo := c5.1
    refine ⟨m2, [m.n], ?_, s2.wf, by have := hs.n; simp; omega, ?_, ?_⟩
    · have c8 : upper < up := c5.2
      simp [Mip.addSaturation, c1, c2', c6, c7, c8, hR, h1, h2]
    · intro v hv hlo hup
      rw [hf] at hv
      obtain ⟨a, b, c⟩ := hv
      have hb' : 1 - v m.n = 0 ∨ 1 - v m.n = 1 := by
        rcases b with b | b <;> rw [b] <;> simp
      rw [C02_relu_exact _ _ _ _ _ R hR hb'] at c
      obtain ⟨_, d5, d6, d7⟩ := c
      refine ⟨a, (clamp_relu_upper hl (le_trans c7 hlo)).1 d5, ?_⟩
      simp only [SatBinaries, c1, c2', c6, c7, and_false, or_self, if_false, if_true]
      refine ⟨m.n, rfl, ?_⟩
      rcases b with b | b
      · right
        exact ⟨b, by have := d6 (by rw [b]; simp); linarith⟩
      · left
        exact ⟨b, by have := d7 (by rw [b]; simp); linarith⟩
    · intro v hv hlo hup hcl
      have hxr : upper - up ≤ upper - v x ∧ upper - v x ≤ upper - lo := ⟨by linarith, by linarith⟩
      obtain ⟨b, hb, hB⟩ := C02_relu_complete _ _ _ R hR hxr
      have e1 := upd_lt v m.n [1 - b] x hx
      have e2 := upd_lt v m.n [1 - b] y hy
      have e3 := upd_add v m.n [1 - b] 0 (by simp)
      simp at e3
      refine ⟨upd v m.n [1 - b], fun i hi => upd_lt _ _ _ _ hi, ?_⟩
      rw [hf, e1, e2, e3]
      refine ⟨(hw.feas_congr fun i hi => upd_lt _ _ _ _ hi).2 hv, ?_, ?_⟩
      · rcases hb with rfl | rfl <;> simp
      · rw [(clamp_relu_upper hl (le_trans c7 hlo)).2 hcl]
        simpa using hB
  · have d1 : lo < lower := by
      by_contra hc
      have hc := not_lt.1 hc
      rcases le_or_gt up upper with h | h
      · exact c3 ⟨hc, h⟩
      · exact c5 ⟨hc, h⟩
    have d2 : upper < up := by
      by_contra hc
      exact c4 ⟨d1, not_lt.1 hc⟩
    exact sat_both m hw x y hx hy lower upper lo up hl c1 c2 d1 d2

/-- The hypotheses of C07 hold for a program with two free variables; with limits [-1, 2] and input range
[-3, 5] the block has two binaries, and the point (4, 2) extends while (4, 3) does not. -/
theorem C07_example : ∃ (m m' : Mip ℚ) (bs : List ℕ), m.WF ∧ 1 < m.n ∧
    m.addSaturation 0 1 (-1) 2 (-3) 5 .binary = some (m', bs) ∧ bs.length = 2 ∧
    (∃ v, m'.Feas v ∧ v 0 = 4 ∧ v 1 = 2) ∧ ¬ ∃ v, m'.Feas v ∧ v 0 = 4 ∧ v 1 = 3 := by
  obtain ⟨m, h, hs⟩ := free_addVars (Mip.empty : Mip ℚ) Mip.WF.empty 2
  have hn : m.n = 2 := hs.n
  have hfeas : ∀ v, m.Feas v := by
    intro v
    rw [hs.feas]
    simp [Mip.Feas, Mip.empty]
  obtain ⟨m', bs, h1, _, _, h3, h4⟩ := C07_saturation m hs.wf 0 1 (by omega) (by omega) (by simp)
    (-1) 2 (-3) 5 (by norm_num)
  obtain ⟨v', e, f⟩ := h4 (fun i => if i = 0 then 4 else 2) (hfeas _) (by norm_num) (by norm_num)
    (by norm_num [clamp])
  have e0 : v' 0 = 4 := by rw [e 0 (by omega)]; simp
  have e1 : v' 1 = 2 := by rw [e 1 (by omega)]; simp
  refine ⟨m, m', bs, hs.wf, by omega, h1, ?_, ⟨v', f, e0, e1⟩, ?_⟩
  · have := (h3 v' f (by rw [e0]; norm_num) (by rw [e0]; norm_num)).2.2
    norm_num [SatBinaries] at this
    obtain ⟨b, c, rfl, _⟩ := this
    rfl
  · rintro ⟨v, f, e0, e1⟩
    have := (h3 v f (by rw [e0]; norm_num) (by rw [e0]; norm_num)).2.1
    rw [e0, e1] at this
    norm_num [clamp] at this

end NNL.Props
