import Verif.Model.Hybrid
import Verif.Props.ScalarEnc
import Verif.Lemmas.NetEnc
import Verif.Lemmas.Cuts
import Verif.Lemmas.Bin
import Verif.Lemmas.Ready
import Verif.Lemmas.LyapEnc

/-! Lemmas on the constraints of the hybrid systems. -/

set_option linter.unusedSectionVars false

namespace NNL.Model

open NNL NNL.Spec

variable {K : Type*} [Field K] [LinearOrder K] [IsStrictOrderedRing K]

/-! ### Products -/

theorem slackIdx_lt {n m k i j : ℕ} (hi : i < k) (hj : j < n + m) : slackIdx n m k i j < (n + m) * k := by
  unfold slackIdx
  have h1 : (i + 1) * n ≤ k * n := Nat.mul_le_mul_right _ hi
  have h2 : (i + 1) * m ≤ k * m := Nat.mul_le_mul_right _ hi
  have e1 : (i + 1) * n = i * n + n := by ring
  have e2 : (i + 1) * m = i * m + m := by ring
  have e3 : (n + m) * k = k * n + k * m := by ring
  split_ifs with h <;> omega

theorem prodRows_holds {n m k : ℕ} {lo up w s z : Vec K} (hz : IsBin z) {i j : ℕ} (hi : i < k)
    (hj : j < n + m) {rs : List (LRow K)} (h : prodRows n m k lo up i j = some rs) :
    (∀ r ∈ rs, r.val w s z ≤ r.rhs) ↔ (lo.getD j 0 ≤ w.getD j 0 ∧ w.getD j 0 ≤ up.getD j 0) ∧
      s.getD (slackIdx n m k i j) 0 = z.getD i 0 * w.getD j 0 := by
  unfold prodRows at h
  cases hR : replaceBinaryContinuousProduct (lo.getD j 0) (up.getD j 0) with
  | none => rw [hR] at h; cases h
  | some R =>
    rw [hR] at h
    simp only [Option.map_some, Option.some.injEq] at h
    subst h
    rw [← NNL.Props.C01_product_exact _ _ _ _ _ R hR (getD_isBin hz i)]
    have hl : R.rhs.length = 4 := by
      unfold replaceBinaryContinuousProduct at hR
      split at hR <;> cases hR
      rfl
    simp only [List.forall_mem_map, List.mem_range, LRow.val, Rows.Holds, hl]
    refine forall₂_congr fun l _ => ?_
    rw [dot_set_zeros _ _ _ _ hj, dot_set_zeros _ _ _ _ (slackIdx_lt hi hj), dot_set_zeros _ _ _ _ hi]

theorem prodLoop_holds {n m k : ℕ} {lo up w s z : Vec K} (hz : IsBin z) :
    ∀ (ps : List (ℕ × ℕ)) {rs : List (LRow K)}, (∀ p ∈ ps, p.1 < k ∧ p.2 < n + m) →
      prodLoop n m k lo up ps = some rs →
    ((∀ r ∈ rs, r.val w s z ≤ r.rhs) ↔ ∀ p ∈ ps, (lo.getD p.2 0 ≤ w.getD p.2 0 ∧
      w.getD p.2 0 ≤ up.getD p.2 0) ∧ s.getD (slackIdx n m k p.1 p.2) 0 = z.getD p.1 0 * w.getD p.2 0)
  | [], rs, _, h => by
    cases h
    simp
  | p :: ps, rs, hp, h => by
    unfold prodLoop at h
    cases h1 : prodRows n m k lo up p.1 p.2 with
    | none => rw [h1] at h; cases h
    | some r =>
      cases h2 : prodLoop n m k lo up ps with
      | none => rw [h1, h2] at h; cases h
      | some rs' =>
        rw [h1, h2] at h
        replace h : some (r ++ rs') = some rs := h
        simp only [Option.some.injEq] at h
        subst h
        have hpp := hp p (by simp)
        have a := prodRows_holds (w := w) (s := s) hz hpp.1 hpp.2 h1
        have b := prodLoop_holds (w := w) (s := s) hz ps (fun q hq => hp q (by simp [hq])) h2
        simp only [List.mem_append, or_imp, forall_and, List.mem_cons, forall_eq]
        simp only [forall_and] at a b
        rw [a, b]
        tauto

theorem prodRows_shape {n m k : ℕ} {lo up : Vec K} {i j : ℕ} {rs : List (LRow K)}
    (h : prodRows n m k lo up i j = some rs) :
    ∀ r ∈ rs, r.x.length = n + m ∧ r.s.length = (n + m) * k ∧ r.z.length = k := by
  unfold prodRows at h
  cases hR : replaceBinaryContinuousProduct (lo.getD j 0) (up.getD j 0) with
  | none => rw [hR] at h; cases h
  | some R =>
    rw [hR] at h
    simp only [Option.map_some, Option.some.injEq] at h
    subst h
    simp

theorem prodLoop_shape {n m k : ℕ} {lo up : Vec K} : ∀ (ps : List (ℕ × ℕ)) {rs : List (LRow K)},
    prodLoop n m k lo up ps = some rs →
    ∀ r ∈ rs, r.x.length = n + m ∧ r.s.length = (n + m) * k ∧ r.z.length = k
  | [], rs, h => by
    cases h
    simp
  | p :: ps, rs, h => by
    unfold prodLoop at h
    cases h1 : prodRows n m k lo up p.1 p.2 with
    | none => rw [h1] at h; cases h
    | some r =>
      cases h2 : prodLoop n m k lo up ps with
      | none => rw [h1, h2] at h; cases h
      | some rs' =>
        rw [h1, h2] at h
        replace h : some (r ++ rs') = some rs := h
        simp only [Option.some.injEq] at h
        subst h
        intro q hq
        rcases List.mem_append.1 hq with hq | hq
        · exact prodRows_shape h1 q hq
        · exact prodLoop_shape ps h2 q hq

theorem prodLoop_isSome {n m k : ℕ} {lo up : Vec K} (hb : ∀ j, j < n + m → lo.getD j 0 ≤ up.getD j 0) :
    ∀ (ps : List (ℕ × ℕ)), (∀ p ∈ ps, p.2 < n + m) → ∃ rs, prodLoop n m k lo up ps = some rs
  | [], _ => ⟨[], rfl⟩
  | p :: ps, hp => by
    obtain ⟨rs, h⟩ := prodLoop_isSome (k := k) hb ps fun q hq => hp q (by simp [hq])
    have h1 := hb p.2 (hp p (by simp))
    unfold prodLoop prodRows replaceBinaryContinuousProduct
    rw [if_pos h1, h]
    exact ⟨_, rfl⟩

/-- The slacks are the products. -/
def SlackIs (n m k : ℕ) (w s z : Vec K) : Prop :=
  ∀ i j, i < k → j < n + m → s.getD (slackIdx n m k i j) 0 = z.getD i 0 * w.getD j 0

theorem dot_scaled (a t v : Vec K) (c : K) (h : ∀ j, j < a.length → t.getD j 0 = c * v.getD j 0) :
    dot a t = c * dot a v := by
  rw [dot_eq_rsum a t _ le_rfl, dot_eq_rsum a v _ le_rfl, ← rsum_mul]
  refine rsum_congr _ _ _ fun i hi => ?_
  rw [h i hi]
  ring

theorem SlackIs.x {n m k : ℕ} {x u s z : Vec K} (h : SlackIs n m k (x ++ u) s z) (hx : x.length = n)
    {i j : ℕ} (hi : i < k) (hj : j < n) : s.getD (i * n + j) 0 = z.getD i 0 * x.getD j 0 := by
  have := h i j hi (by omega)
  rw [slackIdx, if_pos hj, getD_append_lt _ _ _ _ (by omega)] at this
  exact this

theorem SlackIs.u {n m k : ℕ} {x u s z : Vec K} (h : SlackIs n m k (x ++ u) s z) (hx : x.length = n)
    {i j : ℕ} (hi : i < k) (hj : j < m) : s.getD (k * n + i * m + j) 0 = z.getD i 0 * u.getD j 0 := by
  have := h i (n + j) hi (by omega)
  rw [slackIdx, if_neg (by omega), ← hx, getD_append_add] at this
  simpa [hx] using this

theorem drop_setSlice (v : Vec K) (off o : ℕ) (w : Vec K) (h : off + w.length ≤ o) (hv : off ≤ v.length) :
    (setSlice v off w).drop o = v.drop o := by
  unfold setSlice
  rw [List.drop_append, List.drop_eq_nil_of_le (by simp; omega), List.nil_append, List.drop_drop]
  congr 1
  simp
  omega

theorem polyRow_s {n m k : ℕ} {x u s z : Vec K} (h : SlackIs n m k (x ++ u) s z) (hx : x.length = n)
    {i : ℕ} (hi : i < k) (p : Vec K) (hp : p.length = n + m) :
    dot (setSlice (setSlice (zeros ((n + m) * k)) (i * n) (p.take n)) (k * n + i * m) (p.drop n)) s
      = z.getD i 0 * dot p (x ++ u) := by
  have h1 : (i + 1) * n ≤ k * n := Nat.mul_le_mul_right _ hi
  have h2 : (i + 1) * m ≤ k * m := Nat.mul_le_mul_right _ hi
  have e1 : (i + 1) * n = i * n + n := by ring
  have e2 : (i + 1) * m = i * m + m := by ring
  have e3 : (n + m) * k = k * n + k * m := by ring
  have l1 : (p.take n).length = n := by simp [hp]
  have l2 : (p.drop n).length = m := by simp [hp]
  have l3 : (setSlice (zeros ((n + m) * k) : Vec K) (i * n) (p.take n)).length = (n + m) * k := by
    rw [length_setSlice _ _ _ (by rw [length_zeros, l1]; omega), length_zeros]
  rw [dot_setSlice _ _ _ _ (by rw [l3, l2]; omega), dot_setSlice_zeros _ _ _ _ (by rw [l1]; omega)]
  rw [drop_setSlice _ _ _ _ (by rw [l1]; omega) (by rw [length_zeros]; omega), drop_zeros, take_zeros,
    dot_zeros_left, sub_zero]
  have a := dot_scaled (p.take n) (s.drop (i * n)) x (z.getD i 0) fun j hj => by
    rw [getD_drop]; exact h.x hx hi (by omega)
  have b := dot_scaled (p.drop n) (s.drop (k * n + i * m)) u (z.getD i 0) fun j hj => by
    rw [getD_drop]; exact h.u hx hi (by omega)
  rw [a, b, dot_append_right, hx]
  ring

theorem polyRows_holds {n m k : ℕ} {x u s z : Vec K} (h : SlackIs n m k (x ++ u) s z) (hx : x.length = n)
    {i : ℕ} (hi : i < k) {md : HMode K} (hm : md.Ok n m) :
    (∀ r ∈ polyRows n m k i md, r.val (x ++ u) s z ≤ r.rhs) ↔ ∀ r, r < md.P.length →
      z.getD i 0 * dot (md.P.getD r []) (x ++ u) ≤ md.q.getD r 0 * z.getD i 0 := by
  simp only [polyRows, List.forall_mem_map, List.mem_range, LRow.val, dot_zeros_left, zero_add]
  refine forall₂_congr fun r hr => ?_
  have hp : (md.P.getD r []).length = n + m := by
    have : md.P.getD r [] = md.P[r] := by simp [List.getD, hr]
    rw [this]
    exact hm.colsP _ (List.getElem_mem hr)
  rw [polyRow_s h hx hi _ hp, dot_set_zeros _ _ _ _ hi]
  constructor <;> intro h <;> linarith

theorem polyRows_shape {n m k : ℕ} {i : ℕ} (hi : i < k) {md : HMode K} (hm : md.Ok n m) :
    ∀ r ∈ polyRows n m k i md, r.x.length = n + m ∧ r.s.length = (n + m) * k ∧ r.z.length = k := by
  simp only [polyRows, List.forall_mem_map, List.mem_range]
  intro r hr
  have h1 : (i + 1) * n ≤ k * n := Nat.mul_le_mul_right _ hi
  have h2 : (i + 1) * m ≤ k * m := Nat.mul_le_mul_right _ hi
  have e1 : (i + 1) * n = i * n + n := by ring
  have e2 : (i + 1) * m = i * m + m := by ring
  have e3 : (n + m) * k = k * n + k * m := by ring
  have hp : (md.P.getD r []).length = n + m := by
    have : md.P.getD r [] = md.P[r] := by simp [List.getD, hr]
    rw [this]
    exact hm.colsP _ (List.getElem_mem hr)
  have l1 : ((md.P.getD r []).take n).length = n := by rw [List.length_take]; omega
  have l2 : ((md.P.getD r []).drop n).length = m := by rw [List.length_drop]; omega
  have l3 : (setSlice (zeros ((n + m) * k) : Vec K) (i * n) ((md.P.getD r []).take n)).length
      = (n + m) * k := by
    rw [length_setSlice _ _ _ (by rw [length_zeros, l1]; omega), length_zeros]
  refine ⟨by simp, ?_, by simp⟩
  rw [length_setSlice _ _ _ (by rw [l3, l2]; omega), l3]

/-! ### Outputs -/

theorem dot_flatten_scaled {α : Type*} (n : ℕ) (v : Vec K) (f : α → Vec K) : ∀ (l : List α) (t z : Vec K),
    (∀ a ∈ l, (f a).length = n) →
    (∀ i j, i < l.length → j < n → t.getD (i * n + j) 0 = z.getD i 0 * v.getD j 0) → l.length ≤ z.length →
    dot (l.map f).flatten t = dot (l.map fun a => dot (f a) v) z
  | [], t, z, _, _, _ => by simp
  | a :: l, t, [], _, _, h => by simp at h
  | a :: l, t, b :: z, hf, ht, hz => by
    have ha := hf a (by simp)
    rw [List.map_cons, List.flatten_cons, dot_append_left, ha, List.map_cons, dot_cons,
      dot_take_of_length _ _ _ (by omega)]
    rw [dot_scaled (f a) t v b fun j hj => ?_, dot_flatten_scaled n v f l (t.drop n) z
      (fun c hc => hf c (by simp [hc])) (fun i j hi hj => ?_) (by simpa using hz)]
    · ring
    · rw [getD_drop]
      have := ht (i + 1) j (by simpa using hi) hj
      rw [List.getD_cons_succ] at this
      rw [← this]
      congr 1
      ring
    · have := ht 0 j (by simp) (by omega)
      simpa using this

theorem eyeRow_of_oneHot {z : Vec K} {k i : ℕ} (hz : z.length = k) (hi : i < k) (h1 : z.getD i 0 = 1)
    (h0 : ∀ j, j ≠ i → z.getD j 0 = 0) : z = eyeRow k i := by
  refine vec_ext (by simp [hz]) fun j _ => ?_
  rw [getD_eyeRow _ _ _ hi]
  split_ifs with h
  · rw [h, h1]
  · exact h0 j h

theorem getD_flatten (n : ℕ) : ∀ (l : List (Vec K)) (i j : ℕ), (∀ a ∈ l, a.length = n) → j < n →
    l.flatten.getD (i * n + j) 0 = (l.getD i []).getD j 0
  | [], i, j, _, _ => by simp
  | a :: l, 0, j, h, hj => by
    have := h a (by simp)
    rw [List.flatten_cons, getD_append_lt _ _ _ _ (by omega)]
    simp
  | a :: l, i + 1, j, h, hj => by
    have ha := h a (by simp)
    have e : (i + 1) * n + j = a.length + (i * n + j) := by rw [ha]; ring
    rw [List.flatten_cons, e, getD_append_add, getD_flatten n l i j (fun b hb => h b (by simp [hb])) hj]
    simp

/-- The slacks that the rows force. -/
def slackOf (x u z : Vec K) : Vec K := (z.map fun a => vsmul a x).flatten ++ (z.map fun a => vsmul a u).flatten

theorem length_flatten_vsmul (x z : Vec K) : (z.map fun a => vsmul a x).flatten.length = z.length * x.length := by
  induction z with
  | nil => simp
  | cons a z ih =>
    simp only [List.map_cons, List.flatten_cons, List.length_append, ih, length_vsmul, List.length_cons]
    ring

theorem slackOf_is {n m : ℕ} {x u : Vec K} (z : Vec K) (hx : x.length = n) (hu : u.length = m) :
    SlackIs n m z.length (x ++ u) (slackOf x u z) z := by
  intro i j hi hj
  have hz : ∀ v : Vec K, (z.map fun a => vsmul a v).getD i [] = vsmul (z.getD i 0) v := by
    intro v
    simp [List.getD, hi]
  have lx := length_flatten_vsmul x z
  have h1 : (i + 1) * n ≤ z.length * n := Nat.mul_le_mul_right _ hi
  have e1 : (i + 1) * n = i * n + n := by ring
  unfold slackIdx slackOf
  split_ifs with h
  · rw [getD_append_lt _ _ _ _ (by rw [lx, hx]; omega),
      getD_flatten n _ _ _ (by simp [hx]) h, hz, getD_vsmul, getD_append_lt _ _ _ _ (by omega)]
  · have e2 : z.length * n + i * m + (j - n) = (z.map fun a => vsmul a x).flatten.length + (i * m + (j - n)) := by
      rw [lx, hx]; omega
    have e3 : j = x.length + (j - n) := by omega
    rw [e2, getD_append_add, getD_flatten m _ _ _ (by simp [hu]) (by omega), hz, getD_vsmul, e3,
      getD_append_add]
    congr 2
    omega

/-- The rows determine the slacks. -/
theorem slackIs_unique {n m k : ℕ} {w s t z : Vec K} (hs : SlackIs n m k w s z) (ht : SlackIs n m k w t z)
    (ls : s.length = (n + m) * k) (lt : t.length = (n + m) * k) : s = t := by
  refine vec_ext (by omega) fun l hl => ?_
  have hl' : l < k * n + k * m := by rw [ls] at hl; nlinarith
  rcases Nat.lt_or_ge l (k * n) with h | h
  · have hn : 0 < n := by
      rcases Nat.eq_zero_or_pos n with h0 | h0
      · rw [h0] at h; omega
      · exact h0
    have hm := Nat.mod_lt l hn
    have hd : l / n < k := (Nat.div_lt_iff_lt_mul hn).2 h
    have e : slackIdx n m k (l / n) (l % n) = l := by
      rw [slackIdx, if_pos hm]
      exact Nat.div_add_mod' l n
    have a := hs (l / n) (l % n) hd (by omega)
    have b := ht (l / n) (l % n) hd (by omega)
    rw [e] at a b
    rw [a, b]
  · obtain ⟨r, rfl⟩ := Nat.exists_eq_add_of_le h
    have h' : r < k * m := by omega
    have hn : 0 < m := by
      rcases Nat.eq_zero_or_pos m with h0 | h0
      · rw [h0] at h'; omega
      · exact h0
    have hm := Nat.mod_lt r hn
    have hd : r / m < k := (Nat.div_lt_iff_lt_mul hn).2 h'
    have e : slackIdx n m k (r / m) (n + r % m) = k * n + r := by
      have := Nat.div_add_mod' r m
      rw [slackIdx, if_neg (by omega)]
      omega
    have a := hs (r / m) (n + r % m) hd (by omega)
    have b := ht (r / m) (n + r % m) hd (by omega)
    rw [e] at a b
    rw [a, b]

/-! ### The constraint set -/

theorem hybridMIC_some {n m : ℕ} {modes : List (HMode K)} {lo up : Vec K} {c : MIC K}
    (h : hybridMIC n m modes lo up = some c) : modes ≠ [] ∧ ∃ prod, prodLoop n m modes.length lo up
      ((List.range modes.length).flatMap fun i => (List.range (n + m)).map fun j => (i, j)) = some prod ∧
      c = { Aout_slack := some ⟨(n + m) * modes.length, (List.range n).map fun r =>
              (modes.map fun md => md.A.getD r []).flatten ++ (modes.map fun md => md.B.getD r []).flatten⟩
            Aout_binary := some ⟨modes.length, (List.range n).map fun r => modes.map fun md => md.c.getD r 0⟩
            Ain_input := rowsTensor (n + m) LRow.x (prod ++ (modes.zipIdx.map fun t =>
              polyRows n m modes.length t.2 t.1).flatten)
            Ain_slack := rowsTensor ((n + m) * modes.length) LRow.s (prod ++ (modes.zipIdx.map fun t =>
              polyRows n m modes.length t.2 t.1).flatten)
            Ain_binary := rowsTensor modes.length LRow.z (prod ++ (modes.zipIdx.map fun t =>
              polyRows n m modes.length t.2 t.1).flatten)
            rhs_in := some ((prod ++ (modes.zipIdx.map fun t =>
              polyRows n m modes.length t.2 t.1).flatten).map LRow.rhs)
            Aeq_binary := some ⟨modes.length, [List.replicate modes.length 1]⟩
            rhs_eq := some [1] } := by
  unfold hybridMIC at h
  simp only at h
  split at h
  · cases h
  · rename_i hne
    refine ⟨hne, ?_⟩
    cases hp : prodLoop n m modes.length lo up
      ((List.range modes.length).flatMap fun i => (List.range (n + m)).map fun j => (i, j)) with
    | none => rw [hp] at h; cases h
    | some prod =>
      rw [hp] at h
      refine ⟨prod, rfl, ?_⟩
      simpa using h.symm

theorem forall_zipIdx {α : Type*} (l : List α) (P : α → ℕ → Prop) :
    (∀ t ∈ l.zipIdx, P t.1 t.2) ↔ ∀ i (h : i < l.length), P l[i] i := by
  constructor
  · intro h i hi
    exact h (l[i], i) (by rw [List.mem_zipIdx_iff_getElem?]; simp [hi])
  · rintro h ⟨a, i⟩ ht
    rw [List.mem_zipIdx_iff_getElem?] at ht
    obtain ⟨hi, e⟩ := List.getElem?_eq_some_iff.1 ht
    simp only at hi e
    have := h i hi
    rwa [e] at this

theorem hybrid_rows {n m : ℕ} {modes : List (HMode K)} {lo up x u s z : Vec K} {c : MIC K}
    (h : hybridMIC n m modes lo up = some c) (hm : ∀ md ∈ modes, md.Ok n m) (hx : x.length = n)
    (hu : u.length = m) (hl : lo.length = n + m) (hup : up.length = n + m) (hz : IsBin z)
    (lz : z.length = modes.length) :
    c.Holds (x ++ u) s z ↔ InBox lo up (x ++ u) ∧ SlackIs n m modes.length (x ++ u) s z ∧
      (∀ i (hi : i < modes.length), ∀ r, r < modes[i].P.length →
        z.getD i 0 * dot (modes[i].P.getD r []) (x ++ u) ≤ modes[i].q.getD r 0 * z.getD i 0) ∧
      z.sum = 1 := by
  obtain ⟨hne, prod, hp, rfl⟩ := hybridMIC_some h
  have hk : 0 < modes.length := List.length_pos_iff.2 hne
  have hps : ∀ p ∈ (List.range modes.length).flatMap fun i => (List.range (n + m)).map fun j => (i, j),
      p.1 < modes.length ∧ p.2 < n + m := by
    intro p hp
    simp only [List.mem_flatMap, List.mem_range, List.mem_map] at hp
    obtain ⟨i, hi, j, hj, rfl⟩ := hp
    exact ⟨hi, hj⟩
  have e1 := prodLoop_holds (w := x ++ u) (s := s) hz _ hps hp
  have e2 : (∀ p ∈ (List.range modes.length).flatMap fun i => (List.range (n + m)).map fun j => (i, j),
      (lo.getD p.2 0 ≤ (x ++ u).getD p.2 0 ∧ (x ++ u).getD p.2 0 ≤ up.getD p.2 0) ∧
        s.getD (slackIdx n m modes.length p.1 p.2) 0 = z.getD p.1 0 * (x ++ u).getD p.2 0) ↔
      InBox lo up (x ++ u) ∧ SlackIs n m modes.length (x ++ u) s z := by
    have lw : (x ++ u).length = n + m := by simp [hx, hu]
    have hmem : ∀ i j, i < modes.length → j < n + m → (i, j) ∈ (List.range modes.length).flatMap fun i =>
        (List.range (n + m)).map fun j => (i, j) := by
      intro i j hi hj
      simp only [List.mem_flatMap, List.mem_range, List.mem_map]
      exact ⟨i, hi, j, hj, rfl⟩
    constructor
    · intro h
      refine ⟨⟨by omega, by omega, fun j hj => (h (0, j) (hmem 0 j hk (by omega))).1⟩, ?_⟩
      exact fun i j hi hj => (h (i, j) (hmem i j hi hj)).2
    · rintro ⟨⟨-, -, h1⟩, h2⟩ p hp
      have := hps p hp
      exact ⟨h1 p.2 (by omega), h2 _ _ this.1 this.2⟩
  rw [MIC.Holds, MIC.ineqRows, MIC.eqRows]
  rw [forall_rowsTensor _ _ _ _ (fun a b => a ≤ b)]
  simp only [List.mem_append, or_imp, forall_and]
  rw [e1, e2]
  have e3 : (∀ r ∈ blockRows (none : Option (Tensor2 K)) none
      (some ⟨modes.length, [List.replicate modes.length 1]⟩) (some [1]), r.val (x ++ u) s z = r.rhs) ↔
      z.sum = 1 := by
    rw [forall_blockRows]
    simp only [Option.getD_some, List.length_singleton, Nat.lt_one_iff, forall_eq, LRow.val, mrow_none,
      dot_nil_left, mrow_some, List.getD_cons_zero, zero_add]
    rw [dot_ones _ _ (by omega)]
  rw [e3]
  have e4 : SlackIs n m modes.length (x ++ u) s z → ((∀ r ∈ (modes.zipIdx.map fun t =>
        polyRows n m modes.length t.2 t.1).flatten, r.val (x ++ u) s z ≤ r.rhs) ↔
      ∀ i (hi : i < modes.length), ∀ r, r < modes[i].P.length →
        z.getD i 0 * dot (modes[i].P.getD r []) (x ++ u) ≤ modes[i].q.getD r 0 * z.getD i 0) := by
    intro hs
    have : (∀ r ∈ (modes.zipIdx.map fun t => polyRows n m modes.length t.2 t.1).flatten,
        r.val (x ++ u) s z ≤ r.rhs) ↔ ∀ t ∈ modes.zipIdx, ∀ r ∈ polyRows n m modes.length t.2 t.1,
          r.val (x ++ u) s z ≤ r.rhs := by
      simp only [List.mem_flatten, List.mem_map]
      constructor
      · exact fun h t ht r hr => h r ⟨_, ⟨t, ht, rfl⟩, hr⟩
      · rintro h r ⟨_, ⟨t, ht, rfl⟩, hr⟩
        exact h t ht r hr
    rw [this, forall_zipIdx modes fun md i => ∀ r ∈ polyRows n m modes.length i md,
      r.val (x ++ u) s z ≤ r.rhs]
    exact forall₂_congr fun i hi => polyRows_holds hs hx hi (hm _ (List.getElem_mem hi))
  constructor
  · rintro ⟨⟨⟨a, b⟩, c⟩, d⟩
    exact ⟨a, b, (e4 b).1 c, d⟩
  · rintro ⟨a, b, c, d⟩
    exact ⟨⟨⟨a, b⟩, (e4 b).2 c⟩, d⟩

theorem length_slackOf {n m k : ℕ} {x u z : Vec K} (hx : x.length = n) (hu : u.length = m)
    (hz : z.length = k) : (slackOf x u z).length = (n + m) * k := by
  rw [slackOf, List.length_append, length_flatten_vsmul, length_flatten_vsmul, hx, hu, hz]
  ring

theorem hybrid_num {n m : ℕ} {modes : List (HMode K)} {lo up : Vec K} {c : MIC K}
    (h : hybridMIC n m modes lo up = some c) :
    c.numSlack = (n + m) * modes.length ∧ c.numBinary = modes.length ∧ c.numOut = n ∧
      c.input_lo = none ∧ c.input_up = none ∧ c.slack_lo = none ∧ c.slack_up = none ∧
      c.binary_lo = none ∧ c.binary_up = none := by
  obtain ⟨hne, prod, hp, rfl⟩ := hybridMIC_some h
  simp [MIC.numSlack, MIC.numBinary, MIC.numOut, numVar]

theorem hybrid_feas {n m : ℕ} {modes : List (HMode K)} {lo up x u s z : Vec K} {c : MIC K}
    (h : hybridMIC n m modes lo up = some c) (hm : ∀ md ∈ modes, md.Ok n m) (hx : x.length = n)
    (hu : u.length = m) (hl : lo.length = n + m) (hup : up.length = n + m) :
    c.Feas (x ++ u) s z ↔ InBox lo up (x ++ u) ∧ ∃ i, ∃ hi : i < modes.length, modes[i].Has x u ∧
      z = eyeRow modes.length i ∧ s = slackOf x u z := by
  obtain ⟨n1, n2, n3, b1, b2, b3, b4, b5, b6⟩ := hybrid_num h
  constructor
  · rintro ⟨ls, lz, bz, hr, -⟩
    rw [n1] at ls
    rw [n2] at lz
    obtain ⟨hb, hs, hp, h1⟩ := (hybrid_rows h hm hx hu hl hup bz lz).1 hr
    obtain ⟨i, hi, i1, i0⟩ := bz.one_hot h1
    rw [lz] at hi
    refine ⟨hb, i, hi, ?_, eyeRow_of_oneHot lz hi i1 i0, ?_⟩
    · intro r hrr
      have := hp i hi r (by rw [← (hm _ (List.getElem_mem hi)).q]; exact hrr)
      rw [i1] at this
      linarith
    · have a := slackOf_is z hx hu
      rw [lz] at a
      exact slackIs_unique hs a ls (length_slackOf hx hu lz)
  · rintro ⟨hb, i, hi, hP, rfl, rfl⟩
    have lz : (eyeRow modes.length i : Vec K).length = modes.length := by simp
    refine ⟨by rw [n1, length_slackOf hx hu lz], by rw [n2, lz], isBin_eyeRow _ _, ?_, ?_⟩
    · rw [hybrid_rows h hm hx hu hl hup (isBin_eyeRow _ _) lz]
      have a := slackOf_is (eyeRow modes.length i) hx hu
      rw [lz] at a
      refine ⟨hb, a, fun j hj r hr => ?_, sum_eyeRow _ _ hi⟩
      rw [getD_eyeRow _ _ _ hi]
      split_ifs with e
      · subst e
        have := hP r (by rw [(hm _ (List.getElem_mem hj)).q]; exact hr)
        linarith
      · simp
    · simp [MIC.BoundsHold, b1, b2, b3, b4, b5, b6, LoOk, UpOk]

theorem length_flatten_uniform (n : ℕ) (l : List (Vec K)) (h : ∀ a ∈ l, a.length = n) :
    l.flatten.length = l.length * n := by
  induction l with
  | nil => simp
  | cons a l ih =>
    rw [List.flatten_cons, List.length_append, h a (by simp), ih fun b hb => h b (by simp [hb]),
      List.length_cons]
    ring

theorem hybrid_ready {n m : ℕ} {modes : List (HMode K)} {lo up : Vec K} {c : MIC K}
    (h : hybridMIC n m modes lo up = some c) (hm : ∀ md ∈ modes, md.Ok n m) : c.Ready (n + m) := by
  obtain ⟨hne, prod, hp, rfl⟩ := hybridMIC_some h
  have hin : ∀ r ∈ prod ++ (modes.zipIdx.map fun t => polyRows n m modes.length t.2 t.1).flatten,
      r.x.length = n + m ∧ r.s.length = (n + m) * modes.length ∧ r.z.length = modes.length := by
    intro r hr
    rcases List.mem_append.1 hr with hr | hr
    · exact prodLoop_shape _ hp r hr
    · simp only [List.mem_flatten, List.mem_map] at hr
      obtain ⟨_, ⟨t, ht, rfl⟩, hr⟩ := hr
      have := (forall_zipIdx modes fun md i => i < modes.length ∧ md.Ok n m).2
        (fun i hi => ⟨hi, hm _ (List.getElem_mem hi)⟩) t ht
      exact polyRows_shape this.1 this.2 r hr
  clear h
  generalize prod ++ (modes.zipIdx.map fun t => polyRows n m modes.length t.2 t.1).flatten = ineq at hin ⊢
  refine ⟨⟨⟨shapeIs_none _ _, ?_, ?_, ?_, ?_, ?_, ?_, by simp, shapeIs_none _ _, shapeIs_none _ _, ?_, by simp⟩,
      rfl, rfl, rfl⟩, ⟨?_, ?_, ?_, ?_, ?_, ?_⟩, ⟨?_, ?_⟩⟩
  · intro M hM
    simp only [Option.some.injEq] at hM
    subst hM
    refine ⟨rfl, rfl, ?_⟩
    intro r hr
    simp only [List.mem_map, List.mem_range] at hr
    obtain ⟨i, hi, rfl⟩ := hr
    rw [List.length_append, length_flatten_uniform n, length_flatten_uniform m]
    · simp
      ring
    · simp only [List.forall_mem_map]
      intro md hmd
      have o := hm md hmd
      have hlt : i < md.B.length := by rw [o.rowsB]; exact hi
      have : md.B.getD i [] = md.B[i] := by simp [List.getD, hlt]
      rw [this]
      exact o.colsB _ (List.getElem_mem hlt)
    · simp only [List.forall_mem_map]
      intro md hmd
      have o := hm md hmd
      have hlt : i < md.A.length := by rw [o.rowsA]; exact hi
      have : md.A.getD i [] = md.A[i] := by simp [List.getD, hlt]
      rw [this]
      exact o.colsA _ (List.getElem_mem hlt)
  · intro M hM
    simp only [Option.some.injEq] at hM
    subst hM
    refine ⟨by simp [MIC.numOut], rfl, ?_⟩
    intro r hr
    simp only [List.mem_map, List.mem_range] at hr
    obtain ⟨i, hi, rfl⟩ := hr
    simp
  · intro v hv
    cases hv
  · have := shapeIs_rowsTensor (n + m) LRow.x _ fun r hr => (hin r hr).1
    simpa [MIC.numIneq, MIC.numInput, numVar, rowsTensor] using this
  · have := shapeIs_rowsTensor _ LRow.s _ fun r hr => (hin r hr).2.1
    simpa [MIC.numIneq, MIC.numSlack, numVar, rowsTensor] using this
  · have := shapeIs_rowsTensor _ LRow.z _ fun r hr => (hin r hr).2.2
    simpa [MIC.numIneq, MIC.numBinary, numVar, rowsTensor] using this
  · intro M hM
    simp only [Option.some.injEq] at hM
    subst hM
    refine ⟨by simp [MIC.numEq], rfl, ?_⟩
    intro r hr
    simp only [List.mem_singleton] at hr
    subst hr
    simp
  all_goals simp [rowsTensor]

theorem hybrid_out {n m : ℕ} {modes : List (HMode K)} {lo up x u : Vec K} {c : MIC K}
    (h : hybridMIC n m modes lo up = some c) (hm : ∀ md ∈ modes, md.Ok n m) (hx : x.length = n)
    (hu : u.length = m) {i : ℕ} (hi : i < modes.length) :
    c.out (x ++ u) (slackOf x u (eyeRow modes.length i)) (eyeRow modes.length i) = modes[i].next x u := by
  have hi' := hm _ (List.getElem_mem hi)
  have n3 := (hybrid_num h).2.2.1
  obtain ⟨hne, prod, hp, rfl⟩ := hybridMIC_some h
  have lz : (eyeRow modes.length i : Vec K).length = modes.length := by simp
  have ls := length_flatten_vsmul x (eyeRow modes.length i)
  rw [lz, hx] at ls
  have hs := slackOf_is (eyeRow modes.length i) hx hu
  rw [lz] at hs
  have lmv : (matVec modes[i].A x).length = n := by simp [hi'.rowsA]
  have lmb : (matVec modes[i].B u).length = n := by simp [hi'.rowsB]
  refine vec_ext ?_ fun r hr => ?_
  · rw [MIC.out, n3]
    simp [HMode.next, hi'.rowsA, hi'.rowsB, hi'.c]
  · have hrn : r < n := by
      rw [MIC.out, n3] at hr
      simpa using hr
    rw [MIC.out, n3]
    simp only [List.getD, List.getElem?_map, Option.map_some, Option.getD_some,
      mrow_none, dot_nil_left, zero_add, mrow_some, List.getElem?_range hrn]
    have lA : ∀ md ∈ modes, (md.A.getD r []).length = n := by
      intro md hmd
      have o := hm md hmd
      have hlt : r < md.A.length := by rw [o.rowsA]; exact hrn
      have : md.A.getD r [] = md.A[r] := by simp [List.getD, hlt]
      rw [this]
      exact o.colsA _ (List.getElem_mem hlt)
    have lB : ∀ md ∈ modes, (md.B.getD r []).length = m := by
      intro md hmd
      have o := hm md hmd
      have hlt : r < md.B.length := by rw [o.rowsB]; exact hrn
      have : md.B.getD r [] = md.B[r] := by simp [List.getD, hlt]
      rw [this]
      exact o.colsB _ (List.getElem_mem hlt)
    have lfA : ((modes.map fun md => md.A.getD r []).flatten).length = modes.length * n := by
      rw [length_flatten_uniform n _ (by simpa using lA), List.length_map]
    rw [dot_append_left]
    simp only [← List.getD_eq_getElem?_getD]
    rw [lfA, dot_take_of_length _ _ _ (by rw [lfA])]
    rw [dot_flatten_scaled n x (fun md : HMode K => md.A.getD r []) modes _ _ lA
      (fun a b ha hb => hs.x hx ha hb) (by rw [lz])]
    rw [dot_flatten_scaled m u (fun md : HMode K => md.B.getD r []) modes _ (eyeRow modes.length i) lB
      (fun a b ha hb => by
        rw [getD_drop, ← hs.u hx ha hb]
        congr 1
        ring) (by rw [lz])]
    have key : ∀ f : HMode K → K, dot (modes.map f) (eyeRow modes.length i) = f modes[i] := by
      intro f
      rw [dot_comm, dot_eyeRow _ _ _ hi]
      simp [List.getD, hi]
    rw [key, key, key]
    rw [HMode.next, getD_vadd _ _ _ (by simp [hi'.rowsA, hi'.rowsB, hi'.c]), getD_vadd _ _ _ (by rw [lmv, lmb]),
      getD_matVec, getD_matVec]
    simp

end NNL.Model
