import Verif.Model.Cuts
import Verif.Lemmas.NetBounds
import Mathlib.Tactic.FieldSimp
import Mathlib.Data.List.Perm.Basic
import Mathlib.Algebra.Order.BigOperators.Group.List
import Mathlib.Algebra.BigOperators.Ring.List

/-!
# Lemmas about the strengthening cuts
-/

set_option linter.unusedSectionVars false

namespace NNL.Model

open NNL NNL.Spec

variable {K : Type*} [Field K] [LinearOrder K] [IsStrictOrderedRing K]

/-- Sum over `0, ..., n - 1`. -/
def rsum (n : ℕ) (f : ℕ → K) : K := ((List.range n).map f).sum

theorem rsum_succ (n : ℕ) (f : ℕ → K) : rsum (n + 1) f = rsum n f + f n := by
  simp [rsum, List.range_succ]

@[simp] theorem rsum_zero (f : ℕ → K) : rsum 0 f = 0 := by simp [rsum]

theorem rsum_le (n : ℕ) (f g : ℕ → K) (h : ∀ i, i < n → f i ≤ g i) : rsum n f ≤ rsum n g := by
  induction n with
  | zero => simp
  | succ n ih =>
    rw [rsum_succ, rsum_succ]
    exact add_le_add (ih fun i hi => h i (by omega)) (h n (by omega))

theorem rsum_congr (n : ℕ) (f g : ℕ → K) (h : ∀ i, i < n → f i = g i) : rsum n f = rsum n g := by
  induction n with
  | zero => simp
  | succ n ih => rw [rsum_succ, rsum_succ, ih fun i hi => h i (by omega), h n (by omega)]

theorem rsum_add (n : ℕ) (f g : ℕ → K) : rsum n (fun i => f i + g i) = rsum n f + rsum n g := by
  induction n with
  | zero => simp
  | succ n ih => rw [rsum_succ, rsum_succ, rsum_succ, ih]; ring

theorem rsum_mul (n : ℕ) (c : K) (f : ℕ → K) : rsum n (fun i => c * f i) = c * rsum n f := by
  induction n with
  | zero => simp
  | succ n ih => rw [rsum_succ, rsum_succ, ih]; ring

theorem dot_eq_rsum (w x : Vec K) (n : ℕ) (h : w.length ≤ n) :
    dot w x = rsum n fun i => w.getD i 0 * x.getD i 0 := by
  induction w generalizing x n with
  | nil =>
    have : rsum n (fun i => ([] : Vec K).getD i 0 * x.getD i 0) = rsum n fun _ => 0 * (0 : K) :=
      rsum_congr _ _ _ fun i _ => by simp
    rw [this, rsum_mul]; simp
  | cons a w ih =>
    obtain ⟨m, rfl⟩ : ∃ m, n = m + 1 := ⟨n - 1, by simp at h; omega⟩
    have hm : w.length ≤ m := by simpa using h
    cases x with
    | nil =>
      have : rsum (m + 1) (fun i => (a :: w).getD i 0 * ([] : Vec K).getD i 0)
          = rsum (m + 1) fun _ => 0 * (0 : K) := rsum_congr _ _ _ fun i _ => by simp
      rw [this, rsum_mul]; simp
    | cons b x =>
      rw [dot_cons, ih x m hm]
      simp only [rsum, List.range_succ_eq_map, List.map_cons, List.map_map, List.sum_cons]
      rfl

theorem dot_set (v x : Vec K) (i : ℕ) (a : K) (h : i < v.length) :
    dot (v.set i (v.getD i 0 + a)) x = dot v x + a * x.getD i 0 := by
  induction v generalizing x i with
  | nil => simp at h
  | cons b v ih =>
    cases x with
    | nil => simp
    | cons c x =>
      cases i with
      | zero => simp; ring
      | succ i =>
        have := ih x i (by simpa using h)
        simp only [List.set_cons_succ, List.getD_cons_succ, dot_cons, this]
        ring

/-- `wᵢ L̅ᵢ`: the smallest value of `wᵢ xᵢ`. -/
def wlo (w lo up : Vec K) (i : ℕ) : K :=
  w.getD i 0 * if w.getD i 0 ≥ 0 then lo.getD i 0 else up.getD i 0
/-- `wᵢ U̅ᵢ`: the largest value of `wᵢ xᵢ`. -/
def wup (w lo up : Vec K) (i : ℕ) : K :=
  w.getD i 0 * if w.getD i 0 ≥ 0 then up.getD i 0 else lo.getD i 0

/-- Term of an index in the set. -/
def tin (c : K) (w lo up x : Vec K) (β : K) (i : ℕ) : K :=
  w.getD i 0 * x.getD i 0 - (1 - c) * (1 - β) * wlo w lo up i
/-- Term of an index outside the set. -/
def tout (c : K) (w lo up x : Vec K) (β : K) (i : ℕ) : K :=
  c * (w.getD i 0 * x.getD i 0) + (1 - c) * β * wup w lo up i

theorem foldl_cutIn (c : K) (w lo up x : Vec K) (β : K) (I : List ℕ) (t : Cut K)
    (ht : t.xc.length = w.length) (hI : ∀ i ∈ I, i < w.length) :
    (I.foldl (cutIn c w lo up) t).xc.length = w.length ∧
    (I.foldl (cutIn c w lo up) t).rhs x β
      = t.rhs x β + (I.map (tin c w lo up x β)).sum := by
  induction I generalizing t with
  | nil => simp [ht]
  | cons i I ih =>
    obtain ⟨h1, h2⟩ := ih (cutIn c w lo up t i) (by simp [cutIn, ht]) (fun j hj => hI j (by simp [hj]))
    refine ⟨h1, ?_⟩
    rw [List.foldl_cons, h2, List.map_cons, List.sum_cons]
    have hi := hI i (by simp)
    simp only [Cut.rhs, cutIn, tin, wlo]
    rw [dot_set _ _ _ _ (by omega)]
    ring

theorem foldl_cutOut (c : K) (w lo up x : Vec K) (β : K) (I : List ℕ) (t : Cut K)
    (ht : t.xc.length = w.length) (hI : ∀ i ∈ I, i < w.length) :
    (I.foldl (cutOut c w lo up) t).xc.length = w.length ∧
    (I.foldl (cutOut c w lo up) t).rhs x β
      = t.rhs x β + (I.map (tout c w lo up x β)).sum := by
  induction I generalizing t with
  | nil => simp [ht]
  | cons i I ih =>
    obtain ⟨h1, h2⟩ := ih (cutOut c w lo up t i) (by simp [cutOut, ht])
      (fun j hj => hI j (by simp [hj]))
    refine ⟨h1, ?_⟩
    rw [List.foldl_cons, h2, List.map_cons, List.sum_cons]
    have hi := hI i (by simp)
    simp only [Cut.rhs, cutOut, tout, wup]
    rw [dot_set _ _ _ _ (by omega)]
    ring

theorem sum_split (n : ℕ) (I : List ℕ) (hn : I.Nodup) (hI : ∀ i ∈ I, i < n) (f g : ℕ → K) :
    (I.map f).sum + (((List.range n).filter fun i => decide (i ∉ I)).map g).sum
      = rsum n fun i => if i ∈ I then f i else g i := by
  have hp : List.Perm (List.range n) (I ++ (List.range n).filter fun i => decide (i ∉ I)) := by
    rw [List.perm_ext_iff_of_nodup List.nodup_range]
    · intro a
      simp only [List.mem_range, List.mem_append, List.mem_filter, decide_eq_true_eq]
      constructor
      · intro h
        by_cases ha : a ∈ I
        · exact Or.inl ha
        · exact Or.inr ⟨h, ha⟩
      · rintro (h | h)
        · exact hI a h
        · exact h.1
    · refine List.Nodup.append hn (List.nodup_range.filter _) ?_
      intro a ha hb
      simp only [List.mem_filter, decide_eq_true_eq] at hb
      exact hb.2 ha
  unfold rsum
  rw [(hp.map _).sum_eq, List.map_append, List.sum_append]
  congr 1
  · congr 1
    apply List.map_congr_left
    intro a ha
    simp [ha]
  · congr 1
    apply List.map_congr_left
    intro a ha
    simp only [List.mem_filter, decide_eq_true_eq] at ha
    simp [ha.2]

/-- Closed form of the right-hand side of a cut. -/
theorem cut_rhs {c : K} {w : Vec K} {b : K} {lo up : Vec K} {I : List ℕ} {t : Cut K}
    (h : cutWithIndices c w b lo up I = some t) (hn : I.Nodup) (x : Vec K) (β : K) :
    t.xc.length = w.length ∧
    t.rhs x β = b * c + b * (1 - c) * β
      + rsum w.length fun i => if i ∈ I then tin c w lo up x β i else tout c w lo up x β i := by
  unfold cutWithIndices at h
  split at h
  · rename_i hc
    cases h
    have h1 := foldl_cutIn c w lo up x β I ⟨zeros w.length, b * (1 - c), b * c⟩ (by simp)
      hc.2.2.2.2
    have h2 := foldl_cutOut c w lo up x β ((List.range w.length).filter fun i => decide (i ∉ I))
      (I.foldl (cutIn c w lo up) ⟨zeros w.length, b * (1 - c), b * c⟩) h1.1
      (fun i hi => by simp at hi; exact hi.1)
    refine ⟨h2.1, ?_⟩
    rw [h2.2, h1.2, ← sum_split w.length I hn hc.2.2.2.2]
    simp only [Cut.rhs, dot_zeros_left]
    ring
  · cases h

theorem wlo_le {w lo up x : Vec K} (hx : InBox lo up x) (i : ℕ) (hi : i < x.length) :
    wlo w lo up i ≤ w.getD i 0 * x.getD i 0 ∧ w.getD i 0 * x.getD i 0 ≤ wup w lo up i := by
  obtain ⟨-, -, h⟩ := hx
  obtain ⟨h1, h2⟩ := h i hi
  unfold wlo wup
  split
  · rename_i hw
    exact ⟨mul_le_mul_of_nonneg_left h1 hw, mul_le_mul_of_nonneg_left h2 hw⟩
  · rename_i hw
    have := (not_le.1 hw).le
    exact ⟨mul_le_mul_of_nonpos_left h2 this, mul_le_mul_of_nonpos_left h1 this⟩

theorem cut_some {c : K} {w : Vec K} {b : K} {lo up : Vec K} {I : List ℕ} {t : Cut K}
    (h : cutWithIndices c w b lo up I = some t) :
    0 ≤ c ∧ c < 1 ∧ lo.length = w.length ∧ up.length = lo.length ∧ ∀ i ∈ I, i < w.length := by
  unfold cutWithIndices at h
  split at h
  · assumption
  · cases h

/-- A cut holds at every integer point of the unit. -/
theorem cut_valid {c : K} {w : Vec K} {b : K} {lo up : Vec K} {I : List ℕ} {t : Cut K}
    (h : cutWithIndices c w b lo up I = some t) (hn : I.Nodup) {x : Vec K} {β : K}
    (hx : InBox lo up x) (hβ : β = 0 ∨ β = 1) (h1 : β = 1 → 0 ≤ dot w x + b)
    (h0 : β = 0 → dot w x + b ≤ 0) : leaky c (dot w x + b) ≤ t.rhs x β := by
  obtain ⟨hc0, hc1, hl, hu, hI⟩ := cut_some h
  have hlen : x.length = w.length := by rw [hx.1, hl]
  rw [(cut_rhs h hn x β).2]
  have hd := dot_eq_rsum w x w.length (le_refl _)
  rcases hβ with rfl | rfl
  · rw [leaky_of_nonpos (h0 rfl), hd]
    have : rsum w.length (fun i => c * (w.getD i 0 * x.getD i 0)) ≤ rsum w.length fun i =>
        if i ∈ I then tin c w lo up x 0 i else tout c w lo up x 0 i := by
      apply rsum_le
      intro i hi
      obtain ⟨a1, a2⟩ := wlo_le (w := w) hx i (by omega)
      split
      · simp only [tin]
        nlinarith [mul_nonneg (sub_nonneg.2 hc1.le) (sub_nonneg.2 a1)]
      · simp only [tout]; linarith
    rw [rsum_mul] at this
    linarith
  · rw [leaky_of_nonneg (h1 rfl), hd]
    have : rsum w.length (fun i => w.getD i 0 * x.getD i 0) ≤ rsum w.length fun i =>
        if i ∈ I then tin c w lo up x 1 i else tout c w lo up x 1 i := by
      apply rsum_le
      intro i hi
      obtain ⟨a1, a2⟩ := wlo_le (w := w) hx i (by omega)
      split
      · simp only [tin]; linarith
      · simp only [tout]
        nlinarith [mul_nonneg (sub_nonneg.2 hc1.le) (sub_nonneg.2 a2)]
    linarith

theorem findIndexSet_nodup (w lo up xh : Vec K) (bh : K) : (findIndexSet w lo up xh bh).Nodup :=
  List.nodup_range.filter _

theorem findIndexSet_lt (w lo up xh : Vec K) (bh : K) : ∀ i ∈ findIndexSet w lo up xh bh,
    i < w.length := by
  intro i hi
  simp only [findIndexSet, List.mem_filter, List.mem_range] at hi
  exact hi.1

/-- In the set exactly where the term for being in the set is the smaller one. -/
theorem findIndexSet_min (c : K) (w lo up x : Vec K) (β : K) (hc : c < 1) (i : ℕ)
    (hi : i < w.length) :
    (if i ∈ findIndexSet w lo up x β then tin c w lo up x β i else tout c w lo up x β i)
      = min (tin c w lo up x β i) (tout c w lo up x β i) := by
  have key : tin c w lo up x β i - tout c w lo up x β i = (1 - c) * (w.getD i 0 * x.getD i 0
      - (1 - β) * wlo w lo up i - β * wup w lo up i) := by
    simp only [tin, tout]; ring
  have hc' : 0 < 1 - c := by linarith
  have hmem : i ∈ findIndexSet w lo up x β ↔
      (w.getD i 0 ≥ 0 ∧ x.getD i 0 ≤ (1 - β) * lo.getD i 0 + β * up.getD i 0) ∨
      (w.getD i 0 < 0 ∧ x.getD i 0 > (1 - β) * up.getD i 0 + β * lo.getD i 0) := by
    simp only [findIndexSet, List.mem_filter, List.mem_range, hi, true_and, Bool.or_eq_true,
      decide_eq_true_eq]
  by_cases hw : w.getD i 0 ≥ 0
  · have e1 : wlo w lo up i = w.getD i 0 * lo.getD i 0 := by unfold wlo; rw [if_pos hw]
    have e2 : wup w lo up i = w.getD i 0 * up.getD i 0 := by unfold wup; rw [if_pos hw]
    rw [e1, e2] at key
    have key2 : tin c w lo up x β i - tout c w lo up x β i = (1 - c) * (w.getD i 0 *
        (x.getD i 0 - ((1 - β) * lo.getD i 0 + β * up.getD i 0))) := by rw [key]; ring
    by_cases hm : x.getD i 0 ≤ (1 - β) * lo.getD i 0 + β * up.getD i 0
    · rw [if_pos (hmem.2 (Or.inl ⟨hw, hm⟩)), min_eq_left]
      have := mul_nonpos_of_nonneg_of_nonpos hc'.le
        (mul_nonpos_of_nonneg_of_nonpos hw (sub_nonpos.2 hm))
      linarith
    · rw [if_neg, min_eq_right]
      · have := mul_nonneg hc'.le (mul_nonneg hw (sub_nonneg.2 (not_le.1 hm).le))
        linarith
      · rw [hmem]
        rintro (h | h)
        · exact hm h.2
        · exact absurd h.1 (not_lt.2 hw)
  · have hw' := not_le.1 hw
    have e1 : wlo w lo up i = w.getD i 0 * up.getD i 0 := by unfold wlo; rw [if_neg hw]
    have e2 : wup w lo up i = w.getD i 0 * lo.getD i 0 := by unfold wup; rw [if_neg hw]
    rw [e1, e2] at key
    have key2 : tin c w lo up x β i - tout c w lo up x β i = (1 - c) * (w.getD i 0 *
        (x.getD i 0 - ((1 - β) * up.getD i 0 + β * lo.getD i 0))) := by rw [key]; ring
    by_cases hm : x.getD i 0 > (1 - β) * up.getD i 0 + β * lo.getD i 0
    · rw [if_pos (hmem.2 (Or.inr ⟨hw', hm⟩)), min_eq_left]
      have := mul_nonpos_of_nonneg_of_nonpos hc'.le
        (mul_nonpos_of_nonpos_of_nonneg hw'.le (sub_nonneg.2 (le_of_lt hm)))
      linarith
    · rw [if_neg, min_eq_right]
      · have := mul_nonneg hc'.le (mul_nonneg_of_nonpos_of_nonpos hw'.le (sub_nonpos.2 (not_lt.1 hm)))
        linarith
      · rw [hmem]
        rintro (h | h)
        · exact hw h.1
        · exact hm h.2

theorem cutWithIndices_isSome {c : K} {w : Vec K} {b : K} {lo up : Vec K} {I : List ℕ}
    (h : 0 ≤ c ∧ c < 1 ∧ lo.length = w.length ∧ up.length = lo.length ∧ ∀ i ∈ I, i < w.length) :
    ∃ t, cutWithIndices c w b lo up I = some t := by
  unfold cutWithIndices
  rw [if_pos h]
  exact ⟨_, rfl⟩

theorem cut_optimal {c : K} {w : Vec K} {b : K} {lo up : Vec K} {I : List ℕ} {t t' : Cut K}
    {x : Vec K} {β : K} (hI : I.Nodup)
    (h : cutWithIndices c w b lo up (findIndexSet w lo up x β) = some t)
    (h' : cutWithIndices c w b lo up I = some t') : t.rhs x β ≤ t'.rhs x β := by
  rw [(cut_rhs h (findIndexSet_nodup _ _ _ _ _) x β).2, (cut_rhs h' hI x β).2]
  have hc := (cut_some h).2.1
  have := rsum_le w.length
    (fun i => if i ∈ findIndexSet w lo up x β then tin c w lo up x β i else tout c w lo up x β i)
    (fun i => if i ∈ I then tin c w lo up x β i else tout c w lo up x β i) (by
      intro i hi
      rw [findIndexSet_min c w lo up x β hc i hi]
      split
      · exact min_le_left _ _
      · exact min_le_right _ _)
  linarith

/-! ### The whole network -/

theorem dot_setSlice (v : Vec K) (o : ℕ) (w s : Vec K) (h : o + w.length ≤ v.length) :
    dot (setSlice v o w) s
      = dot v s - dot ((v.drop o).take w.length) (s.drop o) + dot w (s.drop o) := by
  have e : dot v s = dot (v.take o ++ (v.drop o).take w.length ++ v.drop (o + w.length)) s := by
    congr 1
    rw [List.append_assoc, ← List.drop_drop, List.take_append_drop, List.take_append_drop]
  rw [e, setSlice]
  simp only [dot_append_left, List.length_append, List.length_take, List.length_drop]
  have h1 : min o v.length = o := by omega
  have h2 : min w.length (v.length - o) = w.length := by omega
  rw [h1, h2, List.drop_take, Nat.add_sub_cancel_left,
    dot_take_of_length ((v.drop o).take w.length) _ _ (by simp),
    dot_take_of_length w _ _ (le_refl _)]
  ring

theorem act_f_eq (a : Act K) (p : K) : a.f p = leaky (actSlope a) p := by
  cases a with
  | relu => rw [actSlope, leaky_zero_eq_relu]; rfl
  | leaky c => rfl

/-- Value of the row built for a cut. -/
theorem unitCut_val {first : Bool} {xs n offPrev off j : ℕ} {x s z : Vec K} {t : Cut K} {k : ℕ}
    (ht : t.xc.length = k) (hn : off + j < n)
    (hf2 : first = false → offPrev + k = off) :
    (⟨if first then vneg t.xc else zeros xs,
        if first then (zeros n).set (off + j) 1 else
          setSlice ((zeros n).set (off + j) 1) offPrev (vneg t.xc),
        (zeros n).set (off + j) (-t.bc), t.const⟩ : LRow K).val x s z
      = s.getD (off + j) 0 - dot t.xc (if first then x else (s.drop offPrev).take k)
        - t.bc * z.getD (off + j) 0 := by
  simp only [LRow.val]
  rw [dot_set_zeros _ _ _ _ hn]
  cases first with
  | true =>
    simp only [if_true]
    rw [dot_set_zeros _ _ _ _ hn, dot_vneg_left]
    ring
  | false =>
    have ho := hf2 rfl
    simp only [Bool.false_eq_true, if_false, dot_zeros_left, zero_add]
    have hz : (((zeros n : Vec K).set (off + j) 1).drop offPrev).take (vneg t.xc).length
        = zeros k := by
      rw [length_vneg, ht]
      apply vec_ext
      · simp; omega
      · intro i hi
        have hi' : i < k := by simp at hi; omega
        rw [getD_take _ _ _ hi', getD_drop, getD_zeros]
        have : off + j ≠ offPrev + i := by omega
        simp [List.getD, this]
    rw [dot_setSlice _ _ _ _ (by simp [ht]; omega), hz, dot_set_zeros _ _ _ _ hn, dot_zeros_left,
      dot_vneg_left, dot_take_of_length _ _ _ (by omega)]
    ring

theorem strengthenAt_valid {xs n : ℕ} {pt bp lo up plo pup x s z : Vec K} {m : ℕ} (hz : IsBin z) :
    ∀ (hs : List (Lin K × Act K)) (first : Bool) (offPrev off cnt k : ℕ) (rows : List (LRow K)),
      strengthenAt xs n pt bp lo up first offPrev off cnt hs = some rows →
      HidOk k hs m → off + numUnits hs ≤ n → s.length = n →
      (first = false → offPrev + k = off) → (first = true → x.length = k) →
      InBox (lo.drop cnt) (up.drop cnt)
        ((if first then x else (s.drop offPrev).take k) ++ s.drop off) →
      ChainSpec hs (if first then x else (s.drop offPrev).take k) (s.drop off) (z.drop off)
        (plo.drop off) (pup.drop off) →
      ∀ r ∈ rows, r.val x s z ≤ r.rhs := by
  intro hs
  induction hs with
  | nil =>
    intro first offPrev off cnt k rows h _ _ _ _ _ _ _
    cases h
    simp
  | cons p rest ih =>
    obtain ⟨l, a⟩ := p
    intro first offPrev off cnt k rows h hok hn hs hf2 hf1 hbox hch
    obtain ⟨hk, hl, hrest⟩ := hok
    subst hk
    simp only [numUnits] at hn
    unfold strengthenAt at h
    split at h
    · rename_i rs rr hrs hrr
      cases h
      have hzc : (if first then x else (s.drop offPrev).take l.inF).length = l.inF := by
        cases first with
        | true => simpa using hf1 rfl
        | false =>
          have := hf2 rfl
          simp; omega
      have hb1 := inBox_take hbox l.inF
      rw [List.take_left' hzc] at hb1
      have hb2 := inBox_drop hbox l.inF
      rw [List.drop_left' hzc, List.drop_drop, List.drop_drop] at hb2
      intro r hr
      rcases List.mem_append.1 hr with hr | hr
      · obtain ⟨rl, hrl, hr⟩ := List.mem_flatten.1 hr
        obtain ⟨j, hj, hj2⟩ := (collect_mem _ _ _ hrs).2 rl hrl
        have hj := List.mem_range.1 hj
        unfold unitCut at hj2
        simp only at hj2
        split at hj2
        · cases hj2
        · rename_i t ht
          cases hj2
          split at hr
          · simp only [List.mem_singleton] at hr
            subst hr
            have hw : (l.W.getD j []).length = l.inF := by
              have e : l.W.getD j [] = l.W[j] := by simp [List.getD, hj]
              rw [e]; exact hl.1 _ (List.getElem_mem hj)
            have hc := cut_some ht
            rw [unitCut_val (k := l.inF)
              (by rw [(cut_rhs ht (findIndexSet_nodup _ _ _ _ _) [] 0).1, hw]) (by omega) hf2]
            obtain ⟨hy, hβ⟩ := hch.1 j hj
            simp only [getD_drop] at hy hβ
            have hv := cut_valid ht (findIndexSet_nodup _ _ _ _ _) (β := z.getD (off + j) 0)
              (by exact hb1) (getD_isBin hz _)
              (by
                rcases hβ with ⟨-, -, e⟩ | hβ
                · rw [e] at hc; exact absurd hc.2.1 (lt_irrefl _)
                · exact hβ.2.2.1)
              (by
                rcases hβ with ⟨-, -, e⟩ | hβ
                · rw [e] at hc; exact absurd hc.2.1 (lt_irrefl _)
                · exact hβ.2.2.2.1)
            rw [act_f_eq] at hy
            have hb' : (l.bias.getD (zeros l.W.length)) = l.b := rfl
            rw [hb', ← hy] at hv
            unfold Cut.rhs at hv
            simp only
            linarith
          · simp at hr
      · refine ih false off (off + l.W.length) (cnt + l.inF) l.W.length rr hrr hrest (by omega) hs
          (by simp) (by simp) ?_ ?_ r hr
        · simp only [Bool.false_eq_true, if_false]
          have e : s.drop (off + l.W.length) = (s.drop off).drop l.W.length := by
            rw [List.drop_drop]
          rw [e, List.take_append_drop]
          exact hb2
        · simp only [Bool.false_eq_true, if_false]
          have := hch.2
          simpa only [List.drop_drop] using this
    · cases h

/-! ### The ideal formulation -/

theorem wlo_le_wup {w lo up : Vec K} (i : ℕ) (h : lo.getD i 0 ≤ up.getD i 0) :
    wlo w lo up i ≤ wup w lo up i := by
  unfold wlo wup
  split
  · rename_i hw
    exact mul_le_mul_of_nonneg_left h hw
  · rename_i hw
    exact mul_le_mul_of_nonpos_left h (not_le.1 hw).le

theorem rowUp_eq (w lo up : Vec K) (b : K) (hl : lo.length = w.length) (hu : up.length = w.length) :
    rowUp w b lo up = rsum w.length (wup w lo up) + b ∧
      rowLo w b lo up = rsum w.length (wlo w lo up) + b := by
  induction w generalizing lo up with
  | nil => simp [rowUp, rowLo]
  | cons a w ih =>
    match lo, up, hl, hu with
    | l :: lo, u :: up, hl, hu =>
      have := ih lo up (by simpa using hl) (by simpa using hu)
      rw [rowUp_cons, rowLo_cons, this.1, this.2]
      simp only [rsum, List.length_cons, List.range_succ_eq_map, List.map_cons, List.map_map,
        List.sum_cons]
      have e1 : wup (a :: w) (l :: lo) (u :: up) ∘ Nat.succ = wup w lo up := rfl
      have e2 : wlo (a :: w) (l :: lo) (u :: up) ∘ Nat.succ = wlo w lo up := rfl
      rw [e1, e2]
      have e3 : wup (a :: w) (l :: lo) (u :: up) 0 = a * if a ≥ 0 then u else l := rfl
      have e4 : wlo (a :: w) (l :: lo) (u :: up) 0 = a * if a ≥ 0 then l else u := rfl
      rw [e3, e4]
      rcases lt_trichotomy a 0 with h | h | h
      · simp [h.not_gt, not_le.2 h]; constructor <;> ring
      · subst h; simp
      · simp [h, h.le]; constructor <;> ring

/-- Smallest and largest admissible share of `βx₁` in coordinate `i`. -/
def shLo (β : K) (lo up x : Vec K) (i : ℕ) : K :=
  max (β * lo.getD i 0) (x.getD i 0 - (1 - β) * up.getD i 0)
def shUp (β : K) (lo up x : Vec K) (i : ℕ) : K :=
  min (β * up.getD i 0) (x.getD i 0 - (1 - β) * lo.getD i 0)

theorem shLo_le {β : K} {lo up x : Vec K} (h0 : 0 ≤ β) (h1 : β ≤ 1) (hx : InBox lo up x) (i : ℕ)
    (hi : i < x.length) : shLo β lo up x i ≤ shUp β lo up x i := by
  obtain ⟨a, b⟩ := hx.2.2 i hi
  have c := a.trans b
  unfold shLo shUp
  refine max_le (le_min ?_ ?_) (le_min ?_ ?_)
  · exact mul_le_mul_of_nonneg_left c h0
  · linarith
  · linarith
  · have := mul_le_mul_of_nonneg_left c (sub_nonneg.2 h1)
    linarith

/-- The share minimising or maximising `wᵢ uᵢ`. -/
def argLo (β : K) (w lo up x : Vec K) (i : ℕ) : K :=
  if w.getD i 0 ≥ 0 then shLo β lo up x i else shUp β lo up x i
def argUp (β : K) (w lo up x : Vec K) (i : ℕ) : K :=
  if w.getD i 0 ≥ 0 then shUp β lo up x i else shLo β lo up x i

theorem w_argUp (β : K) (w lo up x : Vec K) (i : ℕ) :
    w.getD i 0 * argUp β w lo up x i
      = min (β * wup w lo up i) (w.getD i 0 * x.getD i 0 - (1 - β) * wlo w lo up i) := by
  unfold argUp wup wlo shUp shLo
  split
  · rename_i h
    rw [mul_min_of_nonneg _ _ h]
    congr 1 <;> ring
  · rename_i h
    have h := (not_le.1 h).le
    rw [← min_mul_max_aux h]
    congr 1 <;> ring
where
  min_mul_max_aux {a : K} (h : a ≤ 0) {b c : K} : min (a * b) (a * c) = a * max b c := by
    rcases le_total b c with e | e
    · rw [max_eq_right e, min_eq_right (mul_le_mul_of_nonpos_left e h)]
    · rw [max_eq_left e, min_eq_left (mul_le_mul_of_nonpos_left e h)]

theorem w_argLo_le {β : K} {w lo up x : Vec K} (h0 : 0 ≤ β) (h1 : β ≤ 1) (hx : InBox lo up x) (i : ℕ)
    (hi : i < x.length) :
    (w.getD i 0 * argLo β w lo up x i = β * wlo w lo up i ∨
      w.getD i 0 * argLo β w lo up x i = w.getD i 0 * x.getD i 0 - (1 - β) * wup w lo up i) ∧
    w.getD i 0 * argLo β w lo up x i ≤ w.getD i 0 * argUp β w lo up x i := by
  have hs := shLo_le h0 h1 hx i hi
  constructor
  · unfold argLo wup wlo shUp shLo
    split
    · rcases max_choice (β * lo.getD i 0) (x.getD i 0 - (1 - β) * up.getD i 0) with e | e
      · left; rw [e]; ring
      · right; rw [e]; ring
    · rcases min_choice (β * up.getD i 0) (x.getD i 0 - (1 - β) * lo.getD i 0) with e | e
      · left; rw [e]; ring
      · right; rw [e]; ring
  · unfold argLo argUp
    split
    · rename_i h
      exact mul_le_mul_of_nonneg_left hs h
    · rename_i h
      exact mul_le_mul_of_nonpos_left hs (not_le.1 h).le

/-- Smallest total share is at most `max(0, p)`. -/
theorem sum_argLo {β : K} {w lo up x : Vec K} {b : K} (h0 : 0 ≤ β) (h1 : β ≤ 1)
    (hx : InBox lo up x) (hw : w.length = x.length) :
    rsum w.length (fun i => w.getD i 0 * argLo β w lo up x i) + β * b
      ≤ max 0 (rsum w.length (fun i => w.getD i 0 * x.getD i 0) + b) := by
  classical
  let g : ℕ → K := fun i =>
    if w.getD i 0 * argLo β w lo up x i = β * wlo w lo up i then wlo w lo up i else wup w lo up i
  have a1 : rsum w.length (fun i => w.getD i 0 * argLo β w lo up x i) ≤ β * rsum w.length g := by
    rw [← rsum_mul]
    apply rsum_le
    intro i hi
    obtain ⟨b1, b2⟩ := wlo_le (w := w) hx i (by omega)
    simp only [g]
    split
    · rename_i e; rw [e]
    · rename_i e
      rw [((w_argLo_le h0 h1 hx i (by omega)).1.resolve_left e)]
      linarith
  have a2 : rsum w.length (fun i => w.getD i 0 * argLo β w lo up x i)
      ≤ rsum w.length (fun i => w.getD i 0 * x.getD i 0) - (1 - β) * rsum w.length g := by
    rw [← rsum_mul, sub_eq_add_neg, ← neg_one_mul, ← rsum_mul, ← rsum_add]
    apply rsum_le
    intro i hi
    obtain ⟨b1, b2⟩ := wlo_le (w := w) hx i (by omega)
    simp only [g]
    split
    · rename_i e; rw [e]; nlinarith
    · rename_i e
      rw [((w_argLo_le h0 h1 hx i (by omega)).1.resolve_left e)]
      linarith
  rcases le_total (rsum w.length g + b) 0 with hg | hg
  · apply le_max_of_le_left
    have := mul_nonpos_of_nonneg_of_nonpos h0 hg
    linarith
  · apply le_max_of_le_right
    have := mul_nonneg (sub_nonneg.2 h1) hg
    linarith

/-- The largest total share is what the best cut allows. -/
theorem best_cut {c : K} {w : Vec K} {b : K} {lo up x : Vec K} {β : K} {t : Cut K}
    (h : cutWithIndices c w b lo up (findIndexSet w lo up x β) = some t) :
    t.rhs x β = c * (dot w x + b)
      + (1 - c) * (rsum w.length (fun i => w.getD i 0 * argUp β w lo up x i) + β * b) := by
  rw [(cut_rhs h (findIndexSet_nodup _ _ _ _ _) x β).2, dot_eq_rsum w x _ (le_refl _)]
  have hc := (cut_some h).2.1
  have : rsum w.length (fun i => if i ∈ findIndexSet w lo up x β then tin c w lo up x β i
      else tout c w lo up x β i)
      = c * rsum w.length (fun i => w.getD i 0 * x.getD i 0)
        + (1 - c) * rsum w.length (fun i => w.getD i 0 * argUp β w lo up x i) := by
    rw [← rsum_mul, ← rsum_mul, ← rsum_add]
    apply rsum_congr
    intro i hi
    rw [findIndexSet_min c w lo up x β hc i hi, w_argUp, mul_min_of_nonneg _ _ (sub_nonneg.2 hc.le),
      ← min_add_add_left, min_comm]
    simp only [tin, tout]
    congr 1 <;> ring
  rw [this]
  ring

theorem exists_interp (m M q : K) (h1 : m ≤ q) (h2 : q ≤ M) :
    ∃ t, 0 ≤ t ∧ t ≤ 1 ∧ (1 - t) * m + t * M = q := by
  rcases eq_or_lt_of_le (h1.trans h2) with e | e
  · exact ⟨0, le_refl _, zero_le_one, by rw [← e] at h2; linarith⟩
  · have h : 0 < M - m := sub_pos.2 e
    refine ⟨(q - m) / (M - m), div_nonneg (by linarith) h.le, (div_le_one h).2 (by linarith), ?_⟩
    field_simp
    ring

/-- Decomposition of a point of the relaxation. -/
theorem hull_point {c : K} {w : Vec K} {b : K} {lo up x : Vec K} {β y : K} (hc : c < 1)
    (h0 : 0 ≤ β) (h1 : β ≤ 1) (hx : InBox lo up x) (hw : w.length = x.length)
    (hy1 : dot w x + b ≤ y) (hy2 : c * (dot w x + b) ≤ y)
    (hy3 : y ≤ c * (dot w x + b)
      + (1 - c) * (rsum w.length (fun i => w.getD i 0 * argUp β w lo up x i) + β * b)) :
    ∃ x0 x1, InBox lo up x0 ∧ InBox lo up x1 ∧
      (∀ i, i < w.length → x.getD i 0 = (1 - β) * x0.getD i 0 + β * x1.getD i 0) ∧
      (β < 1 → dot w x0 + b ≤ 0) ∧ (0 < β → 0 ≤ dot w x1 + b) ∧
      y = (1 - β) * (c * (dot w x0 + b)) + β * (dot w x1 + b) := by
  have hc' : 0 < 1 - c := sub_pos.2 hc
  obtain ⟨q, hq⟩ : ∃ q, y = c * (dot w x + b) + (1 - c) * q :=
    ⟨(y - c * (dot w x + b)) / (1 - c), by field_simp; ring⟩
  have q0 : 0 ≤ q := by
    have : 0 ≤ (1 - c) * q := by linarith
    exact nonneg_of_mul_nonneg_right this hc'
  have q1 : dot w x + b ≤ q := by
    have : (1 - c) * (dot w x + b) ≤ (1 - c) * q := by linarith
    exact le_of_mul_le_mul_left this hc'
  have q2 : q ≤ rsum w.length (fun i => w.getD i 0 * argUp β w lo up x i) + β * b := by
    have := hy3
    rw [hq] at this
    exact le_of_mul_le_mul_left (by linarith) hc'
  have q3 : rsum w.length (fun i => w.getD i 0 * argLo β w lo up x i) + β * b ≤ q := by
    refine le_trans (sum_argLo h0 h1 hx hw) (max_le q0 ?_)
    rw [← dot_eq_rsum w x _ (le_refl _)]; exact q1
  obtain ⟨t, t0, t1, ht⟩ := exists_interp _ _ _ q3 q2
  let u : ℕ → K := fun i => (1 - t) * argLo β w lo up x i + t * argUp β w lo up x i
  have hu : rsum w.length (fun i => w.getD i 0 * u i) + β * b = q := by
    rw [← ht]
    have : rsum w.length (fun i => w.getD i 0 * u i)
        = (1 - t) * rsum w.length (fun i => w.getD i 0 * argLo β w lo up x i)
          + t * rsum w.length (fun i => w.getD i 0 * argUp β w lo up x i) := by
      rw [← rsum_mul, ← rsum_mul, ← rsum_add]
      apply rsum_congr
      intro i _
      simp only [u]; ring
    rw [this]; ring
  have hub : ∀ i, i < x.length → shLo β lo up x i ≤ u i ∧ u i ≤ shUp β lo up x i := by
    intro i hi
    have hs := shLo_le h0 h1 hx i hi
    have a1 : shLo β lo up x i ≤ argLo β w lo up x i ∧ argLo β w lo up x i ≤ shUp β lo up x i := by
      unfold argLo; split <;> constructor <;> first | exact le_refl _ | exact hs
    have a2 : shLo β lo up x i ≤ argUp β w lo up x i ∧ argUp β w lo up x i ≤ shUp β lo up x i := by
      unfold argUp; split <;> constructor <;> first | exact le_refl _ | exact hs
    have t1' : 0 ≤ 1 - t := sub_nonneg.2 t1
    simp only [u]
    constructor <;> nlinarith [mul_le_mul_of_nonneg_left a1.1 t1', mul_le_mul_of_nonneg_left a2.1 t0,
      mul_le_mul_of_nonneg_left a1.2 t1', mul_le_mul_of_nonneg_left a2.2 t0]
  have hl := hx.1
  have hup := hx.2.1
  -- the two end points
  have mk : ∀ f : ℕ → K, (∀ i, i < x.length → lo.getD i 0 ≤ f i ∧ f i ≤ up.getD i 0) →
      InBox lo up ((List.range x.length).map f) := by
    intro f hf
    refine ⟨by simp [hl], by simp [hup], fun i hi => ?_⟩
    have hi' : i < x.length := by simpa using hi
    rw [getD_range_map _ _ _ hi']
    exact hf i hi'
  have dt : ∀ f : ℕ → K, dot w ((List.range x.length).map f) = rsum w.length fun i =>
      w.getD i 0 * f i := by
    intro f
    rw [dot_eq_rsum w _ _ (le_refl _)]
    apply rsum_congr
    intro i hi
    rw [getD_range_map _ _ _ (by omega)]
  have hdx := dot_eq_rsum w x _ (le_refl _)
  rcases eq_or_lt_of_le h0 with hβ | hβ
  · -- β = 0
    subst hβ
    have hu0 : ∀ i, i < x.length → u i = 0 := by
      intro i hi
      obtain ⟨b1, b2⟩ := hub i hi
      have c1 : (0 : K) ≤ u i := le_trans (by unfold shLo; simp) b1
      have c2 : u i ≤ 0 := le_trans b2 (by unfold shUp; simp)
      exact le_antisymm c2 c1
    have hq0 : q = 0 := by
      rw [← hu]
      have : rsum w.length (fun i => w.getD i 0 * u i) = rsum w.length fun _ => 0 * (0 : K) :=
        rsum_congr _ _ _ fun i hi => by rw [hu0 i (by omega)]; ring
      rw [this, rsum_mul]; ring
    refine ⟨x, x, hx, hx, fun i _ => by ring, fun _ => ?_, fun h => absurd h (lt_irrefl _), ?_⟩
    · rw [hq0] at q1; exact q1
    · rw [hq, hq0]; ring
  · rcases eq_or_lt_of_le h1 with hβ1 | hβ1
    · -- β = 1
      subst hβ1
      have hu1 : ∀ i, i < x.length → u i = x.getD i 0 := by
        intro i hi
        obtain ⟨b1, b2⟩ := hub i hi
        have c1 : x.getD i 0 ≤ u i := le_trans (by unfold shLo; simp) b1
        have c2 : u i ≤ x.getD i 0 := le_trans b2 (by unfold shUp; simp)
        exact le_antisymm c2 c1
      have hq1 : q = dot w x + b := by
        rw [← hu, hdx]
        have : rsum w.length (fun i => w.getD i 0 * u i)
            = rsum w.length fun i => w.getD i 0 * x.getD i 0 :=
          rsum_congr _ _ _ fun i hi => by rw [hu1 i (by omega)]
        rw [this]; ring
      refine ⟨x, x, hx, hx, fun i _ => by ring, fun h => absurd h (lt_irrefl _), fun _ => ?_, ?_⟩
      · rw [← hq1]; exact q0
      · rw [hq, hq1]; ring
    · have h1' : 0 < 1 - β := sub_pos.2 hβ1
      have e1 : dot w ((List.range x.length).map fun i => u i / β) = (q - β * b) / β := by
        rw [dt, ← hu]
        have : rsum w.length (fun i => w.getD i 0 * (u i / β))
            = rsum w.length fun i => (1 / β) * (w.getD i 0 * u i) :=
          rsum_congr _ _ _ fun i _ => by ring
        rw [this, rsum_mul]; ring
      have e0 : dot w ((List.range x.length).map fun i => (x.getD i 0 - u i) / (1 - β))
          = (dot w x - (q - β * b)) / (1 - β) := by
        rw [dt, ← hu, hdx]
        have : rsum w.length (fun i => w.getD i 0 * ((x.getD i 0 - u i) / (1 - β)))
            = (1 / (1 - β)) * rsum w.length (fun i => w.getD i 0 * x.getD i 0)
              + (-1 / (1 - β)) * rsum w.length (fun i => w.getD i 0 * u i) := by
          rw [← rsum_mul, ← rsum_mul, ← rsum_add]
          exact rsum_congr _ _ _ fun i _ => by ring
        rw [this]; ring
      refine ⟨_, _, mk (fun i => (x.getD i 0 - u i) / (1 - β)) ?_, mk (fun i => u i / β) ?_, ?_, ?_,
        ?_, ?_⟩
      · intro i hi
        obtain ⟨b1, b2⟩ := hub i hi
        have c1 : x.getD i 0 - (1 - β) * up.getD i 0 ≤ u i :=
          le_trans (by unfold shLo; exact le_max_right _ _) b1
        have c2 : u i ≤ x.getD i 0 - (1 - β) * lo.getD i 0 :=
          le_trans b2 (by unfold shUp; exact min_le_right _ _)
        rw [le_div_iff₀ h1', div_le_iff₀ h1']
        constructor <;> linarith
      · intro i hi
        obtain ⟨b1, b2⟩ := hub i hi
        have c1 : β * lo.getD i 0 ≤ u i := le_trans (by unfold shLo; exact le_max_left _ _) b1
        have c2 : u i ≤ β * up.getD i 0 := le_trans b2 (by unfold shUp; exact min_le_left _ _)
        rw [le_div_iff₀ hβ, div_le_iff₀ hβ]
        constructor <;> linarith
      · intro i hi
        rw [getD_range_map _ _ _ (by omega), getD_range_map _ _ _ (by omega)]
        field_simp
        ring
      · intro _
        rw [e0]
        have : (dot w x - (q - β * b)) / (1 - β) + b = (dot w x + b - q) / (1 - β) := by
          field_simp; ring
        rw [this]
        exact div_nonpos_of_nonpos_of_nonneg (by linarith) h1'.le
      · intro _
        rw [e1]
        have : (q - β * b) / β + b = q / β := by field_simp; ring
        rw [this]
        exact div_nonneg q0 hβ.le
      · rw [e0, e1, hq]
        field_simp
        ring

end NNL.Model
