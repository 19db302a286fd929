import Verif.Lemmas.Cuts
import Verif.Props.Network

/-!
# C14, C15, C62: strengthening cuts
-/

set_option linter.unusedSectionVars false

namespace NNL.Props

open NNL NNL.Spec NNL.Model

variable {K : Type*} [Field K] [LinearOrder K] [IsStrictOrderedRing K]

/-! ## C14 -/

/-- The cut of any index set holds at every point of the box with output `leaky c (w x + b)` and a binary
which tells the sign of `w x + b`. -/
theorem C14_cut_valid {c : K} {w : Vec K} {b : K} {lo up : Vec K} {I : List ℕ} {t : Cut K}
    (h : cutWithIndices c w b lo up I = some t) (hn : I.Nodup) {x : Vec K} {β : K}
    (hx : InBox lo up x) (hβ : β = 0 ∨ β = 1) (h1 : β = 1 → 0 ≤ dot w x + b)
    (h0 : β = 0 → dot w x + b ≤ 0) : leaky c (dot w x + b) ≤ t.rhs x β :=
  cut_valid h hn hx hβ h1 h0

/-- The call returns for every slope in `[0, 1)`, matching shapes and index set within range. -/
theorem C14_cut_accepts (c : K) (w : Vec K) (b : K) (lo up : Vec K) (I : List ℕ) :
    (cutWithIndices c w b lo up I).isSome ↔
      0 ≤ c ∧ c < 1 ∧ lo.length = w.length ∧ up.length = lo.length ∧ ∀ i ∈ I, i < w.length := by
  unfold cutWithIndices
  split <;> simp_all

/-- Every cut returned by `strengthen_relu_mip`, selective or not, is one of the cuts of some index set. -/
theorem strengthenReluMip_mem {c : K} {w : Vec K} {b : K} {lo up : Vec K} {rl ru : K} {sel : Bool}
    {ts : List (Cut K)} (h : strengthenReluMip c w b lo up rl ru sel = some ts) :
    ∀ t ∈ ts, ∃ I : List ℕ, I.Nodup ∧ cutWithIndices c w b lo up I = some t := by
  unfold strengthenReluMip at h
  split at h
  · cases sel with
    | false =>
      simp only [Bool.false_eq_true, if_false] at h
      intro t ht
      obtain ⟨I, hI, hI2⟩ := (collect_mem _ _ _ h).2 t ht
      refine ⟨I, ?_, hI2⟩
      have := List.mem_sublists.1 (List.mem_filter.1 hI).1
      exact this.nodup List.nodup_range
    | true =>
      simp only [if_true, cutsSelective] at h
      split at h
      · cases h
      · rename_i vs hvs
        -- the invariant of the loop
        let P : Option (List (Cut K)) → Prop := fun o => ∀ ts, o = some ts →
          ∀ t ∈ ts, ∃ I : List ℕ, I.Nodup ∧ cutWithIndices c w b lo up I = some t
        have step : ∀ ex xh o bh, P o → P (selectiveStep c w b lo up ex xh o bh) := by
          intro ex xh o bh ho ts hts t ht
          unfold selectiveStep at hts
          split at hts
          · rename_i ts0 t0 ht0
            have hmem : t ∈ ts0 ∨ t = t0 := by
              split at hts
              · cases hts
                rcases List.mem_append.1 ht with h | h
                · exact Or.inl h
                · exact Or.inr (List.mem_singleton.1 h)
              · cases hts; exact Or.inl ht
            rcases hmem with h | h
            · exact ho _ rfl t h
            · subst h; exact ⟨_, findIndexSet_nodup _ _ _ _ _, ht0⟩
          · cases hts
        have loop : ∀ (vs : List (Vec K)) (o : Option (List (Cut K))), P o →
            P (vs.foldl (fun ts xh =>
              match ts with
              | none => none
              | some ts0 =>
                let r := betaRange c w b (existCuts c w b rl ru ++ ts0) xh
                [r.1, r.2].foldl (selectiveStep c w b lo up (existCuts c w b rl ru) xh) ts) o) := by
          intro vs
          induction vs with
          | nil => intro o ho; exact ho
          | cons v vs ih =>
            intro o ho
            rw [List.foldl_cons]
            apply ih
            cases o with
            | none => intro ts hts; cases hts
            | some ts0 =>
              simp only [List.foldl_cons, List.foldl_nil]
              exact step _ _ _ _ (step _ _ _ _ ho)
        exact loop vs (some []) (by intro ts hts; cases hts; simp) ts h
  · cases h

/-- All cuts returned by `strengthen_relu_mip` are valid. -/
theorem C14_strengthen_valid {c : K} {w : Vec K} {b : K} {lo up : Vec K} {rl ru : K} {sel : Bool}
    {ts : List (Cut K)} (h : strengthenReluMip c w b lo up rl ru sel = some ts) {x : Vec K} {β : K}
    (hx : InBox lo up x) (hβ : β = 0 ∨ β = 1) (h1 : β = 1 → 0 ≤ dot w x + b)
    (h0 : β = 0 → dot w x + b ≤ 0) : ∀ t ∈ ts, leaky c (dot w x + b) ≤ t.rhs x β := by
  intro t ht
  obtain ⟨I, hn, hI⟩ := strengthenReluMip_mem h t ht
  exact cut_valid hI hn hx hβ h1 h0

/-- All cuts returned by `strengthen_relu_mip_given_pts` are valid, and each of them is violated at the
point it was generated for. -/
theorem C14_given_pts_valid {c : K} {w : Vec K} {b : K} {lo up : Vec K}
    {pts : List (Vec K × K × K)} {ts : List (Cut K)}
    (h : cutsGivenPts c w b lo up pts = some ts) :
    ∀ t ∈ ts, (∃ p ∈ pts, t.rhs p.1 p.2.2 < p.2.1) ∧
      ∀ x β, InBox lo up x → (β = 0 ∨ β = 1) → (β = 1 → 0 ≤ dot w x + b) →
        (β = 0 → dot w x + b ≤ 0) → leaky c (dot w x + b) ≤ t.rhs x β := by
  induction pts generalizing ts with
  | nil => cases h; simp
  | cons p rest ih =>
    obtain ⟨xh, yh, bh⟩ := p
    unfold cutsGivenPts at h
    split at h
    · rename_i t0 r ht0 hr
      cases h
      intro t ht
      have : t ∈ r ∨ (t = t0 ∧ yh > t0.rhs xh bh) := by
        split at ht
        · rename_i hv
          rcases List.mem_cons.1 ht with h | h
          · exact Or.inr ⟨h, hv⟩
          · exact Or.inl h
        · exact Or.inl ht
      rcases this with h | ⟨rfl, hv⟩
      · obtain ⟨⟨p, hp, hp2⟩, h2⟩ := ih hr t h
        exact ⟨⟨p, by simp [hp], hp2⟩, h2⟩
      · exact ⟨⟨_, List.mem_cons_self, hv⟩, fun x β a1 a2 a3 a4 =>
          cut_valid ht0 (findIndexSet_nodup _ _ _ _ _) a1 a2 a3 a4⟩
    · cases h

/-- The rows that `strengthen_relu_mip_at_solution` adds to a program hold at every feasible point of the
encoding of the network, whatever (fractional) point they were generated for. -/
theorem C14_network_cuts_valid {net : Net K} {xs : ℕ} {xlo xup x s z pt bp : Vec K} {m : Method K}
    {r : ReluMIC K} (h : outputConstraint net xs xlo xup m = some r) (hok : net.Ok xs)
    (hm : MethodValid net xlo xup m) (hl : xlo.length = xs) (hu : xup.length = xs)
    (hx : x.length = xs) (hf : r.mic.Feas x s z) {rows : List (LRow K)}
    (hr : strengthenAt xs (numUnits net.hidden) pt bp (r.nnInputLo ++ r.reluOutputLo)
      (r.nnInputUp ++ r.reluOutputUp) true 0 0 0 net.hidden = some rows) :
    ∀ row ∈ rows, row.val x s z ≤ row.rhs := by
  obtain ⟨-, -, h3, e1, e2⟩ := outputConstraint_some h
  obtain ⟨f1, f2, f3, f4, f5⟩ := (outputCons_feas h3 hok hx hl hu).1 hf
  have hb := (C11_bounds_sound h hok hm f1).2.1
  have hs : s.length = numUnits net.hidden := by rw [f2, length_postacts_flatten hok.1]
  refine strengthenAt_valid (plo := r.reluInputLo) (pup := r.reluInputUp) f4 net.hidden true 0 0 0 xs
    rows hr hok.1 (by omega) hs (by simp) (fun _ => hx) ?_ ?_
  · simp only [if_true, List.drop_zero, e1, e2]
    exact inBox_append f1 (by rw [f2]; exact hb)
  · simp only [if_true, List.drop_zero]
    exact (chain_iff _ _ _ _ _ _ _ hok.1 hs).2 ⟨f2, f5⟩

/-- A cut for two inputs, one in the index set, with a point of each kind. -/
example : ∃ t : Cut ℚ, cutWithIndices (1 / 10) [1, -1] (1 / 2) [-1, -1] [1, 1] [1] = some t ∧
    leaky (1 / 10) (dot [1, -1] [1, (0 : ℚ)] + 1 / 2) ≤ t.rhs [1, 0] 1 ∧
    leaky (1 / 10) (dot [1, -1] [-1, (0 : ℚ)] + 1 / 2) ≤ t.rhs [-1, 0] 0 := by
  have h : (cutWithIndices (1 / 10) [1, -1] (1 / 2) [-1, -1] [1, 1] [1] : Option (Cut ℚ)).isSome :=
    (C14_cut_accepts _ _ _ _ _ _).2 (by norm_num)
  obtain ⟨t, ht⟩ := Option.isSome_iff_exists.1 h
  refine ⟨t, ht, C14_cut_valid ht (by simp) ?_ (Or.inr rfl) (by norm_num) (by norm_num),
    C14_cut_valid ht (by simp) ?_ (Or.inl rfl) (by norm_num) (by norm_num)⟩
  all_goals
    refine ⟨rfl, rfl, fun i hi => ?_⟩
    have : i < 2 := hi
    interval_cases i <;> norm_num

/-! ## C15 -/

/-- The set found gives the smallest right-hand side at the point among all index sets. -/
theorem C15_optimal {c : K} {w : Vec K} {b : K} {lo up : Vec K} {I : List ℕ} {t t' : Cut K}
    {x : Vec K} {β : K} (hI : I.Nodup)
    (h : cutWithIndices c w b lo up (findIndexSet w lo up x β) = some t)
    (h' : cutWithIndices c w b lo up I = some t') : t.rhs x β ≤ t'.rhs x β := cut_optimal hI h h'

/-- The set found is accepted by the cut generator. -/
theorem C15_accepts {c : K} {w : Vec K} (b : K) {lo up : Vec K} (x : Vec K) (β : K) (h0 : 0 ≤ c)
    (h1 : c < 1) (hl : lo.length = w.length) (hu : up.length = lo.length) :
    ∃ t, cutWithIndices c w b lo up (findIndexSet w lo up x β) = some t :=
  cutWithIndices_isSome ⟨h0, h1, hl, hu, findIndexSet_lt _ _ _ _ _⟩

/-- If `strengthen_relu_mip_given_pts` keeps no cut, no index set at all gives a cut violated at one of the
points. -/
theorem C15_none_violated {c : K} {w : Vec K} {b : K} {lo up : Vec K}
    {pts : List (Vec K × K × K)} (h : cutsGivenPts c w b lo up pts = some []) :
    ∀ p ∈ pts, ∀ I t', I.Nodup → cutWithIndices c w b lo up I = some t' →
      p.2.1 ≤ t'.rhs p.1 p.2.2 := by
  induction pts with
  | nil => simp
  | cons p rest ih =>
    obtain ⟨xh, yh, bh⟩ := p
    unfold cutsGivenPts at h
    split at h
    · rename_i t0 r ht0 hr
      split at h
      · simp at h
      · rename_i hv
        cases h
        intro p hp I t' hI ht'
        rcases List.mem_cons.1 hp with rfl | hp
        · exact le_trans (not_lt.1 hv) (cut_optimal hI ht0 ht')
        · exact ih hr p hp I t' hI ht'
    · cases h

/-- Unit-wise form of the same fact for a layer handled by `strengthen_mip_at_point`: if no row is added
for a unit, no index set gives a cut violated by more than the tolerance. -/
theorem C15_unit_none_violated {first : Bool} {xs n offPrev off j : ℕ} {l : Lin K} {a : Act K}
    {li lo up : Vec K} {y β : K} (h : unitCut first xs n offPrev off l a li lo up j y β = some []) :
    ∀ I t', I.Nodup →
      cutWithIndices (actSlope a) (l.W.getD j []) (l.b.getD j 0) lo up I = some t' →
      y ≤ t'.rhs li β + 1 / 1000000000000 := by
  intro I t' hI ht'
  unfold unitCut at h
  simp only at h
  split at h
  · cases h
  · rename_i t ht
    split at h
    · simp at h
    · rename_i hv
      have := cut_optimal hI ht ht'
      simp only [Cut.rhs] at this ⊢
      linarith [not_lt.1 hv]

/-- Two points with the empty and the full set as the best one. -/
example : findIndexSet [(1 : ℚ), 1] [-1, -1] [1, 1] [1 / 2, 1 / 2] (1 / 2) = [] ∧
    findIndexSet [(1 : ℚ), -1] [-1, -1] [1, 1] [-1 / 2, 1 / 2] (1 / 2) = [0, 1] := by
  constructor
  · simp only [findIndexSet, List.length_cons, List.length_nil, List.range_succ, List.range_zero]
    norm_num
  · simp only [findIndexSet, List.length_cons, List.length_nil, List.range_succ, List.range_zero]
    norm_num

/-! ## C62 -/

/-- Membership in the convex hull of the integer points of a unit: `(x, y, β)` is the average, with weights
`1 - β` and `β`, of a point with binary 0 (`w x0 + b <= 0`, output `c (w x0 + b)`) and a point with
binary 1 (`w x1 + b >= 0`, output `w x1 + b`), both in the box. A point of weight zero may be anything. -/
def InHull (c : K) (w : Vec K) (b : K) (lo up x : Vec K) (y β : K) : Prop :=
  0 ≤ β ∧ β ≤ 1 ∧ ∃ x0 x1, InBox lo up x0 ∧ InBox lo up x1 ∧
    (∀ i, i < w.length → x.getD i 0 = (1 - β) * x0.getD i 0 + β * x1.getD i 0) ∧
    (β < 1 → dot w x0 + b ≤ 0) ∧ (0 < β → 0 ≤ dot w x1 + b) ∧
    y = (1 - β) * leaky c (dot w x0 + b) + β * leaky c (dot w x1 + b)

theorem cut_convex {t : Cut K} {x x0 x1 : Vec K} {β : K} {n : ℕ} (ht : t.xc.length = n)
    (h : ∀ i, i < n → x.getD i 0 = (1 - β) * x0.getD i 0 + β * x1.getD i 0) :
    t.rhs x β = (1 - β) * t.rhs x0 0 + β * t.rhs x1 1 := by
  simp only [Cut.rhs]
  have e : ∀ v : Vec K, dot t.xc v = rsum n fun i => t.xc.getD i 0 * v.getD i 0 :=
    fun v => dot_eq_rsum _ _ _ ht.le
  have : dot t.xc x = (1 - β) * dot t.xc x0 + β * dot t.xc x1 := by
    rw [e, e, e, ← rsum_mul, ← rsum_mul, ← rsum_add]
    apply rsum_congr
    intro i hi
    rw [h i hi]; ring
  rw [this]; ring

/-- With all cuts (`selective = False`) next to the big-M rows for interval bounds, the linear relaxation
of a unit is exactly the convex hull of its integer points. -/
theorem C62_ideal {c : K} {w : Vec K} {b : K} {lo up x : Vec K} {y β : K} {ts : List (Cut K)}
    (h : strengthenReluMip c w b lo up (rowLo w b lo up) (rowUp w b lo up) false = some ts)
    (hc0 : 0 ≤ c) (hc1 : c < 1) (hl : lo.length = w.length) (hx : InBox lo up x) :
    (0 ≤ β ∧ β ≤ 1 ∧ dot w x + b ≤ y ∧ c * (dot w x + b) ≤ y ∧
        ∀ t ∈ existCuts c w b (rowLo w b lo up) (rowUp w b lo up) ++ ts, y ≤ t.rhs x β) ↔
      InHull c w b lo up x y β := by
  have hlen : w.length = x.length := by rw [hx.1, hl]
  have hu : up.length = w.length := by rw [← hx.2.1, hx.1, hl]
  obtain ⟨eU, eL⟩ := rowUp_eq w lo up b hl hu
  have hd := fun v => dot_eq_rsum w v _ (le_refl w.length)
  constructor
  · rintro ⟨b0, b1, y1, y2, hcut⟩
    obtain ⟨t, ht⟩ := C15_accepts b x β hc0 hc1 hl (by rw [hu, hl])
    have hbest : y ≤ t.rhs x β := by
      by_cases hemp : findIndexSet w lo up x β = []
      · -- the empty set: first big-M row
        have := hcut ⟨vsmul c w, (1 - c) * rowUp w b lo up, c * b⟩ (by simp [existCuts])
        rw [(cut_rhs ht (findIndexSet_nodup _ _ _ _ _) x β).2, hemp]
        simp only [List.not_mem_nil, if_false, tout]
        rw [rsum_add, rsum_mul, rsum_mul, ← hd]
        simp only [Cut.rhs, dot_vsmul_left, eU] at this
        linarith
      · by_cases hful : ∀ i, i < w.length → i ∈ findIndexSet w lo up x β
        · have := hcut ⟨w, (1 - c) * rowLo w b lo up, b - (1 - c) * rowLo w b lo up⟩
            (by simp [existCuts])
          rw [(cut_rhs ht (findIndexSet_nodup _ _ _ _ _) x β).2]
          have e : rsum w.length (fun i => if i ∈ findIndexSet w lo up x β then tin c w lo up x β i
              else tout c w lo up x β i) = rsum w.length fun i => w.getD i 0 * x.getD i 0
                + (-((1 - c) * (1 - β))) * wlo w lo up i := by
            apply rsum_congr
            intro i hi
            rw [if_pos (hful i hi), tin]; ring
          rw [e, rsum_add, rsum_mul, ← hd]
          simp only [Cut.rhs, eL] at this
          linarith
        · refine hcut t (List.mem_append_right _ ?_)
          unfold strengthenReluMip at h
          split at h
          · simp only [Bool.false_eq_true, if_false] at h
            obtain ⟨t', ht', e⟩ := (collect_mem _ _ _ h).1 (findIndexSet w lo up x β) (by
              rw [List.mem_filter, List.mem_sublists, decide_eq_true_eq]
              refine ⟨List.filter_sublist, ?_, ?_⟩
              · exact List.length_pos_of_ne_nil hemp
              · push Not at hful
                obtain ⟨i, hi, hi2⟩ := hful
                have hsub : (findIndexSet w lo up x β).Sublist (List.range w.length) :=
                  List.filter_sublist
                rcases lt_or_eq_of_le hsub.length_le with hlt | heq
                · simpa using hlt
                · exact absurd (by rw [hsub.eq_of_length heq]; simpa using hi) hi2)
            rw [e] at ht
            cases ht
            exact ht'
          · cases h
    rw [best_cut ht] at hbest
    obtain ⟨x0, x1, p1, p2, p3, p4, p5, p6⟩ := hull_point hc1 b0 b1 hx hlen y1 y2 hbest
    refine ⟨b0, b1, x0, x1, p1, p2, p3, p4, p5, ?_⟩
    rw [p6]
    rcases eq_or_lt_of_le b0 with e | e
    · subst e
      rw [leaky_of_nonpos (p4 zero_lt_one)]; ring
    · rw [leaky_of_nonneg (p5 e)]
      rcases eq_or_lt_of_le b1 with e | e
      · subst e; ring
      · rw [leaky_of_nonpos (p4 e)]
  · rintro ⟨b0, b1, x0, x1, p1, p2, p3, p4, p5, rfl⟩
    have hp : dot w x + b = (1 - β) * (dot w x0 + b) + β * (dot w x1 + b) := by
      have : dot w x = (1 - β) * dot w x0 + β * dot w x1 := by
        rw [hd, hd, hd, ← rsum_mul, ← rsum_mul, ← rsum_add]
        apply rsum_congr
        intro i hi
        rw [p3 i hi]; ring
      rw [this]; ring
    have b1' : 0 ≤ 1 - β := sub_nonneg.2 b1
    have key : ∀ t : Cut K, t.xc.length = w.length →
        (∀ x β, InBox lo up x → (β = 0 ∨ β = 1) → (β = 1 → 0 ≤ dot w x + b) →
          (β = 0 → dot w x + b ≤ 0) → leaky c (dot w x + b) ≤ t.rhs x β) →
        (1 - β) * leaky c (dot w x0 + b) + β * leaky c (dot w x1 + b) ≤ t.rhs x β := by
      intro t ht hv
      rw [cut_convex ht p3]
      apply add_le_add
      · rcases eq_or_lt_of_le b1 with e | e
        · subst e; simp
        · exact mul_le_mul_of_nonneg_left
            (hv x0 0 p1 (Or.inl rfl) (fun h => absurd h zero_ne_one) fun _ => p4 e) b1'
      · rcases eq_or_lt_of_le b0 with e | e
        · subst e; simp
        · exact mul_le_mul_of_nonneg_left
            (hv x1 1 p2 (Or.inr rfl) (fun _ => p5 e) fun h => absurd h one_ne_zero) b0
    have hle : ∀ p : K, p ≤ leaky c p ∧ c * p ≤ leaky c p := by
      intro p
      rcases le_total 0 p with hp | hp
      · rw [leaky_of_nonneg hp]
        exact ⟨le_refl _, by nlinarith⟩
      · rw [leaky_of_nonpos hp]
        exact ⟨by nlinarith, le_refl _⟩
    refine ⟨b0, b1, ?_, ?_, ?_⟩
    · rw [hp]
      exact add_le_add (mul_le_mul_of_nonneg_left (hle _).1 b1')
        (mul_le_mul_of_nonneg_left (hle _).1 b0)
    · rw [hp, mul_add, mul_left_comm, mul_left_comm c β]
      exact add_le_add (mul_le_mul_of_nonneg_left (hle _).2 b1')
        (mul_le_mul_of_nonneg_left (hle _).2 b0)
    · intro t ht
      rcases List.mem_append.1 ht with ht | ht
      · simp only [existCuts, List.mem_cons, List.not_mem_nil, or_false] at ht
        rcases ht with rfl | rfl
        · refine key _ (by simp) fun v γ hv hγ g1 g0 => ?_
          have hr := (row_sound w lo up v b hv).2
          simp only [Cut.rhs, dot_vsmul_left]
          rcases hγ with rfl | rfl
          · rw [leaky_of_nonpos (g0 rfl)]; linarith
          · rw [leaky_of_nonneg (g1 rfl)]
            nlinarith [mul_le_mul_of_nonneg_left hr (sub_nonneg.2 hc1.le)]
        · refine key _ rfl fun v γ hv hγ g1 g0 => ?_
          have hr := (row_sound w lo up v b hv).1
          simp only [Cut.rhs]
          rcases hγ with rfl | rfl
          · rw [leaky_of_nonpos (g0 rfl)]
            nlinarith [mul_le_mul_of_nonneg_left hr (sub_nonneg.2 hc1.le)]
          · rw [leaky_of_nonneg (g1 rfl)]; linarith
      · obtain ⟨I, hn, hI⟩ := strengthenReluMip_mem h t ht
        exact key t (cut_rhs hI hn x β).1 fun v γ a1 a2 a3 a4 => cut_valid hI hn a1 a2 a3 a4

/-- The hypotheses of `C62_ideal` are met by a unit with two inputs. -/
example : ∃ ts : List (Cut ℚ), strengthenReluMip (1 / 10) [1, -1] 0 [-1, -1] [1, 1]
    (rowLo [1, -1] 0 [-1, -1] [1, 1]) (rowUp [1, -1] 0 [-1, -1] [1, 1]) false = some ts := by
  norm_num [strengthenReluMip, rowLo, rowUp, maskDot, cutsAll, List.range_succ, List.sublists,
    cutWithIndices, collect]

end NNL.Props
