import Verif.Model.ValueIteration
import Verif.Spec.ValueIteration
import Mathlib.Analysis.SpecificLimits.Basic
import Mathlib.Analysis.SpecificLimits.Normed

/-!
# C102: value iteration
-/

set_option linter.unusedSectionVars false

namespace NNL.Props

open NNL.Spec NNL.Model Filter Topology

variable {n : ℕ} {U : Type*} {γ : ℝ} {r : Fin n → Fin n → WithTop ℝ}

/-- Both infinite, or both finite and at most `d` apart. -/
def NearV (d : ℝ) (a b : WithTop ℝ) : Prop := (a = ⊤ ∧ b = ⊤) ∨ ∃ x y : ℝ, a = x ∧ b = y ∧ |x - y| ≤ d

theorem NearV.symm {d : ℝ} {a b : WithTop ℝ} (h : NearV d a b) : NearV d b a := by
  rcases h with ⟨h1, h2⟩ | ⟨x, y, h1, h2, h3⟩
  · exact .inl ⟨h2, h1⟩
  · exact .inr ⟨y, x, h2, h1, by rwa [abs_sub_comm]⟩

theorem NearV.mono {d e : ℝ} {a b : WithTop ℝ} (h : NearV d a b) (hd : d ≤ e) : NearV e a b := by
  rcases h with h | ⟨x, y, h1, h2, h3⟩
  · exact .inl h
  · exact .inr ⟨x, y, h1, h2, h3.trans hd⟩

theorem NearV.refl {d : ℝ} (hd : 0 ≤ d) (a : WithTop ℝ) : NearV d a a := by
  cases a with
  | top => exact .inl ⟨rfl, rfl⟩
  | coe x => exact .inr ⟨x, x, rfl, rfl, by simpa using hd⟩

theorem NearV.le {d : ℝ} {a b : WithTop ℝ} (h : NearV d a b) : a ≤ b + (d : WithTop ℝ) := by
  rcases h with ⟨rfl, rfl⟩ | ⟨x, y, rfl, rfl, h3⟩
  · simp
  · rw [← WithTop.coe_add, WithTop.coe_le_coe]
    linarith [le_abs_self (x - y)]

theorem lookaheadArg_le (V : Fin n → WithTop ℝ) (i j : Fin n) :
    lookahead γ r V i ≤ r i j + discounted γ (V j) := by
  have hm : lookaheadArg γ r V i ∈ (List.finRange n).argmin fun j => r i j + discounted γ (V j) := by
    rw [lookaheadArg]
    rcases h : (List.finRange n).argmin fun j => r i j + discounted γ (V j) with - | m
    · rw [List.argmin_eq_none] at h
      have := List.mem_finRange i
      rw [h] at this
      cases this
    · simp
  exact List.le_of_mem_argmin (f := fun j => r i j + discounted γ (V j)) (List.mem_finRange j) hm

theorem lookahead_top {V : Fin n → WithTop ℝ} {i : Fin n} : lookahead γ r V i = ⊤ ↔ ∀ j, r i j = ⊤ ∨ V j = ⊤ := by
  constructor
  · intro h j
    have := lookaheadArg_le (γ := γ) (r := r) V i j
    rw [h, top_le_iff, WithTop.add_eq_top] at this
    simpa [discounted] using this
  · intro h
    rw [lookahead, WithTop.add_eq_top]
    simpa [discounted] using h (lookaheadArg γ r V i)

theorem discounted_near (hγ : 0 ≤ γ) {d : ℝ} {a b : WithTop ℝ} (h : NearV d a b) :
    discounted γ a ≤ discounted γ b + ((γ * d : ℝ) : WithTop ℝ) := by
  rcases h with ⟨rfl, rfl⟩ | ⟨x, y, rfl, rfl, h3⟩
  · simp [discounted]
  · have : γ * x ≤ γ * y + γ * d := by
      rw [← mul_add]
      exact mul_le_mul_of_nonneg_left (by linarith [le_abs_self (x - y)]) hγ
    exact WithTop.coe_le_coe.2 this

theorem lookahead_near (hγ : 0 ≤ γ) {d : ℝ} {V W : Fin n → WithTop ℝ} (h : ∀ j, NearV d (V j) (W j)) (i : Fin n) :
    NearV (γ * d) (lookahead γ r V i) (lookahead γ r W i) := by
  have key : ∀ V W : Fin n → WithTop ℝ, (∀ j, NearV d (V j) (W j)) →
      lookahead γ r V i ≤ lookahead γ r W i + ((γ * d : ℝ) : WithTop ℝ) := by
    intro V W h
    refine (lookaheadArg_le V i (lookaheadArg γ r W i)).trans ?_
    rw [lookahead, add_assoc]
    exact add_le_add le_rfl (discounted_near hγ (h _))
  have h1 := key V W h
  have h2 := key W V fun j => (h j).symm
  generalize lookahead γ r V i = a at *
  generalize lookahead γ r W i = b at *
  cases a with
  | top =>
    cases b with
    | top => exact .inl ⟨rfl, rfl⟩
    | coe y =>
      rw [← WithTop.coe_add, top_le_iff] at h1
      exact absurd h1 (WithTop.coe_ne_top)
  | coe x =>
    cases b with
    | top =>
      rw [← WithTop.coe_add, top_le_iff] at h2
      exact absurd h2 (WithTop.coe_ne_top)
    | coe y =>
      rw [← WithTop.coe_add, WithTop.coe_le_coe] at h1 h2
      exact .inr ⟨x, y, rfl, rfl, abs_le.2 ⟨by linarith, by linarith⟩⟩

/-! ### One pass -/

theorem foldl_untouched (u : Fin n → Fin n → U) (l : List (Fin n)) (s : SweepState n U) {i : Fin n} (hi : i ∉ l) :
    (l.foldl (sweepStep γ r u) s).V i = s.V i ∧ (l.foldl (sweepStep γ r u) s).policy i = s.policy i := by
  induction l generalizing s with
  | nil => exact ⟨rfl, rfl⟩
  | cons a l ih =>
    simp only [List.mem_cons, not_or] at hi
    obtain ⟨h1, h2⟩ := ih (sweepStep γ r u s a) hi.2
    rw [List.foldl_cons, h1, h2]
    simp [sweepStep, hi.1]

/-- Each state is updated once, from a mixture `W` of old and new values. -/
theorem foldl_update (u : Fin n → Fin n → U) (l : List (Fin n)) (hl : l.Nodup) (s : SweepState n U) {i : Fin n} (hi : i ∈ l) :
    ∃ W : Fin n → WithTop ℝ, (∀ k, W k = s.V k ∨ W k = (l.foldl (sweepStep γ r u) s).V k) ∧
      (l.foldl (sweepStep γ r u) s).V i = lookahead γ r W i ∧
      (l.foldl (sweepStep γ r u) s).policy i = u i (lookaheadArg γ r W i) := by
  induction l generalizing s with
  | nil => cases hi
  | cons a l ih =>
    rw [List.nodup_cons] at hl
    rw [List.foldl_cons]
    by_cases ha : i = a
    · subst ha
      obtain ⟨h1, h2⟩ := foldl_untouched (γ := γ) (r := r) u l (sweepStep γ r u s i) hl.1
      exact ⟨s.V, fun k => .inl rfl, by rw [h1]; simp [sweepStep], by rw [h2]; simp [sweepStep]⟩
    · obtain ⟨W, hW, h1, h2⟩ := ih hl.2 (sweepStep γ r u s a) (by simpa [ha] using hi)
      refine ⟨W, fun k => ?_, h1, h2⟩
      rcases hW k with h | h
      · by_cases hk : k = a
        · subst hk
          right
          rw [h, (foldl_untouched (γ := γ) (r := r) u l (sweepStep γ r u s k) hl.1).1]
        · left
          rw [h]
          simp [sweepStep, hk]
      · exact .inr h

theorem absDiff_coe (x y : ℝ) : absDiff (x : WithTop ℝ) (y : WithTop ℝ) = ((|x - y| : ℝ) : WithTop ℝ) := rfl

theorem absDiff_top_left (b : WithTop ℝ) : absDiff ⊤ b = ⊤ := rfl

theorem absDiff_top_right (a : WithTop ℝ) : absDiff a ⊤ = ⊤ := by
  cases a <;> rfl

theorem absDiff_lt {ε : ℝ} {a b : WithTop ℝ} (h : absDiff a b < (ε : WithTop ℝ)) : NearV ε a b := by
  cases a with
  | top =>
    rw [absDiff_top_left] at h
    exact absurd h not_top_lt
  | coe x =>
    cases b with
    | top =>
      rw [absDiff_top_right] at h
      exact absurd h not_top_lt
    | coe y =>
      rw [absDiff_coe, WithTop.coe_lt_coe] at h
      exact .inr ⟨x, y, rfl, rfl, h.le⟩

theorem absDiff_lt_of_near {d ε : ℝ} (hd : d < ε) {a b : WithTop ℝ} (h : NearV d a b) (hne : a ≠ b) :
    absDiff a b < (ε : WithTop ℝ) := by
  rcases h with ⟨rfl, rfl⟩ | ⟨x, y, rfl, rfl, h⟩
  · exact absurd rfl hne
  · rw [absDiff_coe, WithTop.coe_lt_coe]
    exact h.trans_lt hd

theorem foldl_delta (u : Fin n → Fin n → U) {ε : ℝ} (hε : 0 ≤ ε) (l : List (Fin n)) (hl : l.Nodup) (s : SweepState n U)
    (h : (l.foldl (sweepStep γ r u) s).delta < (ε : WithTop ℝ)) :
    s.delta < (ε : WithTop ℝ) ∧ ∀ i ∈ l, NearV ε ((l.foldl (sweepStep γ r u) s).V i) (s.V i) := by
  induction l generalizing s with
  | nil => exact ⟨h, by simp⟩
  | cons a l ih =>
    rw [List.nodup_cons] at hl
    rw [List.foldl_cons] at h ⊢
    obtain ⟨h1, h2⟩ := ih hl.2 _ h
    have h3 : s.delta < (ε : WithTop ℝ) ∧ NearV ε (lookahead γ r s.V a) (s.V a) := by
      simp only [sweepStep] at h1
      split_ifs at h1 with hc
      · rw [max_lt_iff] at h1
        exact ⟨h1.1, absDiff_lt h1.2⟩
      · rw [ne_eq, not_not] at hc
        exact ⟨h1, hc ▸ NearV.refl hε _⟩
    refine ⟨h3.1, fun i hi => ?_⟩
    by_cases hia : i = a
    · subst hia
      rw [(foldl_untouched (γ := γ) (r := r) u l (sweepStep γ r u s i) hl.1).1]
      simpa [sweepStep] using h3.2
    · have := h2 i (by simpa [hia] using hi)
      simpa [sweepStep, hia] using this

theorem foldl_delta_lt (u : Fin n → Fin n → U) {d ε : ℝ} (hd : d < ε) (l : List (Fin n)) (hl : l.Nodup) (s : SweepState n U)
    (h0 : s.delta < (ε : WithTop ℝ)) (h : ∀ i ∈ l, NearV d ((l.foldl (sweepStep γ r u) s).V i) (s.V i)) :
    (l.foldl (sweepStep γ r u) s).delta < (ε : WithTop ℝ) := by
  induction l generalizing s with
  | nil => exact h0
  | cons a l ih =>
    rw [List.nodup_cons] at hl
    rw [List.foldl_cons] at h ⊢
    refine ih hl.2 _ ?_ fun i hi => ?_
    · have := h a (by simp)
      rw [(foldl_untouched (γ := γ) (r := r) u l (sweepStep γ r u s a) hl.1).1] at this
      simp only [sweepStep, Function.update_self] at this ⊢
      split_ifs with hc
      · exact max_lt h0 (absDiff_lt_of_near hd this hc)
      · exact h0
    · have hia : i ≠ a := by
        rintro rfl
        exact hl.1 hi
      have := h i (by simp [hi])
      simpa [sweepStep, hia] using this

theorem foldl_near (hγ : 0 ≤ γ) (hγ1 : γ ≤ 1) {d : ℝ} (hd : 0 ≤ d) (u : Fin n → Fin n → U) (l : List (Fin n)) (s t : SweepState n U)
    (P : Fin n → Prop) (h : ∀ j, NearV d (s.V j) (t.V j)) (hP : ∀ j, P j → NearV (γ * d) (s.V j) (t.V j)) (j : Fin n)
    (hj : j ∈ l ∨ P j) : NearV (γ * d) ((l.foldl (sweepStep γ r u) s).V j) ((l.foldl (sweepStep γ r u) t).V j) := by
  induction l generalizing s t P with
  | nil => exact hP j (by simpa using hj)
  | cons a l ih =>
    rw [List.foldl_cons, List.foldl_cons]
    have hs : NearV (γ * d) (lookahead γ r s.V a) (lookahead γ r t.V a) := lookahead_near hγ h a
    have hle : γ * d ≤ d := by nlinarith
    refine ih _ _ (fun k => k = a ∨ P k) (fun k => ?_) (fun k hk => ?_) ?_
    · by_cases hk : k = a
      · subst hk
        simpa [sweepStep] using hs.mono hle
      · simpa [sweepStep, hk] using h k
    · by_cases hka : k = a
      · subst hka
        simpa [sweepStep] using hs
      · simpa [sweepStep, hka] using hP k (hk.resolve_left hka)
    · simp only [List.mem_cons] at hj
      tauto

theorem foldl_top (u : Fin n → Fin n → U) (l : List (Fin n)) (s t : SweepState n U) (h : ∀ j, s.V j = ⊤ → t.V j = ⊤) (j : Fin n)
    (hj : (l.foldl (sweepStep γ r u) s).V j = ⊤) : (l.foldl (sweepStep γ r u) t).V j = ⊤ := by
  induction l generalizing s t with
  | nil => exact h j hj
  | cons a l ih =>
    refine ih (sweepStep γ r u s a) (sweepStep γ r u t a) (fun k hk => ?_) hj
    by_cases hka : k = a
    · subst hka
      simp only [sweepStep, Function.update_self, lookahead_top] at hk ⊢
      exact fun i => (hk i).imp_right (h i)
    · simp only [sweepStep, Function.update_of_ne hka] at hk ⊢
      exact h k hk

theorem foldl_no_path (u : Fin n → Fin n → U) (l : List (Fin n)) (s : SweepState n U)
    (h : ∀ p : ℕ → Fin n, (∀ t, r (p t) (p (t + 1)) ≠ ⊤) → s.V (p 0) ≠ ⊤) (p : ℕ → Fin n) (hp : ∀ t, r (p t) (p (t + 1)) ≠ ⊤) :
    (l.foldl (sweepStep γ r u) s).V (p 0) ≠ ⊤ := by
  induction l generalizing s with
  | nil => exact h p hp
  | cons a l ih =>
    refine ih (sweepStep γ r u s a) fun q hq => ?_
    by_cases hka : q 0 = a
    · subst hka
      simp only [sweepStep, Function.update_self, ne_eq, lookahead_top, not_forall, not_or]
      exact ⟨q 1, hq 0, h (fun t => q (t + 1)) fun t => hq (t + 1)⟩
    · simp only [sweepStep, Function.update_of_ne hka]
      exact h q hq

/-! ### The loop -/

/-- The values after `m` passes. -/
noncomputable def passes (γ : ℝ) (r : Fin n → Fin n → WithTop ℝ) (u : Fin n → Fin n → U) (u0 : U) : ℕ → (Fin n → WithTop ℝ) × (Fin n → U)
  | 0 => (fun _ => 0, fun _ => u0)
  | m + 1 =>
    ((sweep γ r u (passes γ r u u0 m).1 (passes γ r u u0 m).2).V, (sweep γ r u (passes γ r u u0 m).1 (passes γ r u u0 m).2).policy)

theorem loop_some {ε : ℝ} {u : Fin n → Fin n → U} (u0 : U) (fuel m : ℕ) {R : (Fin n → WithTop ℝ) × (Fin n → U)}
    (h : valueIterationLoop γ ε r u fuel (passes γ r u u0 m).1 (passes γ r u u0 m).2 = some R) :
    ∃ k, R = passes γ r u u0 (k + 1) ∧ (sweep γ r u (passes γ r u u0 k).1 (passes γ r u u0 k).2).delta < (ε : WithTop ℝ) := by
  induction fuel generalizing m with
  | zero => cases h
  | succ fuel ih =>
    rw [valueIterationLoop] at h
    split_ifs at h with hc
    · exact ⟨m, (Option.some.inj h).symm, hc⟩
    · exact ih (m + 1) h

theorem loop_exists {ε : ℝ} {u : Fin n → Fin n → U} (u0 : U) (k m : ℕ)
    (h : (sweep γ r u (passes γ r u u0 (m + k)).1 (passes γ r u u0 (m + k)).2).delta < (ε : WithTop ℝ)) :
    (valueIterationLoop γ ε r u (k + 1) (passes γ r u u0 m).1 (passes γ r u u0 m).2).isSome := by
  induction k generalizing m with
  | zero =>
    simp only [Nat.add_zero] at h
    simp [valueIterationLoop, h]
  | succ k ih =>
    rw [valueIterationLoop]
    split_ifs with hc
    · rfl
    · exact ih (m + 1) (by rwa [show m + 1 + k = m + (k + 1) by ring])

theorem passes_top (u : Fin n → Fin n → U) (u0 : U) (m : ℕ) (j : Fin n) (h : (passes γ r u u0 m).1 j = ⊤) :
    (passes γ r u u0 (m + 1)).1 j = ⊤ := by
  induction m generalizing j with
  | zero => simp [passes] at h
  | succ m ih => exact foldl_top u _ _ _ ih j h

theorem passes_no_path (u : Fin n → Fin n → U) (u0 : U) (m : ℕ) (p : ℕ → Fin n) (hp : ∀ t, r (p t) (p (t + 1)) ≠ ⊤) :
    (passes γ r u u0 m).1 (p 0) ≠ ⊤ := by
  induction m generalizing p with
  | zero => simp [passes]
  | succ m ih => exact foldl_no_path u _ _ ih p hp

theorem passes_near (hγ : 0 ≤ γ) (hγ1 : γ ≤ 1) (u : Fin n → Fin n → U) (u0 : U) {d : ℝ} (hd : 0 ≤ d) {m : ℕ}
    (h : ∀ j, NearV d ((passes γ r u u0 (m + 1)).1 j) ((passes γ r u u0 m).1 j)) (k : ℕ) (j : Fin n) :
    NearV (γ ^ k * d) ((passes γ r u u0 (m + k + 1)).1 j) ((passes γ r u u0 (m + k)).1 j) := by
  induction k generalizing j with
  | zero => simpa using h j
  | succ k ih =>
    have := foldl_near (r := r) hγ hγ1 (d := γ ^ k * d) (by positivity) u (List.finRange n)
      ⟨(passes γ r u u0 (m + k + 1)).1, (passes γ r u u0 (m + k + 1)).2, 0⟩ ⟨(passes γ r u u0 (m + k)).1, (passes γ r u u0 (m + k)).2, 0⟩
      (fun _ => False) ih (fun _ h => h.elim) j (.inl (List.mem_finRange j))
    rw [← mul_assoc, ← pow_succ'] at this
    exact this

open Classical in
theorem exists_stable (u : Fin n → Fin n → U) (u0 : U) :
    ∃ m, ∀ j, (passes γ r u u0 (m + 1)).1 j = ⊤ → (passes γ r u u0 m).1 j = ⊤ := by
  by_contra hc
  push Not at hc
  have hcard : ∀ m, m ≤ (Finset.univ.filter fun j => (passes γ r u u0 m).1 j = ⊤).card := by
    intro m
    induction m with
    | zero => exact Nat.zero_le _
    | succ m ih =>
      refine Nat.lt_of_le_of_lt ih (Finset.card_lt_card ?_)
      rw [Finset.ssubset_iff_of_subset fun j hj => by
        rw [Finset.mem_filter] at hj ⊢
        exact ⟨hj.1, passes_top u u0 m j hj.2⟩]
      obtain ⟨j, h1, h2⟩ := hc m
      exact ⟨j, by simp [h1], by simp [h2]⟩
  have h1 := hcard (n + 1)
  have h2 := Finset.card_le_univ (Finset.univ.filter fun j => (passes γ r u u0 (n + 1)).1 j = ⊤)
  rw [Fintype.card_fin] at h2
  omega

theorem exists_near (a b : Fin n → WithTop ℝ) (h1 : ∀ j, a j = ⊤ → b j = ⊤) (h2 : ∀ j, b j = ⊤ → a j = ⊤) :
    ∃ d, 0 ≤ d ∧ ∀ j, NearV d (a j) (b j) := by
  refine ⟨∑ j, |(a j).untopD 0 - (b j).untopD 0|, Finset.sum_nonneg fun _ _ => abs_nonneg _, fun j => ?_⟩
  rcases hj : a j with - | x
  · exact .inl ⟨rfl, h1 j hj⟩
  · rcases hb : b j with - | y
    · rw [h2 j hb] at hj
      cases hj
    · refine .inr ⟨x, y, rfl, rfl, ?_⟩
      have := Finset.single_le_sum (f := fun j => |(a j).untopD 0 - (b j).untopD 0|) (fun _ _ => abs_nonneg _) (Finset.mem_univ j)
      have e1 : (a j).untopD 0 = x := by rw [hj]; rfl
      have e2 : (b j).untopD 0 = y := by rw [hb]; rfl
      simpa only [e1, e2] using this

/-- C102. Value iteration terminates: some number of passes suffices, whatever the costs (also with states from which every path is
infinitely expensive). -/
theorem C102_terminates (hγ : 0 < γ) (hγ1 : γ < 1) {ε : ℝ} (hε : 0 < ε) (r : Fin n → Fin n → WithTop ℝ) (u : Fin n → Fin n → U) (u0 : U) :
    ∃ fuel, (valueIteration γ ε r u u0 fuel).isSome := by
  obtain ⟨m, hm⟩ := exists_stable (γ := γ) (r := r) u u0
  obtain ⟨d, hd, hn⟩ := exists_near _ _ hm (passes_top u u0 m)
  have hlim : Tendsto (fun k : ℕ => γ ^ k * d) atTop (𝓝 (0 * d)) := (tendsto_pow_atTop_nhds_zero_of_lt_one hγ.le hγ1).mul_const d
  rw [zero_mul] at hlim
  obtain ⟨k, hk⟩ := (hlim.eventually (gt_mem_nhds hε)).exists
  refine ⟨m + k + 1, loop_exists u0 (m + k) 0 ?_⟩
  rw [Nat.zero_add]
  refine foldl_delta_lt u hk _ (List.nodup_finRange n) _ ?_ fun j _ => ?_
  · exact WithTop.coe_lt_coe.2 hε
  · exact passes_near hγ.le hγ1.le u u0 hd hn k j

/-- What is known of the result: it is a fixed point up to `γ ε`. -/
theorem result_spec {ε : ℝ} (hε : 0 < ε) {u : Fin n → Fin n → U} {u0 : U} {fuel : ℕ}
    {V : Fin n → WithTop ℝ} {policy : Fin n → U} (h : valueIteration γ ε r u u0 fuel = some (V, policy)) :
    (∀ p : ℕ → Fin n, (∀ t, r (p t) (p (t + 1)) ≠ ⊤) → V (p 0) ≠ ⊤) ∧
      ∃ W : Fin n → Fin n → WithTop ℝ, (∀ i j, NearV ε (V j) (W i j)) ∧ (∀ i, V i = lookahead γ r (W i) i) ∧
        ∀ i, policy i = u i (lookaheadArg γ r (W i) i) := by
  obtain ⟨k, hR, hk⟩ := loop_some u0 fuel 0 h
  simp only [passes, Prod.mk.injEq] at hR
  obtain ⟨rfl, rfl⟩ := hR
  refine ⟨fun p hp => passes_no_path u u0 (k + 1) p hp, ?_⟩
  have hn := (foldl_delta u hε.le _ (List.nodup_finRange n) _ hk).2
  choose W hW h1 h2 using fun i => foldl_update (γ := γ) (r := r) u _ (List.nodup_finRange n)
    ⟨(passes γ r u u0 k).1, (passes γ r u u0 k).2, 0⟩ (List.mem_finRange i)
  refine ⟨W, fun i j => ?_, h1, h2⟩
  rcases hW i j with e | e
  · rw [e]
    exact hn j (List.mem_finRange j)
  · rw [e]
    exact NearV.refl hε.le _

theorem geom_bound (hγ : 0 < γ) (hγ1 : γ < 1) {e : ℝ} (T : ℕ) (he : 0 ≤ e) :
    ∑ t ∈ Finset.range T, γ ^ t * e ≤ e / (1 - γ) := by
  rw [← Finset.sum_mul, div_eq_inv_mul]
  refine mul_le_mul_of_nonneg_right ?_ he
  rw [← tsum_geometric_of_lt_one hγ.le hγ1]
  exact (summable_geometric_of_lt_one hγ.le hγ1).sum_le_tsum _ fun _ _ => by positivity

/-- Along a path, with `v t` the value and `c t` the cost. -/
theorem telescope_le (hγ : 0 < γ) (hγ1 : γ < 1) {e x : ℝ} (he : 0 ≤ e) {v c : ℕ → ℝ} (hx : HasSum (fun t => γ ^ t * c t) x)
    (hb : ∃ B, ∀ t, |v t| ≤ B) (h : ∀ t, v t ≤ c t + γ * v (t + 1) + e) : v 0 ≤ x + e / (1 - γ) := by
  obtain ⟨B, hB⟩ := hb
  have key : ∀ T, v 0 ≤ ∑ t ∈ Finset.range T, γ ^ t * c t + γ ^ T * v T + ∑ t ∈ Finset.range T, γ ^ t * e := by
    intro T
    induction T with
    | zero => simp
    | succ T ih =>
      have := mul_le_mul_of_nonneg_left (h T) (pow_pos hγ T).le
      rw [Finset.sum_range_succ, Finset.sum_range_succ, pow_succ]
      nlinarith
  have hlim : Tendsto (fun T : ℕ => ∑ t ∈ Finset.range T, γ ^ t * c t + γ ^ T * B + e / (1 - γ)) atTop (𝓝 (x + 0 * B + e / (1 - γ))) :=
    (hx.tendsto_sum_nat.add ((tendsto_pow_atTop_nhds_zero_of_lt_one hγ.le hγ1).mul_const B)).add_const _
  rw [zero_mul, add_zero] at hlim
  refine ge_of_tendsto' hlim fun T => ?_
  have h1 := key T
  have h2 := geom_bound hγ hγ1 T he
  have h3 := mul_le_mul_of_nonneg_left ((le_abs_self (v T)).trans (hB T)) (pow_pos hγ T).le
  linarith

theorem telescope_ge (hγ : 0 < γ) (hγ1 : γ < 1) {e x : ℝ} (he : 0 ≤ e) {v c : ℕ → ℝ} (hx : HasSum (fun t => γ ^ t * c t) x)
    (hb : ∃ B, ∀ t, |v t| ≤ B) (h : ∀ t, c t + γ * v (t + 1) ≤ v t + e) : x ≤ v 0 + e / (1 - γ) := by
  have := telescope_le (v := fun t => - v t) (c := fun t => - c t) (x := -x) hγ hγ1 he (by simpa using hx.neg)
    (by simpa using hb) (fun t => by have := h t; linarith)
  linarith

theorem values_bounded (V : Fin n → WithTop ℝ) : ∃ B, ∀ j, |(V j).untopD 0| ≤ B :=
  ⟨∑ j, |(V j).untopD 0|, fun j =>
    Finset.single_le_sum (f := fun j => |(V j).untopD 0|) (fun _ _ => abs_nonneg _) (Finset.mem_univ j)⟩

theorem path_lower (hγ : 0 < γ) (hγ1 : γ < 1) {ε : ℝ} (hε : 0 < ε) {V : Fin n → WithTop ℝ} {W : Fin n → Fin n → WithTop ℝ}
    (h1 : ∀ p : ℕ → Fin n, (∀ t, r (p t) (p (t + 1)) ≠ ⊤) → V (p 0) ≠ ⊤) (h2 : ∀ i j, NearV ε (V j) (W i j))
    (h3 : ∀ i, V i = lookahead γ r (W i) i) {i : Fin n} {y : ℝ} (hy : y ∈ costsFrom γ r i) :
    ∃ v : ℝ, V i = v ∧ v ≤ y + γ * ε / (1 - γ) := by
  obtain ⟨p, rfl, c, hc, hs⟩ := hy
  have hfin : ∀ t, ∃ v : ℝ, V (p t) = v := by
    intro t
    have := h1 (fun s => p (s + t)) fun s => by
      have e := hc (s + t)
      rw [show s + t + 1 = s + 1 + t by ring] at e
      rw [e]
      exact WithTop.coe_ne_top
    rw [Nat.zero_add] at this
    exact ⟨_, (WithTop.coe_untop _ this).symm⟩
  choose v hv using hfin
  refine ⟨v 0, hv 0, telescope_le hγ hγ1 (by positivity) hs ?_ fun t => ?_⟩
  · obtain ⟨B, hB⟩ := values_bounded V
    exact ⟨B, fun t => by simpa [hv t] using hB (p t)⟩
  · have e1 := lookaheadArg_le (γ := γ) (r := r) (W (p t)) (p t) (p (t + 1))
    rw [← h3, hc t, hv t] at e1
    have e2 := discounted_near hγ.le (h2 (p t) (p (t + 1))).symm
    have e3 := e1.trans (add_le_add le_rfl e2)
    rw [hv (t + 1)] at e3
    have e4 : (v t : WithTop ℝ) ≤ ((c t + (γ * v (t + 1) + γ * ε) : ℝ) : WithTop ℝ) := e3
    rw [WithTop.coe_le_coe] at e4
    linarith

theorem policy_upper (hγ : 0 < γ) (hγ1 : γ < 1) {ε : ℝ} (hε : 0 < ε) {V : Fin n → WithTop ℝ} {W : Fin n → Fin n → WithTop ℝ}
    (h2 : ∀ i j, NearV ε (V j) (W i j)) (h3 : ∀ i, V i = lookahead γ r (W i) i) {i : Fin n} {v : ℝ} (hv : V i = v) :
    ∃ x, PathCost γ r (fun t => (fun j => lookaheadArg γ r (W j) j)^[t] i) x ∧ x ≤ v + γ * ε / (1 - γ) := by
  set c : Fin n → Fin n := fun j => lookaheadArg γ r (W j) j with hc
  have step : ∀ j (a : ℝ), V j = a → ∃ b d : ℝ, V (c j) = b ∧ r j (c j) = d ∧ d + γ * b ≤ a + γ * ε := by
    intro j a ha
    have e := h3 j
    rw [ha, lookahead] at e
    change (a : WithTop ℝ) = r j (c j) + discounted γ (W j (c j)) at e
    have hn := h2 j (c j)
    rcases hd : r j (c j) with - | d
    · rw [hd] at e
      exact absurd e.symm (by
        change ¬ (⊤ : WithTop ℝ) + _ = _
        simp)
    · rcases hn with ⟨-, t⟩ | ⟨b, w, e1, e2, e3⟩
      · rw [t] at e
        exact absurd e.symm (by simp [discounted])
      · refine ⟨b, d, e1, rfl, ?_⟩
        rw [hd, e2] at e
        have e4 : (a : WithTop ℝ) = ((d + γ * w : ℝ) : WithTop ℝ) := e
        rw [WithTop.coe_inj] at e4
        have := mul_le_mul_of_nonneg_left ((le_abs_self _).trans e3) hγ.le
        linarith
  have hfin : ∀ t, ∃ a : ℝ, V (c^[t] i) = a := by
    intro t
    induction t with
    | zero => exact ⟨v, hv⟩
    | succ t ih =>
      obtain ⟨a, ha⟩ := ih
      obtain ⟨b, -, hb, -⟩ := step _ a ha
      exact ⟨b, by rw [Function.iterate_succ_apply']; exact hb⟩
  choose a ha using hfin
  have hstep : ∀ t, ∃ d : ℝ, r (c^[t] i) (c^[t + 1] i) = d ∧ d + γ * a (t + 1) ≤ a t + γ * ε := by
    intro t
    obtain ⟨b, d, h1, h2, h3⟩ := step _ _ (ha t)
    rw [← Function.iterate_succ_apply' c t i, ha (t + 1), WithTop.coe_inj] at h1
    exact ⟨d, by rw [Function.iterate_succ_apply']; exact h2, by rw [h1]; exact h3⟩
  choose d hd hle using hstep
  have hsum : Summable fun t => γ ^ t * d t := by
    have hB : ∃ B, ∀ t, |d t| ≤ B := by
      refine ⟨∑ j, |(r j (c j)).untopD 0|, fun t => ?_⟩
      have := Finset.single_le_sum (f := fun j => |(r j (c j)).untopD 0|) (fun _ _ => abs_nonneg _) (Finset.mem_univ (c^[t] i))
      have e := hd t
      rw [Function.iterate_succ_apply'] at e
      simpa only [e, WithTop.untopD_coe] using this
    obtain ⟨B, hB⟩ := hB
    refine Summable.of_norm_bounded ((summable_geometric_of_lt_one hγ.le hγ1).mul_right B) fun t => ?_
    rw [Real.norm_eq_abs, abs_mul, abs_of_pos (pow_pos hγ t)]
    exact mul_le_mul_of_nonneg_left (hB t) (pow_pos hγ t).le
  refine ⟨_, ⟨d, hd, hsum.hasSum⟩, ?_⟩
  have e0 : a 0 = v := by
    have := ha 0
    rw [Function.iterate_zero_apply, hv, WithTop.coe_inj] at this
    exact this.symm
  rw [← e0]
  refine telescope_ge hγ hγ1 (by positivity) hsum.hasSum ?_ hle
  obtain ⟨B, hB⟩ := values_bounded V
  exact ⟨B, fun t => by simpa [ha t] using hB (c^[t] i)⟩

/-- C102. Let value iteration return `V` and `policy`. If every infinite path from `i` has an infinitely expensive transition, `V i` is
infinite. Otherwise it is finite and within `γ ε / (1 - γ)` of the infimum of the discounted costs of the infinite paths from `i`. -/
theorem C102_values (hγ : 0 < γ) (hγ1 : γ < 1) {ε : ℝ} (hε : 0 < ε) {u : Fin n → Fin n → U} {u0 : U} {fuel : ℕ}
    {V : Fin n → WithTop ℝ} {policy : Fin n → U} (h : valueIteration γ ε r u u0 fuel = some (V, policy)) (i : Fin n) :
    ((costsFrom γ r i) = ∅ → V i = ⊤) ∧
      ((costsFrom γ r i).Nonempty → ∃ v : ℝ, V i = v ∧ BddBelow (costsFrom γ r i) ∧ |v - sInf (costsFrom γ r i)| ≤ γ * ε / (1 - γ)) := by
  obtain ⟨h1, W, h2, h3, -⟩ := result_spec hε h
  constructor
  · intro he
    by_contra hv
    obtain ⟨x, hx, -⟩ := policy_upper hγ hγ1 hε h2 h3 (WithTop.coe_untop _ hv).symm
    have : x ∈ costsFrom γ r i := ⟨_, rfl, hx⟩
    rw [he] at this
    exact this
  · intro hne
    obtain ⟨y, hy⟩ := hne
    obtain ⟨v, hv, -⟩ := path_lower hγ hγ1 hε h1 h2 h3 hy
    have hlow : ∀ y ∈ costsFrom γ r i, v - γ * ε / (1 - γ) ≤ y := by
      intro y hy
      obtain ⟨v', hv', hle⟩ := path_lower hγ hγ1 hε h1 h2 h3 hy
      rw [hv, WithTop.coe_inj] at hv'
      rw [hv']
      linarith
    have hbdd : BddBelow (costsFrom γ r i) := ⟨_, fun y hy => hlow y hy⟩
    refine ⟨v, hv, hbdd, ?_⟩
    obtain ⟨x, hx, hxv⟩ := policy_upper hγ hγ1 hε h2 h3 hv
    have a1 := csInf_le hbdd (show x ∈ costsFrom γ r i from ⟨_, rfl, hx⟩)
    have a2 := le_csInf ⟨y, hy⟩ hlow
    exact abs_le.2 ⟨by linarith, by linarith⟩

/-- C102. The policy is the control of a transition to a successor `c i`, and following these successors costs at most
`2 γ ε / (1 - γ)` more than any other path. -/
theorem C102_policy (hγ : 0 < γ) (hγ1 : γ < 1) {ε : ℝ} (hε : 0 < ε) {u : Fin n → Fin n → U} {u0 : U} {fuel : ℕ}
    {V : Fin n → WithTop ℝ} {policy : Fin n → U} (h : valueIteration γ ε r u u0 fuel = some (V, policy)) :
    ∃ c : Fin n → Fin n, (∀ i, policy i = u i (c i)) ∧ ∀ i, (costsFrom γ r i).Nonempty →
      ∃ x, PathCost γ r (fun t => c^[t] i) x ∧ ∀ y ∈ costsFrom γ r i, x ≤ y + 2 * (γ * ε / (1 - γ)) := by
  obtain ⟨h1, W, h2, h3, h4⟩ := result_spec hε h
  refine ⟨fun j => lookaheadArg γ r (W j) j, h4, fun i hne => ?_⟩
  obtain ⟨y, hy⟩ := hne
  obtain ⟨v, hv, -⟩ := path_lower hγ hγ1 hε h1 h2 h3 hy
  obtain ⟨x, hx, hxv⟩ := policy_upper hγ hγ1 hε h2 h3 hv
  refine ⟨x, hx, fun y hy => ?_⟩
  obtain ⟨v', hv', hle⟩ := path_lower hγ hγ1 hε h1 h2 h3 hy
  rw [hv, WithTop.coe_inj] at hv'
  subst hv'
  linarith

/-- C102. More passes than needed do not change the result. -/
theorem C102_fuel {ε : ℝ} {u : Fin n → Fin n → U} {u0 : U} {fuel fuel' : ℕ} (hf : fuel ≤ fuel') {R : (Fin n → WithTop ℝ) × (Fin n → U)}
    (h : valueIteration γ ε r u u0 fuel = some R) : valueIteration γ ε r u u0 fuel' = some R := by
  unfold valueIteration at *
  generalize (fun _ => 0 : Fin n → WithTop ℝ) = V at *
  generalize (fun _ => u0 : Fin n → U) = P at *
  induction fuel generalizing fuel' V P with
  | zero => cases h
  | succ fuel ih =>
    obtain ⟨f, rfl⟩ : ∃ f, fuel' = f + 1 := ⟨fuel' - 1, by omega⟩
    rw [valueIterationLoop] at h ⊢
    split_ifs at h ⊢ with hc
    · exact h
    · exact ih (by omega) _ _ h

/-- C102. The flat index of a grid point and its three indices determine each other. -/
theorem C102_index {na nxy : ℕ} :
    (∀ i0 i1 i2, i0 < nxy → i1 < nxy → i2 < na → threeDToFlat na nxy i0 i1 i2 < nxy * nxy * na ∧
      flatTo3d na nxy (threeDToFlat na nxy i0 i1 i2) = (i0, i1, i2)) ∧
    ∀ i, i < nxy * nxy * na → ∃ i0 i1 i2, flatTo3d na nxy i = (i0, i1, i2) ∧ i0 < nxy ∧ i1 < nxy ∧ i2 < na ∧
      threeDToFlat na nxy i0 i1 i2 = i := by
  constructor
  · intro i0 i1 i2 h0 h1 h2
    have hna : 0 < na := by omega
    have hin : na * i1 + i2 < na * nxy := by
      calc na * i1 + i2 < na * i1 + na := by omega
        _ = na * (i1 + 1) := by ring
        _ ≤ na * nxy := Nat.mul_le_mul_left _ h1
    have e0 : (na * nxy * i0 + na * i1 + i2) / (na * nxy) = i0 := by
      rw [add_assoc, Nat.mul_add_div (by omega), Nat.div_eq_of_lt hin, add_zero]
    have e1 : (na * nxy * i0 + na * i1 + i2 - na * nxy * i0) / na = i1 := by
      rw [show na * nxy * i0 + na * i1 + i2 - na * nxy * i0 = na * i1 + i2 by omega, Nat.mul_add_div hna, Nat.div_eq_of_lt h2, add_zero]
    constructor
    · calc na * nxy * i0 + na * i1 + i2 < na * nxy * i0 + na * nxy := by omega
        _ = na * nxy * (i0 + 1) := by ring
        _ ≤ na * nxy * nxy := Nat.mul_le_mul_left _ h0
        _ = nxy * nxy * na := by ring
    · simp only [flatTo3d, threeDToFlat, e0, e1, Prod.mk.injEq, true_and]
      omega
  · intro i hi
    have hna : 0 < na := by
      rcases Nat.eq_zero_or_pos na with rfl | h
      · simp at hi
      · exact h
    have hxy : 0 < nxy := by
      rcases Nat.eq_zero_or_pos nxy with rfl | h
      · simp at hi
      · exact h
    have hp : 0 < na * nxy := Nat.mul_pos hna hxy
    have d1 := Nat.div_add_mod i (na * nxy)
    have m1 := Nat.mod_lt i hp
    have s1 : i - na * nxy * (i / (na * nxy)) = i % (na * nxy) := by omega
    have d2 := Nat.div_add_mod (i % (na * nxy)) na
    have m2 := Nat.mod_lt (i % (na * nxy)) hna
    refine ⟨_, _, _, rfl, ?_, ?_, ?_, ?_⟩
    · rw [Nat.div_lt_iff_lt_mul hp]
      calc i < nxy * nxy * na := hi
        _ = nxy * (na * nxy) := by ring
    · rw [s1, Nat.div_lt_iff_lt_mul hna]
      exact m1.trans_eq (mul_comm _ _)
    · rw [s1]
      omega
    · rw [threeDToFlat, s1]
      omega

/-! ### A concrete case -/

namespace ValueIterationExample

/-- Three states: 0 goes to 1 at cost 1, 1 stays at cost 0, 2 has no transition of finite cost. -/
noncomputable def cost : Fin 3 → Fin 3 → WithTop ℝ := fun i j => if (i = 0 ∨ i = 1) ∧ j = 1 then if i = 0 then 1 else 0 else ⊤

theorem path (γ : ℝ) : (1 : ℝ) ∈ costsFrom γ cost 0 := by
  refine ⟨fun t => if t = 0 then 0 else 1, rfl, fun t => if t = 0 then 1 else 0, fun t => ?_, ?_⟩
  · rcases t with - | t <;> simp [cost]
  · convert hasSum_ite_eq (0 : ℕ) (1 : ℝ) using 2 with t
    rcases t with - | t <;> simp

theorem no_path (γ : ℝ) : costsFrom γ cost 2 = ∅ := by
  rw [Set.eq_empty_iff_forall_notMem]
  rintro x ⟨p, h0, c, hc, -⟩
  have := hc 0
  simp [h0, cost] at this

/-- The value of state 2 is infinite, the one of state 0 finite; the loop ends. -/
example : ∃ fuel V policy, valueIteration 0.95 0.0001 cost (fun i j => (i, j)) (0, 0) fuel = some (V, policy) ∧ V 2 = ⊤ ∧ ∃ v : ℝ, V 0 = v := by
  obtain ⟨fuel, h⟩ := C102_terminates (γ := 0.95) (by norm_num) (by norm_num) (ε := 0.0001) (by norm_num) cost (fun i j => (i, j)) (0, 0)
  obtain ⟨⟨V, policy⟩, hR⟩ := Option.isSome_iff_exists.1 h
  refine ⟨fuel, V, policy, hR, (C102_values (by norm_num) (by norm_num) (by norm_num) hR 2).1 (no_path _), ?_⟩
  obtain ⟨v, hv, -⟩ := (C102_values (by norm_num) (by norm_num) (by norm_num) hR 0).2 ⟨1, path _⟩
  exact ⟨v, hv⟩

/-- A grid of 3 x 3 positions and 4 angles. -/
example : threeDToFlat 4 3 2 1 3 = 31 ∧ flatTo3d 4 3 31 = (2, 1, 3) := by decide

end ValueIterationExample

end NNL.Props
