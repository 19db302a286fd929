import Verif.Model.Encoders
import Mathlib.Algebra.Order.Group.Abs
import Mathlib.Algebra.Order.Ring.Abs
import Mathlib.Tactic.IntervalCases

/-!
# C05: the absolute-value encoding
-/

set_option linter.unusedSectionVars false
set_option linter.unusedTactic false
set_option linter.unreachableTactic false

namespace NNL.Props

open NNL NNL.Model

variable {K : Type*} [Field K] [LinearOrder K] [IsStrictOrderedRing K]

/-- What the binaries say about the sign of `x` (utils.py 170-193). -/
def AbsSign (flag : Bool) (x : K) (z : Vec K) : Prop :=
  if flag then
    z.getD 0 0 + z.getD 1 0 + z.getD 2 0 = 1 ∧ (z.getD 0 0 = 1 → x ≤ 0) ∧
      (z.getD 1 0 = 1 → x = 0) ∧ (z.getD 2 0 = 1 → 0 ≤ x)
  else (z.getD 0 0 = 1 → 0 ≤ x) ∧ (z.getD 0 0 = 0 → x ≤ 0)

theorem len_one {s : Vec K} (h : s.length = 1) : ∃ a, s = [a] := by
  match s, h with
  | [a], _ => exact ⟨a, rfl⟩

theorem len_three {s : Vec K} (h : s.length = 3) : ∃ a b c, s = [a, b, c] := by
  match s, h with
  | [a, b, c], _ => exact ⟨a, b, c, rfl⟩

theorem loOk_fin3 (a b c x y z : K) :
    LoOk (finBound [a, b, c]) [x, y, z] ↔ a ≤ x ∧ b ≤ y ∧ c ≤ z := by
  simp only [LoOk, finBound, Option.some.injEq, forall_eq']
  constructor
  · intro h
    exact ⟨h 0 (by simp) a rfl, h 1 (by simp) b rfl, h 2 (by simp) c rfl⟩
  · rintro ⟨h0, h1, h2⟩ i hi d hd
    simp at hi
    interval_cases i <;> simp at hd <;> subst hd <;> assumption

theorem upOk_fin3 (a b c x y z : K) :
    UpOk (finBound [a, b, c]) [x, y, z] ↔ x ≤ a ∧ y ≤ b ∧ z ≤ c := by
  simp only [UpOk, finBound, Option.some.injEq, forall_eq']
  constructor
  · intro h
    exact ⟨h 0 (by simp) a rfl, h 1 (by simp) b rfl, h 2 (by simp) c rfl⟩
  · rintro ⟨h0, h1, h2⟩ i hi d hd
    simp at hi
    interval_cases i <;> simp at hd <;> subst hd <;> assumption

/-- C05. The encoder accepts exactly the ordered intervals. -/
theorem C05_abs_accepts (lo up : K) (flag : Bool) : (absEnc lo up flag).isSome ↔ lo ≤ up := by
  unfold absEnc
  split <;> simp_all

/-- C05. Soundness: every feasible point has `lo ≤ x ≤ up`, outputs `|x|`, and its binaries tell the
sign of `x`. -/
theorem C05_abs_sound (lo up x : K) (flag : Bool) (c : MIC K) (h : absEnc lo up flag = some c)
    (s z : Vec K) (hf : c.Feas [x] s z) :
    (lo ≤ x ∧ x ≤ up) ∧ c.out [x] s z = [|x|] ∧ AbsSign flag x z := by
  obtain ⟨ls, lz, bz, ⟨hi, he⟩, -⟩ := hf
  unfold absEnc at h
  split at h
  swap
  · cases h
  rename_i hlu
  simp only [Option.some.injEq] at h
  cases flag
  · -- one binary
    simp only [Bool.false_eq_true, if_false, not_false_eq_true, and_true, and_false] at h
    split_ifs at h with c1 c2 c3
    · subst h
      obtain ⟨s, rfl⟩ := len_one (by simpa [MIC.numSlack, numVar] using ls)
      obtain ⟨a, rfl⟩ := len_one (by simpa [MIC.numBinary, numVar, colT] using lz)
      have ha : a = 0 ∨ a = 1 := bz a (by simp)
      simp [MIC.ineqRows, MIC.eqRows, blockRows, List.range, List.range.loop, LRow.val, mrow,
        colT] at hi he
      simp [MIC.out, MIC.numOut, mrow, AbsSign]
      obtain ⟨r1, r2, r3, r4⟩ := hi
      rcases ha with rfl | rfl
      · have hx : x ≤ 0 := by linarith
        rw [abs_of_nonpos hx]
        refine ⟨⟨by linarith, by linarith⟩, by linarith, by simp, fun _ => hx⟩
      · have hx : 0 ≤ x := by linarith
        rw [abs_of_nonneg hx]
        refine ⟨⟨by linarith, by linarith⟩, by linarith, fun _ => hx, by simp⟩
    · subst h
      obtain ⟨s, rfl⟩ := len_one (by simpa [MIC.numSlack, numVar] using ls)
      obtain ⟨a, rfl⟩ := len_one (by simpa [MIC.numBinary, numVar, colT] using lz)
      simp [MIC.ineqRows, MIC.eqRows, blockRows, List.range, List.range.loop, LRow.val, mrow,
        colT] at hi he
      simp [MIC.out, MIC.numOut, mrow, AbsSign]
      have hx : 0 ≤ x := by linarith
      rw [abs_of_nonneg hx]
      refine ⟨⟨by linarith, by linarith⟩, by linarith, fun _ => hx, ?_⟩
      intro h0
      rw [h0] at he
      exact absurd he.2 (by simp)
    · subst h
      obtain ⟨s, rfl⟩ := len_one (by simpa [MIC.numSlack, numVar] using ls)
      obtain ⟨a, rfl⟩ := len_one (by simpa [MIC.numBinary, numVar, colT] using lz)
      simp [MIC.ineqRows, MIC.eqRows, blockRows, List.range, List.range.loop, LRow.val, mrow,
        colT] at hi he
      simp [MIC.out, MIC.numOut, mrow, AbsSign]
      have hx : x ≤ 0 := by linarith
      rw [abs_of_nonpos hx]
      refine ⟨⟨by linarith, by linarith⟩, by linarith, ?_, fun _ => hx⟩
      intro h0
      rw [h0] at he
      exact absurd he.2 (by simp)
    · exfalso
      rcases lt_or_ge lo 0 with h0 | h0
      · exact c1 ⟨h0, not_le.1 c3⟩
      · exact c2 h0
  · simp only [if_true, not_true_eq_false, and_true, and_false, if_false] at h
    split_ifs at h with c1 c2 c3 c4 c5
    all_goals first
      | (exfalso
         rcases lt_trichotomy lo 0 with h0 | h0 | h0
         · rcases lt_trichotomy up 0 with h1 | h1 | h1
           · exact c4 h1
           · exact c5 h1
           · exact c1 ⟨h0, h1⟩
         · exact c3 h0
         · exact c2 h0)
      | skip
    all_goals
      subst h
      obtain ⟨s, rfl⟩ := len_one (by simpa [MIC.numSlack, numVar] using ls)
      obtain ⟨a0, a1, a2, rfl⟩ := len_three (by simpa [MIC.numBinary, numVar, colT] using lz)
      have h0 : a0 = 0 ∨ a0 = 1 := bz a0 (by simp)
      have h1 : a1 = 0 ∨ a1 = 1 := bz a1 (by simp)
      have h2 : a2 = 0 ∨ a2 = 1 := bz a2 (by simp)
      simp only [MIC.ineqRows, MIC.eqRows, blockRows, List.range, List.range.loop, LRow.val, mrow,
        colT, zerosM, zeros, List.length_cons, List.length_nil, Option.getD_some, List.map_cons,
        List.map_nil, List.getD_cons_zero, List.getD_cons_succ, List.forall_mem_cons, dot_cons,
        dot_nil_left, dot_nil_right, List.replicate] at hi he
      simp only [MIC.out, MIC.numOut, mrow, AbsSign, List.range, List.range.loop, List.map_cons,
        List.map_nil, List.getD_cons_zero, List.getD_cons_succ, dot_cons, dot_nil_left,
        dot_nil_right, Option.getD_none, List.getD_nil, List.length_cons, List.length_nil, if_true]
      simp at hi he
      rcases h0 with rfl | rfl <;> rcases h1 with rfl | rfl <;> rcases h2 with rfl | rfl <;>
      first
        | (exfalso; norm_num at he; done)
        | (exfalso; linarith)
        | (refine ⟨⟨by linarith, by linarith⟩, ?_, by norm_num, ?_, ?_, ?_⟩
           · first
              | (rw [abs_of_nonneg (by linarith)]; congr 1; linarith)
              | (rw [abs_of_nonpos (by linarith)]; congr 1; linarith)
           · intro h; first | linarith | (exfalso; norm_num at h; done)
           · intro h; first | linarith | (exfalso; norm_num at h; done)
           · intro h; first | linarith | (exfalso; norm_num at h; done))

/-- C05. Completeness: every `x` of the interval has a feasible completion, for both settings. -/
theorem C05_abs_complete (lo up x : K) (flag : Bool) (c : MIC K) (h : absEnc lo up flag = some c)
    (hx : lo ≤ x ∧ x ≤ up) : ∃ s z, c.Feas [x] s z := by
  obtain ⟨hl, hu⟩ := hx
  unfold absEnc at h
  split at h
  swap
  · cases h
  simp only [Option.some.injEq] at h
  cases flag
  · simp only [Bool.false_eq_true, if_false, not_false_eq_true, and_true, and_false] at h
    refine ⟨[|x|], [if lo ≥ 0 ∨ (0 < up ∧ 0 ≤ x) then 1 else 0], ?_⟩
    split_ifs at h with c1 c2 c3
    · subst h
      have : ¬ (lo ≥ 0) := not_le.2 c1.1
      simp only [this, false_or, c1.2, true_and]
      refine ⟨rfl, rfl, ?_, ⟨?_, ?_⟩, ?_⟩
      · intro b hb; simp at hb; subst hb; split <;> simp
      · simp [MIC.ineqRows, blockRows, List.range, List.range.loop, LRow.val, mrow, colT]
        rcases le_or_gt 0 x with h0 | h0
        · rw [abs_of_nonneg h0]; simp only [h0, if_true]
          refine ⟨by linarith, by linarith, by linarith, by linarith⟩
        · rw [abs_of_neg h0]; simp only [not_le.2 h0, if_false]
          refine ⟨by linarith, by linarith, by linarith, by linarith⟩
      · simp [MIC.eqRows, blockRows]
      · simp [MIC.BoundsHold, LoOk, UpOk]
    · subst h
      simp only [c2, true_or, if_true]
      refine ⟨rfl, rfl, ?_, ⟨?_, ?_⟩, ?_⟩
      · intro b hb; simp at hb; subst hb; simp
      · simp [MIC.ineqRows, blockRows, List.range, List.range.loop, LRow.val, mrow, colT]
        exact ⟨hl, hu⟩
      · simp [MIC.eqRows, blockRows, List.range, List.range.loop, LRow.val, mrow, colT]
        rw [abs_of_nonneg (by linarith)]; linarith
      · simp [MIC.BoundsHold, LoOk, UpOk, finBound]
    · subst h
      have : ¬ (lo ≥ 0 ∨ (0 < up ∧ 0 ≤ x)) := by
        rintro (h | ⟨h, -⟩)
        · exact c2 h
        · linarith
      simp only [this, if_false]
      refine ⟨rfl, rfl, ?_, ⟨?_, ?_⟩, ?_⟩
      · intro b hb; simp at hb; subst hb; simp
      · simp [MIC.ineqRows, blockRows, List.range, List.range.loop, LRow.val, mrow, colT]
        exact ⟨hl, hu⟩
      · simp [MIC.eqRows, blockRows, List.range, List.range.loop, LRow.val, mrow, colT]
        rw [abs_of_nonpos (by linarith)]; linarith
      · simp [MIC.BoundsHold, LoOk, UpOk, finBound]
    · exfalso
      rcases lt_or_ge lo 0 with h0 | h0
      · exact c1 ⟨h0, not_le.1 c3⟩
      · exact c2 h0
  · simp only [if_true, not_true_eq_false, and_true, and_false, if_false] at h
    refine ⟨[|x|], if x > 0 then [0, 0, 1] else if x < 0 then [1, 0, 0] else [0, 1, 0], ?_⟩
    split_ifs at h with c1 c2 c3 c4 c5
    all_goals first
      | (exfalso
         rcases lt_trichotomy lo 0 with h0 | h0 | h0
         · rcases lt_trichotomy up 0 with h1 | h1 | h1
           · exact c4 h1
           · exact c5 h1
           · exact c1 ⟨h0, h1⟩
         · exact c3 h0
         · exact c2 h0)
      | skip
    all_goals
      subst h
      rcases lt_trichotomy x 0 with h0 | h0 | h0
    all_goals first | (exfalso; linarith) | skip
    all_goals
      first
      | rw [if_pos h0, abs_of_pos h0]
      | rw [if_neg (not_lt.2 h0.le), if_pos h0, abs_of_neg h0]
      | rw [if_neg (not_lt.2 h0.le), if_neg (not_lt.2 h0.ge), h0, abs_zero]
      refine ⟨rfl, rfl, ?_, ⟨?_, ?_⟩, ?_⟩
      · intro b hb; simp at hb; rcases hb with rfl | rfl | rfl <;> simp
      · simp [MIC.ineqRows, blockRows, List.range, List.range.loop, LRow.val, mrow, colT, zerosM,
          zeros] <;> (repeat' constructor) <;> linarith
      · simp [MIC.eqRows, blockRows, List.range, List.range.loop, LRow.val, mrow, colT]
      · simp only [MIC.BoundsHold, loOk_fin3, upOk_fin3]
        simp [LoOk, UpOk]

/-- C05, both settings, an interval touching zero (the branch with the misspelt field). -/
example : ∃ c, absEnc (0 : ℚ) 3 true = some c ∧ (∃ s z, c.Feas [2] s z) ∧
    (∀ s z, c.Feas [2] s z → c.out [2] s z = [2]) ∧ ∀ s z, ¬ c.Feas [-1] s z := by
  obtain ⟨c, hc⟩ := Option.isSome_iff_exists.1 ((C05_abs_accepts (0 : ℚ) 3 true).2 (by norm_num))
  refine ⟨c, hc, C05_abs_complete _ _ _ _ c hc (by norm_num), ?_, ?_⟩
  · intro s z h
    rw [(C05_abs_sound _ _ _ _ c hc s z h).2.1]; norm_num
  · intro s z h
    have := (C05_abs_sound _ _ _ _ c hc s z h).1
    norm_num at this

end NNL.Props
